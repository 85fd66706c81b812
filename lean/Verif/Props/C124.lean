import Verif.Proofs.OfdmSyncFind
import Verif.Props.C120
/-
C124 — An MR-OFDM receiver finds the frame by itself: neither its start, nor its strength, nor its phase need be known.
-/
namespace SunPhy.C124
open SunPhy Spec Complex SyncCheck
noncomputable section

/-- Energy of the noise in the `N` samples from frame sample `j` on, when frame sample `n` arrives as `x n` and should arrive as `c` times itself. -/
def noise (N : Nat) (c : ℂ) (iq : List ℂ) (x : Nat → ℂ) (j : Nat) : ℝ := ∑ k ∈ Finset.range N, ‖x (j + k) - c * iq.getD (j + k) 0‖ ^ 2

theorem find_ok (o : Nat) (r : List ℂ) (i : Nat) (hi : i < r.length) (h0 : ∀ j < i, ¬ Rx.Resembles o r j) (h1 : Rx.Resembles o r i) : Rx.findTraining o r = some i := by
  unfold Rx.findTraining
  rw [List.find?_range_eq_some]
  refine ⟨by simpa using h1, List.mem_range.2 hi, fun j hj => by simpa using h0 j hj⟩

theorem option_cases {p : OfdmParams} (hS : Supported p) : p.option = 1 ∨ p.option = 2 ∨ p.option = 3 ∨ p.option = 4 := by
  have := (C91.mcs_le hS).2.1
  simpa using this

theorem frame_length {p : OfdmParams} (hS : Supported p) (m : Bits) : 15 * Ref.nfft p.option / 2 + Ref.nfft p.option ≤ (Ref.frame p m).length := by
  have hcnt : 0 < Ref.symbolCount p m.length := by
    have key : ∀ p ∈ allSupported, 0 < Ref.headerCount p := by decide +kernel
    have := key _ (mem_allSupported hS)
    unfold Ref.symbolCount
    omega
  have := (C120.symbol_end hS m 0 hcnt).1
  unfold Rx.symbolStart at this
  omega

/-- The training fields in the frame. -/
theorem frame_train {p : OfdmParams} (hS : Supported p) (m : Bits) (n : Nat) (hn : n < 15 * Ref.nfft p.option / 2) :
    (Ref.frame p m).getD n 0 = trainC p.option (Ref.nfft p.option + n) / Real.sqrt (Ref.nfft p.option) := by
  obtain ⟨-, h2, h3, -⟩ := facts _ (option_cases hS)
  unfold trainC
  rw [if_neg (by omega), mul_div_cancel_left₀ _ (sqrt_ne h3), Nat.add_sub_cancel_left]
  unfold Ref.frame
  rw [List.getD_eq_getElem?_getD, List.getElem?_append_left (by rw [C120.train_length]; omega), ← List.getD_eq_getElem?_getD]

/-- Noise in one and a half symbols. -/
theorem noise_window {N : Nat} (hN : N % 2 = 0) (c : ℂ) (iq : List ℂ) (x : Nat → ℂ) (j : Nat) :
    ∑ k ∈ Finset.range (3 * N / 2), ‖x (j + k) - c * iq.getD (j + k) 0‖ ^ 2 ≤ noise N c iq x j + noise N c iq x (j + N / 2) := by
  rw [show 3 * N / 2 = N + N / 2 by omega, Finset.sum_range_add]
  unfold noise
  refine add_le_add le_rfl ?_
  have e : N = N / 2 + N / 2 := by omega
  generalize hM : N / 2 = M at *
  subst e
  rw [Finset.sum_range_add _ M M]
  have : ∀ k ∈ Finset.range M, ‖x (j + (M + M + k)) - c * iq.getD (j + (M + M + k)) 0‖ ^ 2 = ‖x (j + M + (M + k)) - c * iq.getD (j + M + (M + k)) 0‖ ^ 2 := fun k _ => by
    rw [show j + (M + M + k) = j + M + (M + k) by omega]
  rw [Finset.sum_congr rfl this]
  exact le_add_of_nonneg_left (Finset.sum_nonneg fun _ _ => sq_nonneg _)

/-- The first samples of a window replaced by nothing. -/
theorem shifted_sum (f : Nat → ℝ) (hf : ∀ n, 0 ≤ f n) (M a : Nat) : ∑ k ∈ Finset.range M, (if k < a then 0 else f (k - a)) ≤ ∑ k ∈ Finset.range M, f k := by
  rcases Nat.le_total M a with h | h
  · rw [Finset.sum_eq_zero fun k hk => if_pos (by have := Finset.mem_range.1 hk; omega)]
    exact Finset.sum_nonneg fun _ _ => hf _
  · obtain ⟨b, rfl⟩ := Nat.exists_eq_add_of_le h
    rw [Finset.sum_range_add, Finset.sum_eq_zero fun k hk => if_pos (Finset.mem_range.1 hk), zero_add, Nat.add_comm a b, Finset.sum_range_add f]
    refine le_trans (le_of_eq (Finset.sum_congr rfl fun k _ => ?_)) (le_add_of_nonneg_right (Finset.sum_nonneg fun _ _ => hf _))
    rw [if_neg (by omega), Nat.add_sub_cancel_left]

/-- Strength that suffices. -/
theorem quarter (w : Nat) (c : ℂ) (ε : ℝ) (hε : 0 ≤ ε) (h : C120.ratio w * ε ≤ ‖c‖) : ε ^ 2 ≤ ‖c‖ ^ 2 / 16 := by
  have : 4 * ε ≤ ‖c‖ := by
    refine le_trans (mul_le_mul_of_nonneg_right ?_ hε) h
    unfold C120.ratio
    split <;> norm_num
  have := pow_le_pow_left₀ (by positivity) this 2
  linarith

theorem harmless {p : OfdmParams} (hS : Supported p) (m : Bits) (c : ℂ) (hc : c ≠ 0) (ε : ℝ) (hε : 0 ≤ ε) (hg : C120.ratio (bitsOf p.mcs) * ε ≤ ‖c‖) (r : List ℂ)
    (hl : (Ref.frame p m).length ≤ r.length)
    (hn : ∀ j, 5 * Ref.nfft p.option ≤ j → j + Ref.nfft p.option ≤ (Ref.frame p m).length → noise (Ref.nfft p.option) c (Ref.frame p m) (fun n => r.getD n 0) j ≤ ε ^ 2) :
    C120.Harmless p m.length [c] (Ref.frame p m) r ε := by
  have et : ∀ x i, Rx.through [c] x i = c * x.getD i 0 := fun x i => by
    have := C120.echo_through 0 c x i
    simpa using this
  have er : ∀ N t, Rx.response N [c] t = c := fun N t => by
    have := C120.echo_response N 0 c t
    simpa using this
  have ed : ∀ s, Rx.disturbance [c] (Ref.frame p m) r s (Ref.nfft p.option) = noise (Ref.nfft p.option) c (Ref.frame p m) (fun n => r.getD n 0) s := fun s => by
    unfold Rx.disturbance noise
    exact Finset.sum_congr rfl fun k _ => by rw [et]
  obtain ⟨-, h2, h3, -⟩ := facts _ (option_cases hS)
  have fl := frame_length hS m
  refine ⟨hl, by simp, hε, ?_, fun n hn' => ?_, fun t _ => ?_⟩
  · rw [ed]; exact hn _ (by unfold Rx.trainingStart; omega) (by unfold Rx.trainingStart; omega)
  · rw [ed]; exact hn _ (by unfold Rx.symbolStart; omega) (C120.symbol_end hS m n hn').1
  · rw [er]; exact ⟨hc, hg⟩

/-- Where the receiver finds a frame that starts after `z` silent samples. -/
theorem early_found {p : OfdmParams} (hS : Supported p) (m : Bits) (c : ℂ) (hc : c ≠ 0) (ε : ℝ) (hε : 0 ≤ ε) (hg : C120.ratio (bitsOf p.mcs) * ε ≤ ‖c‖) (z : Nat) (r : List ℂ)
    (hl : z + (Ref.frame p m).length ≤ r.length) (h0 : ∀ n < z, r.getD n 0 = 0)
    (hn : ∀ j, j + Ref.nfft p.option ≤ (Ref.frame p m).length → noise (Ref.nfft p.option) c (Ref.frame p m) (fun n => r.getD (z + n) 0) j ≤ ε ^ 2) :
    Rx.findTraining p.option r = some (z + 5 * Ref.nfft p.option) ∧ C120.Harmless p m.length [c] (Ref.frame p m) (r.drop z) ε := by
  have ho := option_cases hS
  obtain ⟨-, h2, h3, -⟩ := facts _ ho
  have fl := frame_length hS m
  have q := quarter _ c ε hε hg
  have hw : ∀ j, j + 3 * Ref.nfft p.option / 2 ≤ 15 * Ref.nfft p.option / 2 →
      ∑ k ∈ Finset.range (3 * Ref.nfft p.option / 2), ‖r.getD (z + (j + k)) 0 - c * (Ref.frame p m).getD (j + k) 0‖ ^ 2 ≤ ‖c‖ ^ 2 / 8 := by
    intro j hj
    refine le_trans (noise_window (by omega) c _ (fun n => r.getD (z + n) 0) j) ?_
    have a := hn j (by omega)
    have b := hn (j + Ref.nfft p.option / 2) (by omega)
    linarith
  have hfind : Rx.findTraining p.option r = some (z + 5 * Ref.nfft p.option) := by
    refine find_ok _ _ _ (by omega) (fun i hi => ?_) ?_
    · by_cases c1 : i + Ref.nfft p.option ≤ z
      · exact not_resembles_silent _ ho r i fun k hk => h0 _ (by omega)
      · by_cases c2 : i < z
        · refine not_resembles _ ho c hc r i (i + Ref.nfft p.option - z) (by omega) (by omega)
            (fun k => if k < z - i then 0 else r.getD (z + (k - (z - i))) 0 - c * (Ref.frame p m).getD (k - (z - i)) 0) ?_ fun k hk => ?_
          · have := shifted_sum (fun n => ‖r.getD (z + n) 0 - c * (Ref.frame p m).getD n 0‖ ^ 2) (fun _ => sq_nonneg _) (3 * Ref.nfft p.option / 2) (z - i)
            refine le_trans (le_of_eq (Finset.sum_congr rfl fun k _ => ?_)) (this.trans ?_)
            · by_cases c3 : k < z - i
              · rw [if_pos c3, if_pos c3, norm_zero]; norm_num
              · rw [if_neg c3, if_neg c3]
            · have := hw 0 (by omega)
              simpa using this
          · beta_reduce
            by_cases c3 : k < z - i
            · rw [if_pos c3, h0 _ (by omega)]
              unfold trainC
              rw [if_pos (by omega)]
              simp
            · rw [if_neg c3, frame_train hS m _ (by omega), show Ref.nfft p.option + (k - (z - i)) = i + Ref.nfft p.option - z + k by omega,
                show z + (k - (z - i)) = i + k by omega]
              ring
        · refine not_resembles _ ho c hc r i (i - z + Ref.nfft p.option) (by omega) (by omega) (fun k => r.getD (z + (i - z + k)) 0 - c * (Ref.frame p m).getD (i - z + k) 0)
            (hw _ (by omega)) fun k hk => ?_
          beta_reduce
          rw [frame_train hS m _ (by omega), show Ref.nfft p.option + (i - z + k) = i - z + Ref.nfft p.option + k by omega, show z + (i - z + k) = i + k by omega]
          ring
    · refine resembles _ ho c hc r _ (fun k => r.getD (z + (5 * Ref.nfft p.option + k)) 0 - c * (Ref.frame p m).getD (5 * Ref.nfft p.option + k) 0)
        (hw _ (by omega)) fun k hk => ?_
      beta_reduce
      rw [frame_train hS m _ (by omega), show Ref.nfft p.option + (5 * Ref.nfft p.option + k) = 6 * Ref.nfft p.option + k by omega,
        show z + (5 * Ref.nfft p.option + k) = z + 5 * Ref.nfft p.option + k by omega]
      ring
  refine ⟨hfind, ?_⟩
  · refine harmless hS m c hc ε hε hg _ (by rw [List.length_drop]; omega) fun j _ hj => ?_
    refine le_trans (le_of_eq ?_) (hn j hj)
    unfold noise
    refine Finset.sum_congr rfl fun k _ => ?_
    have : (r.drop z).getD (j + k) 0 = r.getD (z + (j + k)) 0 := by rw [List.getD_eq_getElem?_getD, List.getElem?_drop, List.getD_eq_getElem?_getD]
    simp only [this]

theorem early {p : OfdmParams} (hS : Supported p) (m : Bits) (c : ℂ) (hc : c ≠ 0) (ε : ℝ) (hε : 0 ≤ ε) (hg : C120.ratio (bitsOf p.mcs) * ε ≤ ‖c‖) (z : Nat) (r : List ℂ)
    (hl : z + (Ref.frame p m).length ≤ r.length) (h0 : ∀ n < z, r.getD n 0 = 0)
    (hn : ∀ j, j + Ref.nfft p.option ≤ (Ref.frame p m).length → noise (Ref.nfft p.option) c (Ref.frame p m) (fun n => r.getD (z + n) 0) j ≤ ε ^ 2) :
    Rx.receiveUnaligned p.option p.interleaving r = Rx.receiveEqualised p.option p.interleaving (r.drop z) ∧ C120.Harmless p m.length [c] (Ref.frame p m) (r.drop z) ε := by
  obtain ⟨hfind, hh⟩ := early_found hS m c hc ε hε hg z r hl h0 hn
  refine ⟨?_, hh⟩
  unfold Rx.receiveUnaligned
  rw [hfind]
  simp only
  rw [if_pos (by omega), Nat.add_sub_cancel]

/-- Where a receiver that starts `d` samples late finds it. -/
theorem late_found {p : OfdmParams} (hS : Supported p) (m : Bits) (c : ℂ) (hc : c ≠ 0) (ε : ℝ) (hε : 0 ≤ ε) (hg : C120.ratio (bitsOf p.mcs) * ε ≤ ‖c‖) (d : Nat)
    (hd : d ≤ 5 * Ref.nfft p.option) (r : List ℂ) (hl : (Ref.frame p m).length ≤ d + r.length)
    (hn : ∀ j, d ≤ j → j + Ref.nfft p.option ≤ (Ref.frame p m).length → noise (Ref.nfft p.option) c (Ref.frame p m) (fun n => r.getD (n - d) 0) j ≤ ε ^ 2) :
    Rx.findTraining p.option r = some (5 * Ref.nfft p.option - d) ∧ C120.Harmless p m.length [c] (Ref.frame p m) (List.replicate d 0 ++ r) ε := by
  have ho := option_cases hS
  obtain ⟨-, h2, h3, -⟩ := facts _ ho
  have fl := frame_length hS m
  have q := quarter _ c ε hε hg
  have hw : ∀ j, d ≤ j → j + 3 * Ref.nfft p.option / 2 ≤ 15 * Ref.nfft p.option / 2 →
      ∑ k ∈ Finset.range (3 * Ref.nfft p.option / 2), ‖r.getD (j + k - d) 0 - c * (Ref.frame p m).getD (j + k) 0‖ ^ 2 ≤ ‖c‖ ^ 2 / 8 := by
    intro j hdj hj
    refine le_trans (noise_window (by omega) c _ (fun n => r.getD (n - d) 0) j) ?_
    have a := hn j hdj (by omega)
    have b := hn (j + Ref.nfft p.option / 2) (by omega) (by omega)
    linarith
  have hfind : Rx.findTraining p.option r = some (5 * Ref.nfft p.option - d) := by
    refine find_ok _ _ _ (by omega) (fun i hi => ?_) ?_
    · refine not_resembles _ ho c hc r i (d + i + Ref.nfft p.option) (by omega) (by omega) (fun k => r.getD (d + i + k - d) 0 - c * (Ref.frame p m).getD (d + i + k) 0)
        (hw _ (by omega) (by omega)) fun k hk => ?_
      beta_reduce
      rw [frame_train hS m _ (by omega), show Ref.nfft p.option + (d + i + k) = d + i + Ref.nfft p.option + k by omega, show d + i + k - d = i + k by omega]
      ring
    · refine resembles _ ho c hc r _ (fun k => r.getD (5 * Ref.nfft p.option + k - d) 0 - c * (Ref.frame p m).getD (5 * Ref.nfft p.option + k) 0)
        (hw _ hd (by omega)) fun k hk => ?_
      beta_reduce
      rw [frame_train hS m _ (by omega), show Ref.nfft p.option + (5 * Ref.nfft p.option + k) = 6 * Ref.nfft p.option + k by omega,
        show 5 * Ref.nfft p.option + k - d = 5 * Ref.nfft p.option - d + k by omega]
      ring
  refine ⟨hfind, ?_⟩
  · refine harmless hS m c hc ε hε hg _ (by rw [List.length_append, List.length_replicate]; omega) fun j hj5 hj => ?_
    refine le_trans (le_of_eq ?_) (hn j (by omega) hj)
    unfold noise
    refine Finset.sum_congr rfl fun k _ => ?_
    simp only
    rw [List.getD_eq_getElem?_getD, List.getElem?_append_right (by rw [List.length_replicate]; omega), List.length_replicate, ← List.getD_eq_getElem?_getD]

theorem late {p : OfdmParams} (hS : Supported p) (m : Bits) (c : ℂ) (hc : c ≠ 0) (ε : ℝ) (hε : 0 ≤ ε) (hg : C120.ratio (bitsOf p.mcs) * ε ≤ ‖c‖) (d : Nat)
    (hd : d ≤ 5 * Ref.nfft p.option) (r : List ℂ) (hl : (Ref.frame p m).length ≤ d + r.length)
    (hn : ∀ j, d ≤ j → j + Ref.nfft p.option ≤ (Ref.frame p m).length → noise (Ref.nfft p.option) c (Ref.frame p m) (fun n => r.getD (n - d) 0) j ≤ ε ^ 2) :
    Rx.receiveUnaligned p.option p.interleaving r = Rx.receiveEqualised p.option p.interleaving (List.replicate d 0 ++ r) ∧
      C120.Harmless p m.length [c] (Ref.frame p m) (List.replicate d 0 ++ r) ε := by
  obtain ⟨hfind, hh⟩ := late_found hS m c hc ε hε hg d hd r hl hn
  refine ⟨?_, hh⟩
  unfold Rx.receiveUnaligned
  rw [hfind]
  simp only
  by_cases h : d = 0
  · subst h
    rw [if_pos (by omega)]
    simp
  · rw [if_neg (by omega), show 5 * Ref.nfft p.option - (5 * Ref.nfft p.option - d) = d by omega]

/-- **C124 (before the frame).**  For every supported configuration and every bit message that `bitsToIQ` accepts, whatever the object was used for before: the frame arrives after `z`
silent samples, multiplied by any complex number `c ≠ 0`, with noise whose energy in any `N` consecutive samples of the frame is at most `ε²`, `ε` at most a quarter (16-QAM: a ninth)
of `|c|`.  The receiver, which knows the option and the interleaving but neither `z` nor `c`, recovers MCS, scrambler and the complete octets of the message. -/
theorem C124_early (o : OfdmObj) (hS : Supported o.params) (a : Arg) (m : Bits) (ha : checkBinaryArray a = .ok m) (iq : List ℂ) (fs : ℚ)
    (hok : ((ofdmModBitsToIQ a).call o).1 = .ok (iq, fs)) (c : ℂ) (hc : c ≠ 0) (ε : ℝ) (hε : 0 ≤ ε) (hg : C120.ratio (bitsOf o.params.mcs) * ε ≤ ‖c‖) (z : Nat) (r : List ℂ)
    (hl : z + iq.length ≤ r.length) (h0 : ∀ n < z, r.getD n 0 = 0)
    (hn : ∀ j, j + Ref.nfft o.params.option ≤ iq.length → noise (Ref.nfft o.params.option) c iq (fun n => r.getD (z + n) 0) j ≤ ε ^ 2) :
    Rx.receiveUnaligned o.params.option o.params.interleaving r = some (o.params.mcs, o.params.scrambler, m.take (8 * (m.length / 8))) := by
  have k := (C15.C15_bitsToIQ o hS a m ha).1.1 ⟨_, hok⟩
  obtain ⟨_, e, -⟩ := C67.C67_reference o hS a m ha k.1 k.2
  rw [e] at hok
  have r1 := congrArg Prod.fst (Except.ok.inj hok)
  simp only at r1
  subst r1
  obtain ⟨e1, hh⟩ := early hS m c hc ε hε hg z r hl h0 hn
  rw [e1]
  exact C100.receive_tones hS m k.2 _ (C120.equalised_tones hS m [c] _ ε hh)

/-- **C124 (during the short training field).**  The receiver starts `d` samples after the frame has started, before the end of the short training field. -/
theorem C124_late (o : OfdmObj) (hS : Supported o.params) (a : Arg) (m : Bits) (ha : checkBinaryArray a = .ok m) (iq : List ℂ) (fs : ℚ)
    (hok : ((ofdmModBitsToIQ a).call o).1 = .ok (iq, fs)) (c : ℂ) (hc : c ≠ 0) (ε : ℝ) (hε : 0 ≤ ε) (hg : C120.ratio (bitsOf o.params.mcs) * ε ≤ ‖c‖) (d : Nat)
    (hd : d ≤ 5 * Ref.nfft o.params.option) (r : List ℂ) (hl : iq.length ≤ d + r.length)
    (hn : ∀ j, d ≤ j → j + Ref.nfft o.params.option ≤ iq.length → noise (Ref.nfft o.params.option) c iq (fun n => r.getD (n - d) 0) j ≤ ε ^ 2) :
    Rx.receiveUnaligned o.params.option o.params.interleaving r = some (o.params.mcs, o.params.scrambler, m.take (8 * (m.length / 8))) := by
  have k := (C15.C15_bitsToIQ o hS a m ha).1.1 ⟨_, hok⟩
  obtain ⟨_, e, -⟩ := C67.C67_reference o hS a m ha k.1 k.2
  rw [e] at hok
  have r1 := congrArg Prod.fst (Except.ok.inj hok)
  simp only at r1
  subst r1
  obtain ⟨e1, hh⟩ := late hS m c hc ε hε hg d hd r hl hn
  rw [e1]
  exact C100.receive_tones hS m k.2 _ (C120.equalised_tones hS m [c] _ ε hh)

/-- **C124 (octets).**  The same for octet messages: started before the frame or during the short training field. -/
theorem C124_octets (o : OfdmObj) (hS : Supported o.params) (a : Arg) (msg : List UInt8) (ha : C01.Denotes a msg) (h0 : msg ≠ []) (iq : List ℂ) (fs : ℚ)
    (hok : ((ofdmModBytesToIQ a).call o).1 = .ok (iq, fs)) (c : ℂ) (hc : c ≠ 0) (ε : ℝ) (hε : 0 ≤ ε) (hg : C120.ratio (bitsOf o.params.mcs) * ε ≤ ‖c‖) :
    (∀ z r, z + iq.length ≤ r.length → (∀ n < z, r.getD n 0 = 0) →
      (∀ j, j + Ref.nfft o.params.option ≤ iq.length → noise (Ref.nfft o.params.option) c iq (fun n => r.getD (z + n) 0) j ≤ ε ^ 2) →
      ∃ b, Rx.receiveUnaligned o.params.option o.params.interleaving r = some (o.params.mcs, o.params.scrambler, b) ∧ Rx.octets b = msg) ∧
    (∀ d r, d ≤ 5 * Ref.nfft o.params.option → iq.length ≤ d + r.length →
      (∀ j, d ≤ j → j + Ref.nfft o.params.option ≤ iq.length → noise (Ref.nfft o.params.option) c iq (fun n => r.getD (n - d) 0) j ≤ ε ^ 2) →
      ∃ b, Rx.receiveUnaligned o.params.option o.params.interleaving r = some (o.params.mcs, o.params.scrambler, b) ∧ Rx.octets b = msg) := by
  obtain ⟨b, hb, hbl, l2, rfl⟩ := C100.bytes_frame o a msg iq fs hS ha h0 hok
  have key : ∀ r, C120.Harmless o.params b.length [c] (Ref.frame o.params b) r ε →
      Rx.receiveEqualised o.params.option o.params.interleaving r = some (o.params.mcs, o.params.scrambler, b) := by
    intro r hh
    have := C100.receive_tones hS b (by omega) _ (C120.equalised_tones hS b [c] r ε hh)
    rw [List.take_of_length_le (show b.length ≤ 8 * (b.length / 8) by omega)] at this
    exact this
  constructor
  · intro z r hl hz hn
    obtain ⟨e1, hh⟩ := early hS b c hc ε hε hg z r hl hz hn
    exact ⟨b, e1.trans (key _ hh), C100.octets_ok a msg ha h0 b hb⟩
  · intro d r hd hl hn
    obtain ⟨e1, hh⟩ := late hS b c hc ε hε hg d hd r hl hn
    exact ⟨b, e1.trans (key _ hh), C100.octets_ok a msg ha h0 b hb⟩

/-- **C124 (clean).**  Without noise: any factor but 0, any silence before, any start before the end of the short training field, anything after the frame. -/
theorem C124_clean (o : OfdmObj) (hS : Supported o.params) (a : Arg) (msg : List UInt8) (ha : C01.Denotes a msg) (h0 : msg ≠ []) (iq : List ℂ) (fs : ℚ)
    (hok : ((ofdmModBytesToIQ a).call o).1 = .ok (iq, fs)) (c : ℂ) (hc : c ≠ 0) (after : List ℂ) :
    (∀ z, ∃ b, Rx.receiveUnaligned o.params.option o.params.interleaving (List.replicate z 0 ++ iq.map (c * ·) ++ after) = some (o.params.mcs, o.params.scrambler, b) ∧ Rx.octets b = msg) ∧
    (∀ d ≤ 5 * Ref.nfft o.params.option,
      ∃ b, Rx.receiveUnaligned o.params.option o.params.interleaving ((iq.map (c * ·)).drop d ++ after) = some (o.params.mcs, o.params.scrambler, b) ∧ Rx.octets b = msg) := by
  have hm : ∀ n, (iq.map (c * ·)).getD n 0 = c * iq.getD n 0 := fun n => by
    rw [List.getD_eq_getElem?_getD, List.getD_eq_getElem?_getD, List.getElem?_map]
    cases iq[n]? <;> simp
  obtain ⟨h1, h2⟩ := C124_octets o hS a msg ha h0 iq fs hok c hc 0 le_rfl (by rw [mul_zero]; exact norm_nonneg _)
  constructor
  · intro z
    refine h1 z _ (by simp) (fun n hn => ?_) fun j hj => ?_
    · rw [List.append_assoc, List.getD_eq_getElem?_getD, List.getElem?_append_left (by simpa using hn), List.getElem?_replicate, if_pos hn]; rfl
    · unfold noise
      rw [Finset.sum_eq_zero]
      · norm_num
      · intro k hk
        have hk := Finset.mem_range.1 hk
        simp only
        rw [List.append_assoc, List.getD_eq_getElem?_getD, List.getElem?_append_right (by simp), List.length_replicate, Nat.add_sub_cancel_left,
          List.getElem?_append_left (by simp; omega), ← List.getD_eq_getElem?_getD, hm, sub_self, norm_zero]
        norm_num
  · intro d hd
    refine h2 d _ hd (by simp; omega) fun j hdj hj => ?_
    unfold noise
    rw [Finset.sum_eq_zero]
    · norm_num
    · intro k hk
      have hk := Finset.mem_range.1 hk
      simp only
      rw [List.getD_eq_getElem?_getD, List.getElem?_append_left (by simp; omega), List.getElem?_drop, show d + (j + k - d) = j + k by omega,
        ← List.getD_eq_getElem?_getD, hm, sub_self, norm_zero]
      norm_num

/-! Non-vacuity: in every supported configuration a message of one octet is modulated; its frame is received after a quarter turn, at a thousandth of its strength, after a silence of
1234 samples, and by a receiver that starts 10 samples late. -/
example : ∀ p, Supported p → ∀ x : UInt8, ∃ iq fs, ((ofdmModBytesToIQ (.bytes [x])).call { params := p }).1 = .ok (iq, fs) ∧
    (∃ b, Rx.receiveUnaligned p.option p.interleaving (List.replicate 1234 0 ++ iq.map (I / 1000 * ·) ++ []) = some (p.mcs, p.scrambler, b) ∧ Rx.octets b = [x]) ∧
    ∃ b, Rx.receiveUnaligned p.option p.interleaving ((iq.map (I / 1000 * ·)).drop 10 ++ []) = some (p.mcs, p.scrambler, b) ∧ Rx.octets b = [x] := by
  intro p hp x
  have r := (bytesToIQ_result (o := { params := p }) hp (.bytes [x])).1
  obtain ⟨_, -, -, e⟩ := ofdmBytesResult_octets p (a := .bytes [x]) (msg := [x]) rfl (by simp)
  rw [if_pos (by simp)] at e
  have := C124_clean { params := p } hp (.bytes [x]) [x] rfl (by simp) _ _ (r.trans e) (I / 1000) (div_ne_zero I_ne_zero (by norm_num)) []
  refine ⟨_, _, r.trans e, this.1 1234, this.2 10 ?_⟩
  have := (facts _ (option_cases hp)).2
  change 10 ≤ 5 * Ref.nfft p.option
  omega

end
end SunPhy.C124
