import Verif.Spec.OfdmAcquire
import Verif.Proofs.OfdmWindow
import Verif.Props.C125
/-
C127 — MR-OFDM frames survive an unknown start together with a difference between the oscillators: the repetition in the short training field tells it.
-/
namespace SunPhy.C127
open SunPhy Spec Complex
noncomputable section

/-- Energy of the noise in the `N` samples from sample `s` of the receiver on, which started `d` samples after the frame, when the frame should arrive as `c` times itself, turned by `ω` per
sample. -/
def noise (N : Nat) (ω : ℝ) (c : ℂ) (d : Nat) (iq r : List ℂ) (s : Nat) : ℝ :=
  ∑ k ∈ Finset.range N, ‖r.getD (s + k) 0 - exp (I * (ω * (s + k : Nat) : ℝ)) * (c * iq.getD (d + (s + k)) 0)‖ ^ 2

/-- The short training field repeats after a symbol. -/
theorem stf_period {p : OfdmParams} (hS : Supported p) (m : Bits) (n : Nat) (hn : n + Rx.shortLength p.option < 5 * Ref.nfft p.option - Ref.nfft p.option / 2) :
    (Ref.frame p m).getD (n + Rx.shortLength p.option) 0 = (Ref.frame p m).getD n 0 := by
  obtain ⟨_, ho, _⟩ := C91.mcs_le hS
  obtain ⟨h8, hN⟩ := C91.nfft_facts _ ho
  unfold Rx.shortLength at *
  rw [OfdmWindow.frame_stf p m _ (by omega), OfdmWindow.frame_stf p m _ (by omega), Nat.add_mod_right, if_neg (by omega), if_neg (by omega)]

/-- Energy of the short training symbol with its prefix, wherever it starts. -/
theorem short_energy {p : OfdmParams} (hS : Supported p) (m : Bits) (d : Nat) (hd : d + Rx.shortLength p.option ≤ 5 * Ref.nfft p.option - Ref.nfft p.option / 2) :
    25 / 16 * (C91.active p.option : ℝ) ≤ ∑ k ∈ Finset.range (Rx.shortLength p.option), ‖(Ref.frame p m).getD (d + k) 0‖ ^ 2 := by
  obtain ⟨_, ho, _⟩ := C91.mcs_le hS
  obtain ⟨h8, hN⟩ := C91.nfft_facts _ ho
  have hT : 0 < Rx.shortLength p.option := by unfold Rx.shortLength; omega
  let w : Int → ℝ := fun τ => 25 / 16 * ‖Ref.wave (Ref.nfft p.option) (Ref.stfTone p.option) (τ % (Rx.shortLength p.option : Int) - ((Ref.nfft p.option / 4 : Nat) : Int))‖ ^ 2
  have hw : ∀ n < 5 * Ref.nfft p.option, ‖(Ref.frame p m).getD n 0‖ ^ 2 = w n := by
    intro n hn
    have e3 : ∀ c : Prop, [Decidable c] → ‖(if c then (-1 : ℂ) else 1)‖ = 1 := by intro c _; split <;> simp
    rw [OfdmWindow.frame_stf p m _ hn, norm_mul, norm_mul, e3, mul_one, mul_pow, show ‖(5 / 4 : ℂ)‖ ^ 2 = 25 / 16 by norm_num]
    rfl
  have e1 : ∑ k ∈ Finset.range (Rx.shortLength p.option), ‖(Ref.frame p m).getD (d + k) 0‖ ^ 2 = ∑ k ∈ Finset.range (Rx.shortLength p.option), w ((d : Int) + k) := by
    refine Finset.sum_congr rfl fun k hk => ?_
    have hk := Finset.mem_range.1 hk
    rw [hw _ (by omega)]; push_cast; rfl
  rw [e1, OfdmWindow.period_sum w _ (fun τ => by show _ * _ = _ * _; rw [Int.add_emod_right])]
  have e2 : ∑ k ∈ Finset.range (Ref.nfft p.option), w ((Ref.nfft p.option / 4 : Nat) + k : Nat) = 25 / 16 * (C91.active p.option : ℝ) := by
    have := OfdmWindow.wave_sum h8 hN (Ref.stfTone p.option)
    rw [C91.stf_energy _ ho] at this
    rw [← this, Finset.mul_sum]
    refine Finset.sum_congr rfl fun k hk => ?_
    have hk := Finset.mem_range.1 hk
    show 25 / 16 * ‖Ref.wave _ _ _‖ ^ 2 = _
    rw [← Int.natCast_mod, Nat.mod_eq_of_lt (by unfold Rx.shortLength; omega)]
    congr 4
    push_cast; ring
  rw [← e2, show Rx.shortLength p.option = Ref.nfft p.option / 4 + Ref.nfft p.option by unfold Rx.shortLength; omega, Finset.sum_range_add]
  exact le_add_of_nonneg_left (Finset.sum_nonneg fun k _ => by show 0 ≤ 25 / 16 * ‖_‖ ^ 2; positivity)

theorem tuned_getD (o : Nat) (r : List ℂ) (n : Nat) : (Rx.tunedCoarse o r).getD n 0 = r.getD n 0 * exp (I * (-(Rx.coarse o r * n) : ℝ)) := by
  unfold Rx.tunedCoarse
  by_cases hn : n < r.length
  · rw [List.getD_eq_getElem?_getD, List.getElem?_map, List.getElem?_range hn]
    rfl
  · rw [List.getD_eq_getElem?_getD, List.getElem?_eq_none (by simpa using hn), List.getD_eq_getElem?_getD, List.getElem?_eq_none (by simpa using hn)]
    simp

/-- A window of `T ≤ 2N` samples is covered by two of `N`. -/
theorem cover (f : Nat → ℝ) (hf : ∀ n, 0 ≤ f n) (N T : Nat) (h1 : N ≤ T) (h2 : T ≤ 2 * N) (s : Nat) :
    ∑ k ∈ Finset.range T, f (s + k) ≤ ∑ k ∈ Finset.range N, f (s + k) + ∑ k ∈ Finset.range N, f (s + (T - N) + k) := by
  obtain ⟨x, rfl⟩ := Nat.exists_eq_add_of_le h1
  rw [Finset.sum_range_add]
  refine add_le_add le_rfl ?_
  rw [Nat.add_sub_cancel_left]
  obtain ⟨y, hy⟩ := Nat.exists_eq_add_of_le (show x ≤ N by omega)
  have : ∑ k ∈ Finset.range N, f (s + x + k) = ∑ k ∈ Finset.range y, f (s + x + k) + ∑ k ∈ Finset.range x, f (s + x + (y + k)) := by
    rw [hy, Nat.add_comm x y, Finset.sum_range_add]
  rw [this]
  refine le_trans (le_of_eq (Finset.sum_congr rfl fun k _ => ?_)) (le_add_of_nonneg_left (Finset.sum_nonneg fun _ _ => hf _))
  congr 1; omega

/-- The oscillators' difference, measured. -/
theorem coarse_ok {p : OfdmParams} (hS : Supported p) (m : Bits) (c : ℂ) (hc : c ≠ 0) (ω ε : ℝ) (hε : 0 ≤ ε) (q : ℝ) (hq : 0 < q) (hq2 : q ^ 2 = C91.active p.option)
    (hquiet : 24 * ε ≤ 5 * (‖c‖ * q)) (hω : |ω| * Rx.shortLength p.option + 24 / 5 * (ε / (‖c‖ * q)) < Real.pi) (d : Nat) (hd : d ≤ 2 * Ref.nfft p.option) (r : List ℂ)
    (hn : ∀ s, d + s + Ref.nfft p.option ≤ 5 * Ref.nfft p.option → noise (Ref.nfft p.option) ω c d (Ref.frame p m) r s ≤ ε ^ 2) :
    |Rx.coarse p.option r - ω| * Rx.shortLength p.option ≤ 24 / 5 * (ε / (‖c‖ * q)) := by
  obtain ⟨_, ho, _⟩ := C91.mcs_le hS
  obtain ⟨h8, hN⟩ := C91.nfft_facts _ ho
  have hTe : Rx.shortLength p.option = 5 * Ref.nfft p.option / 4 := rfl
  set T := Rx.shortLength p.option with hT
  set N := Ref.nfft p.option with hNd
  set iq := Ref.frame p m with hiq
  have hTp : (0 : ℝ) < (T : ℝ) := by exact_mod_cast (by omega : 0 < T)
  have hcp : 0 < ‖c‖ := norm_pos_iff.2 hc
  have hfr : 4 * (3 / 2 * ε / (5 / 4 * (‖c‖ * q))) = 24 / 5 * (ε / (‖c‖ * q)) := by field_simp; ring
  have hnoise : ∀ s, d + s + T ≤ 5 * N → ∑ k ∈ Finset.range T, ‖r.getD (s + k) 0 - exp (I * (ω * (s + k : Nat) : ℝ)) * (c * iq.getD (d + (s + k)) 0)‖ ^ 2 ≤ (3 / 2 * ε) ^ 2 := by
    intro s hs
    refine (cover (fun n => ‖r.getD n 0 - exp (I * (ω * (n : Nat) : ℝ)) * (c * iq.getD (d + n) 0)‖ ^ 2) (fun _ => sq_nonneg _) N T (by omega) (by omega) s).trans ?_
    have a1 := hn s (by omega)
    have a2 := hn (s + (T - N)) (by omega)
    unfold noise at a1 a2
    nlinarith
  have hm := Carrier.measure T (fun k => c * iq.getD (d + k) 0)
    (fun k => r.getD k 0 - exp (I * (ω * (k : Nat) : ℝ)) * (c * iq.getD (d + k) 0))
    (fun k => r.getD (T + k) 0 - exp (I * (ω * (T + k : Nat) : ℝ)) * (c * iq.getD (d + (T + k)) 0))
    (ω * T) (5 / 4 * (‖c‖ * q)) (3 / 2 * ε) (by positivity) (by positivity) (by linarith) ?_ ?_ (hnoise T (by omega)) ?_
    (fun k => r.getD k 0) (fun k => r.getD (T + k) 0) (fun k => exp (I * (ω * (k : Nat) : ℝ))) (fun k => ?_) (fun k _ => ?_) fun k hk => ?_
  · rw [hfr] at hm
    unfold Rx.coarse
    have e1 : ∀ A : ℝ, |A / (T : ℝ) - ω| * (T : ℝ) = |A - ω * T| := fun A => by
      rw [← abs_of_pos hTp, ← abs_mul, abs_of_pos hTp, sub_mul, div_mul_cancel₀ _ hTp.ne']
    rw [← hT, e1]
    exact hm
  · have := short_energy hS m d (by rw [← hT, ← hNd]; omega)
    rw [← hT, ← hiq, ← hq2] at this
    have e : ∑ k ∈ Finset.range T, ‖c * iq.getD (d + k) 0‖ ^ 2 = ‖c‖ ^ 2 * ∑ k ∈ Finset.range T, ‖iq.getD (d + k) 0‖ ^ 2 := by
      rw [Finset.mul_sum]
      exact Finset.sum_congr rfl fun k _ => by rw [norm_mul, mul_pow]
    rw [e]
    refine le_trans (le_of_eq ?_) (mul_le_mul_of_nonneg_left this (sq_nonneg ‖c‖))
    ring
  · have := hnoise 0 (by omega)
    simpa using this
  · rw [hfr, abs_mul, Nat.abs_cast]
    exact hω
  · rw [mul_comm]; exact Complex.norm_exp_ofReal_mul_I _
  · beta_reduce; ring
  · beta_reduce
    have per : iq.getD (d + (T + k)) 0 = iq.getD (d + k) 0 := by
      have := stf_period hS m (d + k) (by rw [← hT, ← hNd]; omega)
      rw [← hT, ← hiq] at this
      rw [← this]; congr 1; omega
    rw [per, show exp (I * (ω * (T + k : Nat) : ℝ)) = exp (I * (ω * T : ℝ)) * exp (I * (ω * (k : Nat) : ℝ)) by
      rw [← Complex.exp_add]; congr 1; push_cast; ring]
    ring

/-- After tuning, little noise remains in any window. -/
theorem tuned_noise {p : OfdmParams} (hS : Supported p) (m : Bits) (c : ℂ) (hc : c ≠ 0) (ω ε : ℝ) (hε : 0 ≤ ε)
    (hL : 70 * (Ref.frame p m).length * ε ≤ Ref.nfft p.option * ‖c‖) (hω : |ω| * Rx.shortLength p.option ≤ 31 / 10 ∨ ε = 0 ∧ |ω| * Rx.shortLength p.option < Real.pi) (d : Nat)
    (hd : d ≤ 2 * Ref.nfft p.option) (r : List ℂ)
    (hn : ∀ s, d + s + Ref.nfft p.option ≤ (Ref.frame p m).length → noise (Ref.nfft p.option) ω c d (Ref.frame p m) r s ≤ ε ^ 2) :
    ∃ δ, 0 ≤ δ ∧ C120.ratio (bitsOf p.mcs) * δ ≤ ‖c‖ ∧ ∀ j, d ≤ j → j + Ref.nfft p.option ≤ (Ref.frame p m).length →
      C124.noise (Ref.nfft p.option) c (Ref.frame p m) (fun n => (Rx.tunedCoarse p.option r).getD (n - d) 0) j ≤ δ ^ 2 := by
  obtain ⟨_, ho, _⟩ := C91.mcs_le hS
  obtain ⟨h8, hN⟩ := C91.nfft_facts _ ho
  have fl := C124.frame_length hS m
  have hact : (4 : ℝ) ≤ C91.active p.option := by
    have : ∀ opt ∈ [1, 2, 3, 4], 4 ≤ C91.active opt := by decide
    exact_mod_cast this _ ho
  have hcp : 0 < ‖c‖ := norm_pos_iff.2 hc
  have hsq : Real.sqrt (C91.active p.option) ^ 2 = C91.active p.option := Real.sq_sqrt (by linarith)
  have hsp : 2 ≤ Real.sqrt (C91.active p.option) := by
    rw [show (2 : ℝ) = Real.sqrt 4 by rw [show (4 : ℝ) = 2 ^ 2 by norm_num, Real.sqrt_sq (by norm_num)]]
    exact Real.sqrt_le_sqrt hact
  set q := Real.sqrt (C91.active p.option) with hq
  set iq := Ref.frame p m with hiq
  set L : ℝ := (iq.length : ℝ) with hLd
  set N : ℝ := (Ref.nfft p.option : ℝ) with hNd
  have hNp : 0 < N := by rw [hNd]; exact_mod_cast hN
  have hLN : 8 * N ≤ L := by
    rw [hLd, hNd]
    exact_mod_cast (by omega : 8 * Ref.nfft p.option ≤ iq.length)
  set x := L / N with hx
  have hx8 : 8 ≤ x := by rw [hx, le_div_iff₀ hNp]; exact hLN
  have hg' : 70 * x * ε ≤ ‖c‖ := by
    rw [hx, mul_div_assoc', div_mul_eq_mul_div, div_le_iff₀ hNp, mul_comm ‖c‖]; exact hL
  have hεc : 560 * ε ≤ ‖c‖ := by nlinarith
  have hgp : 0 < ‖c‖ * q := by positivity
  have hεg : ε / (‖c‖ * q) ≤ 1 / 1120 := by
    rw [div_le_iff₀ hgp]
    nlinarith
  have hTN : (Rx.shortLength p.option : ℝ) = 5 / 4 * N := by
    have : 4 * Rx.shortLength p.option = 5 * Ref.nfft p.option := by unfold Rx.shortLength; omega
    have h : (4 * Rx.shortLength p.option : ℝ) = 5 * N := by rw [hNd]; exact_mod_cast this
    linarith
  have hpi := Real.pi_gt_d2
  have hcar := coarse_ok hS m c hc ω ε hε q (by linarith) hsq (by nlinarith)
    (by
      rcases hω with h | ⟨h0, h⟩
      · linarith
      · rw [h0]; simpa using h) d hd r (fun s hs => hn s (by omega))
  rw [hTN] at hcar
  refine ⟨ε + 96 / 25 * (ε / (‖c‖ * q)) * x * (19 / 10 * (‖c‖ * q)), by positivity, ?_, fun j hj hjl => ?_⟩
  · have hin : ε + 96 / 25 * (ε / (‖c‖ * q)) * x * (19 / 10 * (‖c‖ * q)) = ε + 912 / 125 * ε * x := by field_simp; ring
    have hr9 : C120.ratio (bitsOf p.mcs) ≤ 9 := by unfold C120.ratio; split <;> norm_num
    rw [hin]
    refine (mul_le_mul_of_nonneg_right hr9 (by positivity)).trans ?_
    have : 0 ≤ ε * (x - 8) := mul_nonneg hε (by linarith)
    nlinarith
  · obtain ⟨s, rfl⟩ := Nat.exists_eq_add_of_le hj
    have := Carrier.detune (Ref.nfft p.option) (fun k => r.getD (s + k) 0) (fun k => c * iq.getD (d + (s + k)) 0) ω (Rx.coarse p.option r)
      (96 / 25 * (ε / (‖c‖ * q)) * x) ε (19 / 10 * (‖c‖ * q)) s hε (by positivity) (by positivity) (fun k hk => ?_) (hn s (by omega)) ?_
    · refine le_trans (le_of_eq ?_) this
      unfold C124.noise
      refine Finset.sum_congr rfl fun k _ => ?_
      beta_reduce
      rw [show d + s + k - d = s + k by omega, tuned_getD, show d + s + k = d + (s + k) by omega]
    · rw [abs_sub_comm, hx, mul_div_assoc', le_div_iff₀ hNp]
      calc |Rx.coarse p.option r - ω| * (s + k : Nat) * N = 4 / 5 * (|Rx.coarse p.option r - ω| * (5 / 4 * N)) * (s + k : Nat) := by ring
        _ ≤ 4 / 5 * (24 / 5 * (ε / (‖c‖ * q))) * L := by
          refine mul_le_mul (mul_le_mul_of_nonneg_left hcar (by norm_num)) ?_ (by positivity) (by positivity)
          rw [hLd]
          exact_mod_cast (by omega : s + k ≤ iq.length)
        _ = 96 / 25 * (ε / (‖c‖ * q)) * L := by ring
    · have := OfdmWindow.window_energy hS m (d + s)
      rw [← hiq, ← hsq] at this
      have e : ∑ k ∈ Finset.range (Ref.nfft p.option), ‖c * iq.getD (d + (s + k)) 0‖ ^ 2 = ‖c‖ ^ 2 * ∑ k ∈ Finset.range (Ref.nfft p.option), ‖iq.getD (d + s + k) 0‖ ^ 2 := by
        rw [Finset.mul_sum]
        exact Finset.sum_congr rfl fun k _ => by rw [norm_mul, mul_pow, Nat.add_assoc]
      rw [e]
      refine (mul_le_mul_of_nonneg_left this (sq_nonneg ‖c‖)).trans ?_
      have : 0 ≤ (‖c‖ * q) ^ 2 := by positivity
      nlinarith

/-- **C127 (bits).**  The receiver starts `d` samples after the frame, in the first two fifths of the short training field; a frame of `L` samples arrives with unknown gain and phase `c` and
turns by `ω` per sample, at most 3.1 per short training symbol; if the noise energy in no `N` samples exceeds `ε²`, and `70 L ε ≤ N |c|`, MCS, scrambler and the complete octets of the
message are recovered. -/
theorem C127_bits (o : OfdmObj) (hS : Supported o.params) (a : Arg) (m : Bits) (ha : checkBinaryArray a = .ok m) (iq : List ℂ) (fs : ℚ)
    (hok : ((ofdmModBitsToIQ a).call o).1 = .ok (iq, fs)) (c : ℂ) (hc : c ≠ 0) (ω ε : ℝ) (hε : 0 ≤ ε) (hL : 70 * iq.length * ε ≤ Ref.nfft o.params.option * ‖c‖)
    (hω : |ω| * Rx.shortLength o.params.option ≤ 31 / 10 ∨ ε = 0 ∧ |ω| * Rx.shortLength o.params.option < Real.pi) (d : Nat) (hd : d ≤ 2 * Ref.nfft o.params.option)
    (r : List ℂ) (hl : iq.length ≤ d + r.length)
    (hn : ∀ s, d + s + Ref.nfft o.params.option ≤ iq.length → noise (Ref.nfft o.params.option) ω c d iq r s ≤ ε ^ 2) :
    Rx.receiveAcquired o.params.option o.params.interleaving r = some (o.params.mcs, o.params.scrambler, m.take (8 * (m.length / 8))) := by
  have k := (C15.C15_bitsToIQ o hS a m ha).1.1 ⟨_, hok⟩
  obtain ⟨_, e, -⟩ := C67.C67_reference o hS a m ha k.1 k.2
  have hok' := hok
  rw [e] at hok'
  have r1 := congrArg Prod.fst (Except.ok.inj hok')
  simp only at r1
  have key : ∃ δ, 0 ≤ δ ∧ C120.ratio (bitsOf o.params.mcs) * δ ≤ ‖c‖ ∧ ∀ j, d ≤ j → j + Ref.nfft o.params.option ≤ iq.length →
      C124.noise (Ref.nfft o.params.option) c iq (fun n => (Rx.tunedCoarse o.params.option r).getD (n - d) 0) j ≤ δ ^ 2 := by
    rw [← r1] at hn hL ⊢
    exact tuned_noise hS m c hc ω ε hε hL hω d hd r hn
  obtain ⟨δ, h0, h1, h2⟩ := key
  unfold Rx.receiveAcquired
  exact C124.C124_late o hS a m ha iq fs hok c hc δ h0 h1 d (by omega) _ (by simpa [Rx.tunedCoarse] using hl) h2

/-- **C127 (octets).**  The same for octet messages. -/
theorem C127_octets (o : OfdmObj) (hS : Supported o.params) (a : Arg) (msg : List UInt8) (ha : C01.Denotes a msg) (h0 : msg ≠ []) (iq : List ℂ) (fs : ℚ)
    (hok : ((ofdmModBytesToIQ a).call o).1 = .ok (iq, fs)) (c : ℂ) (hc : c ≠ 0) (ω ε : ℝ) (hε : 0 ≤ ε) (hL : 70 * iq.length * ε ≤ Ref.nfft o.params.option * ‖c‖)
    (hω : |ω| * Rx.shortLength o.params.option ≤ 31 / 10 ∨ ε = 0 ∧ |ω| * Rx.shortLength o.params.option < Real.pi) (d : Nat) (hd : d ≤ 2 * Ref.nfft o.params.option)
    (r : List ℂ) (hl : iq.length ≤ d + r.length)
    (hn : ∀ s, d + s + Ref.nfft o.params.option ≤ iq.length → noise (Ref.nfft o.params.option) ω c d iq r s ≤ ε ^ 2) :
    ∃ b, Rx.receiveAcquired o.params.option o.params.interleaving r = some (o.params.mcs, o.params.scrambler, b) ∧ Rx.octets b = msg := by
  have key : ∃ δ, 0 ≤ δ ∧ C120.ratio (bitsOf o.params.mcs) * δ ≤ ‖c‖ ∧ ∀ j, d ≤ j → j + Ref.nfft o.params.option ≤ iq.length →
      C124.noise (Ref.nfft o.params.option) c iq (fun n => (Rx.tunedCoarse o.params.option r).getD (n - d) 0) j ≤ δ ^ 2 := by
    obtain ⟨b, -, -, -, e⟩ := C100.bytes_frame o a msg iq fs hS ha h0 hok
    rw [← e] at hn hL ⊢
    exact tuned_noise hS b c hc ω ε hε hL hω d hd r hn
  obtain ⟨δ, hδ, h1, h2⟩ := key
  unfold Rx.receiveAcquired
  exact (C124.C124_octets o hS a msg ha h0 iq fs hok c hc δ hδ h1).2 d _ (by omega) (by simpa [Rx.tunedCoarse] using hl) h2

theorem turned_getD (ω : ℝ) (x : List ℂ) (n : Nat) : (Rx.turned ω x).getD n 0 = exp (I * (ω * n : ℝ)) * x.getD n 0 := by
  unfold Rx.turned
  by_cases hn : n < x.length
  · rw [List.getD_eq_getElem?_getD, List.getElem?_map, List.getElem?_range hn]
    rfl
  · rw [List.getD_eq_getElem?_getD, List.getElem?_eq_none (by simpa using hn), List.getD_eq_getElem?_getD, List.getElem?_eq_none (by simpa using hn)]
    simp

/-- **C127 (without noise).**  Then any difference of less than half a turn per short training symbol will do. -/
theorem C127_clean (o : OfdmObj) (hS : Supported o.params) (a : Arg) (msg : List UInt8) (ha : C01.Denotes a msg) (h0 : msg ≠ []) (iq : List ℂ) (fs : ℚ)
    (hok : ((ofdmModBytesToIQ a).call o).1 = .ok (iq, fs)) (c : ℂ) (hc : c ≠ 0) (ω : ℝ) (hω : |ω| * Rx.shortLength o.params.option < Real.pi)
    (d : Nat) (hd : d ≤ 2 * Ref.nfft o.params.option) (after : List ℂ) :
    ∃ b, Rx.receiveAcquired o.params.option o.params.interleaving (Rx.turned ω ((iq.map (c * ·)).drop d ++ after)) = some (o.params.mcs, o.params.scrambler, b) ∧ Rx.octets b = msg := by
  refine C127_octets o hS a msg ha h0 iq fs hok c hc ω 0 le_rfl (by simp; positivity) (Or.inr ⟨rfl, hω⟩) d hd _ ?_ fun s hs => ?_
  · simp [Rx.turned]; omega
  · unfold noise
    rw [Finset.sum_eq_zero]
    · norm_num
    · intro k hk
      have hk := Finset.mem_range.1 hk
      have : ((iq.map (c * ·)).drop d ++ after).getD (s + k) 0 = c * iq.getD (d + (s + k)) 0 := by
        rw [List.getD_eq_getElem?_getD, List.getElem?_append_left (by simp; omega), List.getElem?_drop, List.getElem?_map, List.getD_eq_getElem?_getD,
          List.getElem?_eq_getElem (show d + (s + k) < iq.length by omega)]
        rfl
      rw [turned_getD, this, sub_self]; simp

/-! Non-vacuity: in every supported configuration of option 4 a message of one octet is modulated; its frame is received after a quarter turn, at a thousandth of its strength, by a receiver
that starts 25 samples late and whose oscillator differs by 0.15 per sample, 3980 Hz.  The noise and the difference of the other theorems: 3.1 per short training symbol of 120 µs is 4110 Hz. -/
example : ∀ p, Supported p → p.option = 4 → ∀ x : UInt8, ∃ iq fs, ((ofdmModBytesToIQ (.bytes [x])).call { params := p }).1 = .ok (iq, fs) ∧
    ∃ b, Rx.receiveAcquired p.option p.interleaving (Rx.turned (15 / 100) ((iq.map (I / 1000 * ·)).drop 25 ++ [])) = some (p.mcs, p.scrambler, b) ∧ Rx.octets b = [x] := by
  intro p hp h4 x
  have r := (bytesToIQ_result (o := { params := p }) hp (.bytes [x])).1
  obtain ⟨_, -, -, e⟩ := ofdmBytesResult_octets p (a := .bytes [x]) (msg := [x]) rfl (by simp)
  rw [if_pos (by simp)] at e
  refine ⟨_, _, r.trans e, C127_clean { params := p } hp (.bytes [x]) [x] rfl (by simp) _ _ (r.trans e) (I / 1000) (div_ne_zero I_ne_zero (by norm_num)) (15 / 100) ?_ 25 ?_ []⟩
  · change |(15 / 100 : ℝ)| * (Rx.shortLength p.option : ℝ) < Real.pi
    rw [h4, show Rx.shortLength 4 = 20 from rfl]
    have := Real.pi_gt_d2
    norm_num; linarith
  · change 25 ≤ 2 * Ref.nfft p.option
    rw [h4]; decide
example : |(15 / 100 : ℝ)| * Rx.shortLength 4 ≤ 31 / 10 ∧ 70 * 1000 * (1 / 10000 : ℝ) ≤ Ref.nfft 4 * ‖(1 / 2 : ℂ)‖ := by
  rw [show Rx.shortLength 4 = 20 from rfl, show Ref.nfft 4 = 16 from rfl]
  exact ⟨by norm_num, by norm_num⟩

end
end SunPhy.C127
