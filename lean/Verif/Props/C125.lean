import Verif.Proofs.OfdmCarrier
import Verif.Props.C124
/-
C125 — MR-OFDM frames survive a difference between the oscillators of transmitter and receiver: the two long training symbols tell it.
-/
namespace SunPhy.C125
open SunPhy Spec Complex
noncomputable section

/-- What the channel delivers turns by `ω` per sample.  Echoes arrive within the prefix and erase no active tone; the noise energy is at most `ε²` in both long training
symbols and in every symbol; what the channel delivers has energy at least `g²` in a training symbol and at most `P²` in it and in every symbol; noise and turn leave the
measured angle unambiguous; the gain of every active tone covers the noise and the remaining turn (at most `4ε/g` per training symbol) 4 times (16-QAM: 9 times). -/
structure Mild (p : OfdmParams) (len : Nat) (h iq r : List ℂ) (ω ε g P : ℝ) : Prop where
  size : iq.length ≤ r.length
  prefixed : h.length ≤ Ref.nfft p.option / 4 + 1
  nonneg : 0 ≤ ε
  training : ∀ j < 2, Rx.offsetDisturbance ω h iq r (Rx.trainingStart (Ref.nfft p.option) + j * Ref.nfft p.option) (Ref.nfft p.option) ≤ ε ^ 2
  symbols : ∀ n < Ref.symbolCount p len, Rx.offsetDisturbance ω h iq r (Rx.symbolStart (Ref.nfft p.option) n) (Ref.nfft p.option) ≤ ε ^ 2
  strong : 0 < g ∧ g ^ 2 ≤ Rx.delivered h iq (Rx.trainingStart (Ref.nfft p.option)) (Ref.nfft p.option)
  weak : 0 ≤ P ∧ Rx.delivered h iq (Rx.trainingStart (Ref.nfft p.option)) (Ref.nfft p.option) ≤ P ^ 2 ∧
    ∀ n < Ref.symbolCount p len, Rx.delivered h iq (Rx.symbolStart (Ref.nfft p.option) n) (Ref.nfft p.option) ≤ P ^ 2
  quiet : 4 * ε ≤ g
  unambiguous : |ω| * Ref.nfft p.option + 4 * (ε / g) < Real.pi
  gain : ∀ t, Rx.Active p.option t → Rx.response (Ref.nfft p.option) h t ≠ 0 ∧
    C120.ratio (bitsOf p.mcs) * (ε + 4 * (ε / g) * (iq.length / Ref.nfft p.option) * P) ≤ ‖Rx.response (Ref.nfft p.option) h t‖

theorem training_period {p : OfdmParams} (h8 : Ref.nfft p.option % 8 = 0) (hN : 0 < Ref.nfft p.option) (m : Bits) (h : List ℂ) (hh : h.length ≤ Ref.nfft p.option / 4 + 1) (k : Nat)
    (hk : k < Ref.nfft p.option) :
    Rx.through h (Ref.frame p m) (Rx.trainingStart (Ref.nfft p.option) + Ref.nfft p.option + k) =
      Rx.through h (Ref.frame p m) (Rx.trainingStart (Ref.nfft p.option) + k) := by
  rw [C120.training_through h8 m h hh k hk, ← C91.wave_period hN, ← C120.wave_delay, Nat.add_assoc]
  unfold Rx.through Rx.trainingStart
  refine Finset.sum_congr rfl fun l hl => ?_
  have hl := Finset.mem_range.1 hl
  rw [if_pos (by omega), show 5 * Ref.nfft p.option + Ref.nfft p.option / 2 + (Ref.nfft p.option + k) - l = 5 * Ref.nfft p.option + (Ref.nfft p.option / 2 + (Ref.nfft p.option + k) - l) by omega,
    C120.frame_ltf p m _ (by omega)]
  congr 2
  omega

/-- The oscillators' difference, measured. -/
theorem carrier_ok {p : OfdmParams} (hS : Supported p) (m : Bits) (h r : List ℂ) (ω ε g P : ℝ) (hm : Mild p m.length h (Ref.frame p m) r ω ε g P) :
    |Rx.carrier p.option r * Ref.nfft p.option - ω * Ref.nfft p.option| ≤ 4 * (ε / g) := by
  obtain ⟨_, ho, _⟩ := C91.mcs_le hS
  obtain ⟨h8, hN⟩ := C91.nfft_facts _ ho
  have hc : (Ref.nfft p.option : ℝ) ≠ 0 := by exact_mod_cast hN.ne'
  unfold Rx.carrier
  simp only
  rw [div_mul_cancel₀ _ hc]
  set N := Ref.nfft p.option with hNd
  set s := Rx.trainingStart N with hs
  have t0 := hm.training 0 (by norm_num)
  have t1 := hm.training 1 (by norm_num)
  rw [← hNd, ← hs, Nat.zero_mul, Nat.add_zero] at t0
  rw [← hNd, ← hs, Nat.one_mul] at t1
  unfold Rx.offsetDisturbance at t0 t1
  refine Carrier.measure N (fun k => Rx.through h (Ref.frame p m) (s + k)) (fun k => r.getD (s + k) 0 - exp (I * (ω * (s + k : Nat) : ℝ)) * Rx.through h (Ref.frame p m) (s + k))
    (fun k => r.getD (s + N + k) 0 - exp (I * (ω * (s + N + k : Nat) : ℝ)) * Rx.through h (Ref.frame p m) (s + N + k)) (ω * N) g ε hm.strong.1 hm.nonneg hm.quiet hm.strong.2 t0 t1 ?_
    (fun k => r.getD (s + k) 0) (fun k => r.getD (s + N + k) 0) (fun k => exp (I * (ω * (s + k : Nat) : ℝ))) (fun k => ?_) (fun k _ => ?_) fun k hk => ?_
  · have := hm.unambiguous
    rwa [abs_mul, Nat.abs_cast]
  · rw [mul_comm]; exact Complex.norm_exp_ofReal_mul_I _
  · beta_reduce; ring
  · beta_reduce
    rw [training_period h8 hN m h hm.prefixed k hk]
    rw [show exp (I * (ω * (s + N + k : Nat) : ℝ)) = exp (I * (ω * N : ℝ)) * exp (I * (ω * (s + k : Nat) : ℝ)) by
      rw [← Complex.exp_add]; congr 1; push_cast; ring]
    ring

theorem tuned_getD (o : Nat) (r : List ℂ) (n : Nat) (hn : n < r.length) : (Rx.tuned o r).getD n 0 = r.getD n 0 * exp (I * (-(Rx.carrier o r * n) : ℝ)) := by
  unfold Rx.tuned
  rw [List.getD_eq_getElem?_getD, List.getElem?_map, List.getElem?_range hn]
  rfl

/-- After tuning, only a little more noise remains. -/
theorem tuned_harmless {p : OfdmParams} (hS : Supported p) (m : Bits) (h r : List ℂ) (ω ε g P : ℝ) (hm : Mild p m.length h (Ref.frame p m) r ω ε g P) :
    C120.Harmless p m.length h (Ref.frame p m) (Rx.tuned p.option r) (ε + 4 * (ε / g) * ((Ref.frame p m).length / Ref.nfft p.option) * P) := by
  obtain ⟨_, ho, _⟩ := C91.mcs_le hS
  obtain ⟨h8, hN⟩ := C91.nfft_facts _ ho
  have hc : (0 : ℝ) < (Ref.nfft p.option : ℝ) := by exact_mod_cast hN
  have hε := hm.nonneg
  have hg := hm.strong.1
  have hP := hm.weak.1
  have hlr := hm.size
  have hcar := carrier_ok hS m h r ω ε g P hm
  rw [← sub_mul, abs_mul, Nat.abs_cast] at hcar
  have hD : 0 ≤ 4 * (ε / g) * ((Ref.frame p m).length / Ref.nfft p.option) := by positivity
  have key : ∀ s, s + Ref.nfft p.option ≤ (Ref.frame p m).length → Rx.offsetDisturbance ω h (Ref.frame p m) r s (Ref.nfft p.option) ≤ ε ^ 2 →
      Rx.delivered h (Ref.frame p m) s (Ref.nfft p.option) ≤ P ^ 2 →
      Rx.disturbance h (Ref.frame p m) (Rx.tuned p.option r) s (Ref.nfft p.option) ≤ (ε + 4 * (ε / g) * ((Ref.frame p m).length / Ref.nfft p.option) * P) ^ 2 := by
    intro s hs h1 h2
    have := Carrier.detune (Ref.nfft p.option) (fun k => r.getD (s + k) 0) (fun k => Rx.through h (Ref.frame p m) (s + k)) ω (Rx.carrier p.option r)
      (4 * (ε / g) * ((Ref.frame p m).length / Ref.nfft p.option)) ε P s hε hD hP (fun k hk => ?_) h1 h2
    · refine le_trans (le_of_eq ?_) this
      unfold Rx.disturbance
      refine Finset.sum_congr rfl fun k hk => ?_
      have hk := Finset.mem_range.1 hk
      rw [tuned_getD _ _ _ (by omega)]
    · rw [abs_sub_comm, mul_div_assoc', le_div_iff₀ hc]
      calc |Rx.carrier p.option r - ω| * (s + k : Nat) * Ref.nfft p.option = (|Rx.carrier p.option r - ω| * Ref.nfft p.option) * (s + k : Nat) := by ring
        _ ≤ 4 * (ε / g) * (Ref.frame p m).length := by
          refine mul_le_mul hcar ?_ (by positivity) (by positivity)
          exact_mod_cast (by omega : s + k ≤ (Ref.frame p m).length)
  have hcnt : 0 < Ref.symbolCount p m.length := by
    have key : ∀ p ∈ allSupported, 0 < Ref.headerCount p := by decide +kernel
    have := key _ (mem_allSupported hS)
    unfold Ref.symbolCount
    omega
  refine ⟨by simpa [Rx.tuned] using hlr, hm.prefixed, by positivity, key _ (C120.symbol_end hS m 0 hcnt).2 ?_ hm.weak.2.1, fun n hn => key _ (C120.symbol_end hS m n hn).1 (hm.symbols n hn) (hm.weak.2.2 n hn),
    hm.gain⟩
  simpa using hm.training 0 (by norm_num)

/-- **C125 (bits).**  Whatever the channel and whatever the oscillators' difference within half a turn per symbol, if the disturbance is mild, the receiver that measures
the difference between the two long training symbols recovers MCS, scrambler and the complete octets of the message from the frame that `bitsToIQ` returned. -/
theorem C125_bits (o : OfdmObj) (hS : Supported o.params) (a : Arg) (m : Bits) (ha : checkBinaryArray a = .ok m) (iq : List ℂ) (fs : ℚ)
    (hok : ((ofdmModBitsToIQ a).call o).1 = .ok (iq, fs)) (h r : List ℂ) (ω ε g P : ℝ) (hm : Mild o.params m.length h iq r ω ε g P) :
    Rx.receiveTuned o.params.option o.params.interleaving r = some (o.params.mcs, o.params.scrambler, m.take (8 * (m.length / 8))) := by
  have k := (C15.C15_bitsToIQ o hS a m ha).1.1 ⟨_, hok⟩
  obtain ⟨_, e, -⟩ := C67.C67_reference o hS a m ha k.1 k.2
  rw [e] at hok
  have r1 := congrArg Prod.fst (Except.ok.inj hok)
  simp only at r1
  subst r1
  have t := C100.receive_tones hS m k.2 _ (C120.equalised_tones hS m h _ _ (tuned_harmless hS m h r ω ε g P hm))
  unfold Rx.receiveTuned Rx.receiveEqualised
  exact t

/-- **C125 (octets).**  The same for octet messages. -/
theorem C125_octets (o : OfdmObj) (hS : Supported o.params) (a : Arg) (msg : List UInt8) (ha : C01.Denotes a msg) (h0 : msg ≠ []) (iq : List ℂ) (fs : ℚ)
    (hok : ((ofdmModBytesToIQ a).call o).1 = .ok (iq, fs)) (h r : List ℂ) (ω ε g P : ℝ) (hm : Mild o.params (8 * msg.length) h iq r ω ε g P) :
    ∃ b, Rx.receiveTuned o.params.option o.params.interleaving r = some (o.params.mcs, o.params.scrambler, b) ∧ Rx.octets b = msg := by
  obtain ⟨b, hb, hbl, l2, rfl⟩ := C100.bytes_frame o a msg iq fs hS ha h0 hok
  refine ⟨b, ?_, C100.octets_ok a msg ha h0 b hb⟩
  rw [← hbl] at hm
  have := C100.receive_tones hS b (by omega) _ (C120.equalised_tones hS b h _ _ (tuned_harmless hS b h r ω ε g P hm))
  rw [List.take_of_length_le (show b.length ≤ 8 * (b.length / 8) by omega)] at this
  exact this

/-- A tone in use in what the channel delivers of the first long training symbol. -/
theorem delivered_tone {p : OfdmParams} (hS : Supported p) (m : Bits) (h : List ℂ) (hh : h.length ≤ Ref.nfft p.option / 4 + 1) (t : Int) (ht : Rx.Active p.option t) :
    ‖Rx.response (Ref.nfft p.option) h t‖ ^ 2 ≤ Rx.delivered h (Ref.frame p m) (Rx.trainingStart (Ref.nfft p.option)) (Ref.nfft p.option) := by
  obtain ⟨_, ho, _⟩ := C91.mcs_le hS
  obtain ⟨h8, hN⟩ := C91.nfft_facts _ ho
  have hz : ∀ i : Nat, (List.replicate (Rx.trainingStart (Ref.nfft p.option) + Ref.nfft p.option) (0 : ℂ)).getD i 0 = 0 := fun i => by
    rw [List.getD_eq_getElem?_getD, List.getElem?_replicate]; split <;> rfl
  have h1 := C120.tone_received (by omega) hN h (Ref.frame p m) (List.replicate (Rx.trainingStart (Ref.nfft p.option) + Ref.nfft p.option) 0) _ (by simp) _
    (fun k hk => C120.training_through h8 m h hh k hk) t ht.2
  have e2 : Rx.disturbance h (Ref.frame p m) (List.replicate (Rx.trainingStart (Ref.nfft p.option) + Ref.nfft p.option) 0) (Rx.trainingStart (Ref.nfft p.option)) (Ref.nfft p.option) =
      Rx.delivered h (Ref.frame p m) (Rx.trainingStart (Ref.nfft p.option)) (Ref.nfft p.option) := by
    unfold Rx.disturbance Rx.delivered
    refine Finset.sum_congr rfl fun k _ => ?_
    rw [hz, zero_sub, norm_neg]
  rw [e2] at h1
  have e3 : C120.tone (Ref.nfft p.option) (((List.replicate (Rx.trainingStart (Ref.nfft p.option) + Ref.nfft p.option) (0 : ℂ)).drop (Rx.trainingStart (Ref.nfft p.option))).take (Ref.nfft p.option)) t = 0 := by
    have : ((List.replicate (Rx.trainingStart (Ref.nfft p.option) + Ref.nfft p.option) (0 : ℂ)).drop (Rx.trainingStart (Ref.nfft p.option))).take (Ref.nfft p.option) =
        (List.range (Ref.nfft p.option)).map fun (k : Nat) => Ref.wave (Ref.nfft p.option) (fun _ => 0) (k : Int) := by
      have w0 : ∀ k : Int, Ref.wave (Ref.nfft p.option) (fun _ => 0) k = 0 := fun k => by simp [Ref.wave]
      simp [w0]
    rw [this]
    exact C120.tone_wave (by omega) hN _ t ht.2
  rw [e3, zero_sub, norm_neg, norm_mul, C120.ltf_norm _ _ ht, mul_one] at h1
  exact h1

theorem active_one : ∀ o ∈ [1, 2, 3, 4], Rx.Active o 1 := by
  have key : ∀ o ∈ [1, 2, 3, 4], ¬ (isGuard (Ref.nfft o) (Ref.guardLow o) (Ref.guardHigh o) 1 ∨ (1 : Int) = 0) ∧ (1 : Int) ∈ allTones (Ref.nfft o) := by decide +kernel
  exact key

/-- **C125 (without noise).**  Then any channel that erases no tone in use and any difference of less than half a turn per symbol will do. -/
theorem C125_clean (o : OfdmObj) (hS : Supported o.params) (a : Arg) (msg : List UInt8) (ha : C01.Denotes a msg) (h0 : msg ≠ []) (iq : List ℂ) (fs : ℚ)
    (hok : ((ofdmModBytesToIQ a).call o).1 = .ok (iq, fs)) (h r : List ℂ) (hh : h.length ≤ Ref.nfft o.params.option / 4 + 1)
    (hg : ∀ t, Rx.Active o.params.option t → Rx.response (Ref.nfft o.params.option) h t ≠ 0) (ω : ℝ) (hω : |ω| * Ref.nfft o.params.option < Real.pi)
    (hl : iq.length ≤ r.length) (hr : ∀ i < iq.length, r.getD i 0 = exp (I * (ω * i : ℝ)) * Rx.through h iq i) :
    ∃ b, Rx.receiveTuned o.params.option o.params.interleaving r = some (o.params.mcs, o.params.scrambler, b) ∧ Rx.octets b = msg := by
  obtain ⟨b, hb, hbl, l2, rfl⟩ := C100.bytes_frame o a msg iq fs hS ha h0 hok
  set p := o.params with hp
  obtain ⟨_, ho, _⟩ := C91.mcs_le hS
  have hz : ∀ s, s + Ref.nfft p.option ≤ (Ref.frame p b).length → Rx.offsetDisturbance ω h (Ref.frame p b) r s (Ref.nfft p.option) ≤ 0 ^ 2 := by
    intro s hs
    unfold Rx.offsetDisturbance
    rw [Finset.sum_eq_zero]
    · norm_num
    · intro k hk
      have hk := Finset.mem_range.1 hk
      rw [hr _ (by omega), sub_self]; simp
  have hd : ∀ s, 0 ≤ Rx.delivered h (Ref.frame p b) s (Ref.nfft p.option) := fun s => Finset.sum_nonneg fun _ _ => sq_nonneg _
  have hsum : 0 ≤ ∑ n ∈ Finset.range (Ref.symbolCount p b.length), Rx.delivered h (Ref.frame p b) (Rx.symbolStart (Ref.nfft p.option) n) (Ref.nfft p.option) :=
    Finset.sum_nonneg fun _ _ => hd _
  have fl := C124.frame_length hS b
  obtain ⟨h8, hN⟩ := C91.nfft_facts _ ho
  have h1 := active_one _ ho
  refine C125_octets o hS a msg ha h0 _ fs hok h r ω 0 ‖Rx.response (Ref.nfft p.option) h 1‖ (1 + Rx.delivered h (Ref.frame p b) (Rx.trainingStart (Ref.nfft p.option)) (Ref.nfft p.option) +
    ∑ n ∈ Finset.range (Ref.symbolCount p b.length), Rx.delivered h (Ref.frame p b) (Rx.symbolStart (Ref.nfft p.option) n) (Ref.nfft p.option)) ?_
  rw [← hp, ← hbl]
  have ht := hd (Rx.trainingStart (Ref.nfft p.option))
  refine ⟨hl, hh, le_rfl, fun j hj => hz _ ?_, fun n hn => hz _ (C120.symbol_end hS b n hn).1, ⟨norm_pos_iff.2 (hg 1 h1), delivered_tone hS b h hh 1 h1⟩,
    ⟨by linarith, by nlinarith, fun n hn => ?_⟩, by simp, by simpa using hω, fun t ht => ⟨hg t ht, by simp⟩⟩
  · unfold Rx.trainingStart
    rcases (by omega : j = 0 ∨ j = 1) with rfl | rfl <;> omega
  · have := Finset.single_le_sum (f := fun n => Rx.delivered h (Ref.frame p b) (Rx.symbolStart (Ref.nfft p.option) n) (Ref.nfft p.option)) (fun _ _ => hd _) (Finset.mem_range.2 hn)
    have e := hd (Rx.symbolStart (Ref.nfft p.option) n)
    beta_reduce at this
    nlinarith

theorem flat_delivered (c : ℂ) (x : List ℂ) (s N : Nat) : Rx.delivered [c] x s N = ‖c‖ ^ 2 * energy (C91.window x s N) := by
  have et : ∀ i, Rx.through [c] x i = c * x.getD i 0 := fun i => by
    have := C120.echo_through 0 c x i
    simpa using this
  unfold Rx.delivered
  have e2 : energy (C91.window x s N) = ∑ k ∈ Finset.range N, ‖x.getD (s + k) 0‖ ^ 2 := by
    unfold energy C91.window
    induction N generalizing s with
    | zero => simp
    | succ N ih =>
      rw [Finset.sum_range_succ']
      have ih' := ih (s + 1)
      rcases Nat.lt_or_ge s x.length with h | h
      · rw [List.drop_eq_getElem_cons h, List.take_succ_cons, List.map_cons, List.sum_cons, ih', add_comm]
        congr 1
        · refine Finset.sum_congr rfl fun k _ => ?_
          rw [show s + 1 + k = s + (k + 1) by omega]
        · rw [Nat.add_zero, List.getD_eq_getElem _ _ h]
      · rw [List.drop_eq_nil_of_le h]
        have : ∀ k, x.getD (s + k) 0 = 0 := fun k => by rw [List.getD_eq_getElem?_getD, List.getElem?_eq_none (by omega)]; rfl
        simp only [List.take_nil, List.map_nil, List.sum_nil, this, norm_zero]
        simp
  rw [e2, Finset.mul_sum]
  exact Finset.sum_congr rfl fun k _ => by rw [et, norm_mul, mul_pow]

/-- **C125 (one path).**  A frame of `L` samples arrives with unknown gain and phase `c` and turns by `ω` per sample, at most 3.1 per symbol; if the noise energy in no
`N` samples after the short training field exceeds `ε²`, and `50 L ε ≤ N |c|`, the message is recovered. -/
theorem C125_flat (o : OfdmObj) (hS : Supported o.params) (a : Arg) (msg : List UInt8) (ha : C01.Denotes a msg) (h0 : msg ≠ []) (iq : List ℂ) (fs : ℚ)
    (hok : ((ofdmModBytesToIQ a).call o).1 = .ok (iq, fs)) (c : ℂ) (hc : c ≠ 0) (r : List ℂ) (hl : iq.length ≤ r.length) (ω : ℝ) (hω : |ω| * Ref.nfft o.params.option ≤ 31 / 10)
    (ε : ℝ) (hε : 0 ≤ ε) (hg : 50 * iq.length * ε ≤ Ref.nfft o.params.option * ‖c‖)
    (hn : ∀ j, 5 * Ref.nfft o.params.option ≤ j → j + Ref.nfft o.params.option ≤ iq.length →
      ∑ k ∈ Finset.range (Ref.nfft o.params.option), ‖r.getD (j + k) 0 - exp (I * (ω * (j + k : Nat) : ℝ)) * (c * iq.getD (j + k) 0)‖ ^ 2 ≤ ε ^ 2) :
    ∃ b, Rx.receiveTuned o.params.option o.params.interleaving r = some (o.params.mcs, o.params.scrambler, b) ∧ Rx.octets b = msg := by
  obtain ⟨b, hb, hbl, l2, rfl⟩ := C100.bytes_frame o a msg iq fs hS ha h0 hok
  set p := o.params with hp
  obtain ⟨_, ho, _⟩ := C91.mcs_le hS
  have et : ∀ x i, Rx.through [c] x i = c * x.getD i 0 := fun x i => by
    have := C120.echo_through 0 c x i
    simpa using this
  have er : ∀ N t, Rx.response N [c] t = c := fun N t => by
    have := C120.echo_response N 0 c t
    simpa using this
  have hz : ∀ s, 5 * Ref.nfft p.option ≤ s → s + Ref.nfft p.option ≤ (Ref.frame p b).length → Rx.offsetDisturbance ω [c] (Ref.frame p b) r s (Ref.nfft p.option) ≤ ε ^ 2 := by
    intro s h1 h2
    refine le_trans (le_of_eq ?_) (hn s h1 h2)
    unfold Rx.offsetDisturbance
    exact Finset.sum_congr rfl fun k _ => by rw [et]
  have fl := C124.frame_length hS b
  obtain ⟨h8, hN⟩ := C91.nfft_facts _ ho
  have hsum : ∀ opt ∈ [1, 2, 3, 4], C91.active opt = C91.pilots opt + C91.datas opt := by decide
  have hsum := hsum _ ho
  have hact : (4 : ℝ) ≤ C91.active p.option := by
    have : ∀ opt ∈ [1, 2, 3, 4], 4 ≤ C91.active opt := by decide
    exact_mod_cast this _ ho
  have hcp : 0 < ‖c‖ := norm_pos_iff.2 hc
  have hsq : Real.sqrt (C91.active p.option) ^ 2 = C91.active p.option := Real.sq_sqrt (by linarith)
  have hsp : 2 ≤ Real.sqrt (C91.active p.option) := by
    rw [show (2 : ℝ) = Real.sqrt 4 by rw [show (4 : ℝ) = 2 ^ 2 by norm_num, Real.sqrt_sq (by norm_num)]]
    exact Real.sqrt_le_sqrt hact
  set q := Real.sqrt (C91.active p.option) with hq
  set L : ℝ := ((Ref.frame p b).length : ℝ) with hL
  set N : ℝ := (Ref.nfft p.option : ℝ) with hNd
  have hNp : 0 < N := by rw [hNd]; exact_mod_cast hN
  have hLN : 8 * N ≤ L := by
    rw [hL, hNd]
    exact_mod_cast (by omega : 8 * Ref.nfft p.option ≤ (Ref.frame p b).length)
  set x := L / N with hx
  have hx8 : 8 ≤ x := by rw [hx, le_div_iff₀ hNp]; exact hLN
  have hg' : 50 * x * ε ≤ ‖c‖ := by
    rw [hx, mul_div_assoc', div_mul_eq_mul_div, div_le_iff₀ hNp, mul_comm ‖c‖]; exact hg
  have hεc : 400 * ε ≤ ‖c‖ := by nlinarith
  have hgp : 0 < ‖c‖ * q := by positivity
  have hratio : ε / (‖c‖ * q) * (‖c‖ * (27 / 20 * q)) = 27 / 20 * ε := by field_simp
  have hεg : ε / (‖c‖ * q) ≤ 1 / 800 := by
    rw [div_le_iff₀ hgp]
    nlinarith
  refine C125_octets o hS a msg ha h0 _ fs hok [c] r ω ε (‖c‖ * q) (‖c‖ * (27 / 20 * q)) ?_
  rw [← hp, ← hbl]
  refine ⟨hl, by simp, hε, fun j hj => hz _ ?_ ?_, fun n hn => hz _ ?_ (C120.symbol_end hS b n hn).1, ⟨hgp, ?_⟩, ⟨by positivity, ?_, fun n hn => ?_⟩, by nlinarith, ?_, fun t _ => ?_⟩
  · unfold Rx.trainingStart; omega
  · unfold Rx.trainingStart
    rcases (by omega : j = 0 ∨ j = 1) with rfl | rfl <;> omega
  · unfold Rx.symbolStart; omega
  · have e := C91.ltf_window hS b 0 (by norm_num)
    rw [Nat.zero_mul, Nat.add_zero] at e
    rw [flat_delivered]
    unfold Rx.trainingStart
    rw [e, mul_pow, hsq]
  · have e := C91.ltf_window hS b 0 (by norm_num)
    rw [Nat.zero_mul, Nat.add_zero] at e
    rw [flat_delivered]
    unfold Rx.trainingStart
    rw [e, mul_pow, mul_pow, hsq]
    nlinarith [sq_nonneg ‖c‖]
  · have e := C91.symbol_window hS b n hn
    rw [flat_delivered]
    rw [show Rx.symbolStart (Ref.nfft p.option) n = C91.symbolStart (Ref.nfft p.option) n by unfold Rx.symbolStart C91.symbolStart; omega, e, mul_pow, mul_pow, hsq]
    refine mul_le_mul_of_nonneg_left ((C91.symbol_tones hS b n).2.trans ?_) (sq_nonneg _)
    rw [hsum, Nat.cast_add]
    have d0 : (0 : ℝ) ≤ C91.datas p.option := Nat.cast_nonneg _
    have p0 : (0 : ℝ) ≤ C91.pilots p.option := Nat.cast_nonneg _
    unfold C91.hi
    split <;> nlinarith
  · have := Real.pi_gt_d2
    rw [← hNd]
    linarith
  · rw [er]
    refine ⟨hc, ?_⟩
    rw [← hNd, ← hL, ← hx]
    have hr9 : C120.ratio (bitsOf p.mcs) ≤ 9 := by unfold C120.ratio; split <;> norm_num
    have hin : ε + 4 * (ε / (‖c‖ * q)) * x * (‖c‖ * (27 / 20 * q)) = ε + 27 / 5 * ε * x := by
      rw [show 4 * (ε / (‖c‖ * q)) * x * (‖c‖ * (27 / 20 * q)) = 4 * x * (ε / (‖c‖ * q) * (‖c‖ * (27 / 20 * q))) by ring, hratio]; ring
    rw [hin]
    refine (mul_le_mul_of_nonneg_right hr9 (by positivity)).trans ?_
    have : 0 ≤ ε * (x - 8) := mul_nonneg hε (by linarith)
    nlinarith

/-! Non-vacuity: frames exist (C100); the tones are 31250/3 Hz apart, and 3.1 per symbol is a difference of 5140 Hz; 0.11 per sample of option 4 is 2900 Hz. -/
example : Rx.Active 4 1 ∧ Rx.response 16 [1 / 2] 1 ≠ 0 ∧ |(11 / 100 : ℝ)| * Ref.nfft 4 ≤ 31 / 10 ∧ (50 * 1000 * (1 / 100000 : ℝ)) ≤ Ref.nfft 4 * ‖(1 / 2 : ℂ)‖ := by
  refine ⟨active_one 4 (by decide), ?_, ?_, ?_⟩
  · have := C120.echo_response 16 0 (1 / 2) 1
    simp only [List.replicate_zero, List.nil_append] at this
    rw [this]
    exact mul_ne_zero (by norm_num) (exp_ne_zero _)
  · rw [show Ref.nfft 4 = 16 from rfl]; norm_num
  · rw [show Ref.nfft 4 = 16 from rfl]; norm_num

end
end SunPhy.C125
