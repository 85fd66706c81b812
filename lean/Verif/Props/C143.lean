import Verif.Props.C121
import Verif.Spec.FskFading
/-
C143 — MR-FSK frames survive fading and phase noise: every sample may have its own gain.
-/
namespace SunPhy.C143
open SunPhy Spec Complex ComplexConjugate C121
noncomputable section

theorem step_fading (a a' φ φ' x y : ℝ) :
    (a' * exp (I * (φ' : ℂ)) * exp (I * (y : ℂ))) * conj (a * exp (I * (φ : ℂ)) * exp (I * (x : ℂ))) = ((a' * a : ℝ) : ℂ) * exp (I * ((φ' - φ + (y - x) : ℝ) : ℂ)) := by
  rw [map_mul, map_mul, conj_ofReal, ← exp_conj, ← exp_conj, map_mul, map_mul, conj_I, conj_ofReal, conj_ofReal]
  rw [show (a' * exp (I * (φ' : ℂ)) * exp (I * (y : ℂ))) * (a * exp (-I * (φ : ℂ)) * exp (-I * (x : ℂ))) =
    (a' * a : ℂ) * (exp (I * (φ' : ℂ)) * exp (I * (y : ℂ)) * exp (-I * (φ : ℂ)) * exp (-I * (x : ℂ))) by ring, ← exp_add, ← exp_add, ← exp_add]
  push_cast
  congr 2
  ring

/-- A symbol that fades is decided right. -/
theorem decision_ok (p : FskParams) (hr : 1 ≤ p.symbolRate) (h2 : p.modIndex ≤ 5 / 2) (b : Bits) (r : List ℂ) (s n : Nat)
    (hn : s + n < b.length / RefF.width p.modulation) (hf : RxF.Fading p.modIndex (RefF.samples p b) r s n) :
    RxF.discriminate p.modulation p.modIndex r n = RefF.deviation p.modulation b (s + n) := by
  obtain ⟨τ, a, φ, hτ, hs, hφ⟩ := hf
  obtain ⟨t1, t2⟩ := abs_le.1 hτ
  unfold RxF.discriminate
  refine find_best _ _ (C101.dev_mem _ _ _) fun d' hd' hne => ?_
  obtain ⟨g1, g2⟩ := dev_gap _ _ _ (C101.dev_mem p.modulation b (s + n)) hd' (Ne.symm hne)
  have h2' : (p.modIndex : ℝ) ≤ 5 / 2 := by
    have : (p.modIndex : ℝ) ≤ ((5 / 2 : ℚ) : ℝ) := by exact_mod_cast h2
    push_cast at this; exact this
  have hα : RxF.turnPerSample p.modIndex ≤ Real.pi / 8 := by
    unfold RxF.turnPerSample
    have := Real.pi_pos
    nlinarith
  generalize hd : RefF.deviation p.modulation b (s + n) = d at *
  have hx : ∀ i : Nat, 5 ≤ i → i ≤ 14 → r.getD (20 * n + i) 0 = a i * exp (I * (φ i : ℂ)) * exp (I * ((RxF.turnPerSample p.modIndex * d * (20 * (s + n) + i + τ) : ℝ) : ℂ)) := by
    intro i hi hi'
    rw [(hs i hi hi').2]
    congr 1
    obtain ⟨j, hj⟩ : ∃ j : Nat, (20 * (s + n) + i + τ : ℤ) = j := ⟨_, (Int.toNat_of_nonneg (by omega)).symm⟩
    have hjR : (20 * (s + n) + i + τ : ℝ) = j := by exact_mod_cast hj
    rw [hj, Int.toNat_natCast, hjR]
    unfold RefF.samples
    rw [List.getD_eq_getElem?_getD, List.getElem?_map, List.getElem?_range (by omega)]
    simp only [Option.map_some, Option.getD_some]
    rw [show j / 20 = s + n by omega, hd, C101.tone_ref p hr]
    unfold RxF.tone RxF.turnPerSample
    congr 3; ring
  generalize hαe : RxF.turnPerSample (p.modIndex : ℝ) = α at *
  have hpi := Real.pi_pos
  have hsc : ∀ x : Int, RxF.score p.modIndex r n x = ∑ i ∈ Finset.range 9, a (5 + i + 1) * a (5 + i) * Real.cos (φ (5 + i + 1) - φ (5 + i) + α * ((d - x : Int) : ℝ)) := by
    intro x
    unfold RxF.score RxF.rotation
    rw [Finset.sum_mul, Complex.re_sum]
    refine Finset.sum_congr rfl fun i hi => ?_
    have hi := Finset.mem_range.1 hi
    rw [hx _ (by omega) (by omega), hx _ (by omega) (by omega), step_fading, mul_assoc, re_ofReal_mul, turn_re, hαe]
    congr 2
    push_cast
    ring
  rw [hsc d, hsc d']
  refine Finset.sum_lt_sum_of_nonempty ⟨0, by simp⟩ fun i hi => ?_
  have hi := Finset.mem_range.1 hi
  have ht := hφ (5 + i) (by omega) (by omega)
  have hpos : 0 < a (5 + i + 1) * a (5 + i) := mul_pos (hs _ (by omega) (by omega)).1 (hs _ (by omega) (by omega)).1
  refine mul_lt_mul_of_pos_left ?_ hpos
  generalize φ (5 + i + 1) - φ (5 + i) = θ at *
  refine lt_of_le_of_lt (cos_far α θ (d - d') hα ht g1 g2) ?_
  have := Real.cos_lt_cos_of_nonneg_of_le_pi (abs_nonneg θ) (show 2 * α - |θ| ≤ Real.pi by have := abs_nonneg θ; linarith) (by linarith)
  rw [Real.cos_abs] at this
  rw [show θ + α * ((d - d : Int) : ℝ) = θ by rw [sub_self]; simp]
  exact this

/-- **C143 (bits).**  The receiver of C121 (it knows modulation, index, SFD group, FEC scheme and interleaving, and starts `s` symbols late, within the preamble) recovers whether the frame is
coded, the flags and the message, if every later symbol is heard with its own timing error of at most five samples, arbitrary positive gains of its samples and arbitrary phases that change from
sample to sample by less than half the distance of neighbouring tones. -/
theorem C143_bits (o : FskObj) (hr : 1 ≤ o.params.symbolRate) (h2 : o.params.modIndex ≤ 5 / 2) (hs : o.params.sfd ≤ 1) (a : Arg) (m : Bits)
    (ha : checkBinaryArray a = .ok m) (iq : List ℂ) (fs : ℚ) (h : ((fskBitsToIQ id a).call o).1 = .ok (iq, fs)) (r : List ℂ) (s : Nat) (hs' : s ≤ 8 * o.params.preambleLength)
    (hl : iq.length ≤ 20 * s + r.length + 20) (hn : ∀ n, 20 * (s + n) + 20 ≤ iq.length → RxF.Fading o.params.modIndex iq r s n) :
    RxF.receiveDiscriminator (C110.profile o.params) r = some (o.params.fecEnabled, o.params.fcsType == 1, o.params.scramble, m.take (8 * (m.length / 8))) :=
  receive_decided o hr hs a m ha iq fs h r s hs' hl fun b e n hb hn' => by
    subst e
    exact decision_ok o.params hr h2 b r s n hb (hn n hn')

/-- **C143 (octets).** -/
theorem C143_octets (o : FskObj) (hr : 1 ≤ o.params.symbolRate) (h2 : o.params.modIndex ≤ 5 / 2) (hs : o.params.sfd ≤ 1) (a : Arg) (msg : List UInt8)
    (hd : C01.Denotes a msg) (h0 : msg ≠ []) (iq : List ℂ) (fs : ℚ) (h : ((fskBytesToIQ id a).call o).1 = .ok (iq, fs)) (r : List ℂ) (s : Nat) (hs' : s ≤ 8 * o.params.preambleLength)
    (hl : iq.length ≤ 20 * s + r.length + 20) (hn : ∀ n, 20 * (s + n) + 20 ≤ iq.length → RxF.Fading o.params.modIndex iq r s n) :
    ∃ b, RxF.receiveDiscriminator (C110.profile o.params) r = some (o.params.fecEnabled, o.params.fcsType == 1, o.params.scramble, b) ∧ Rx.octets b = msg := by
  obtain ⟨m, e, hml, -⟩ := C01.C01_lsb_first a msg hd h0
  rw [(fskBytesToIQ_result id a o).1] at h
  unfold fskBytesResult at h
  rw [e] at h
  have hp := List.length_pos_of_ne_nil h0
  have hm0 : m ≠ [] := by intro e; rw [e, List.length_nil] at hml; omega
  have := C143_bits o hr h2 hs (bitsArg m) m (C03.C03_identity m hm0) iq fs (by rw [(fskBitsToIQ_result id _ o).1]; exact h) r s hs' hl hn
  rw [List.take_of_length_le (by omega)] at this
  exact ⟨m, this, C100.octets_ok a msg hd h0 m e⟩

/-- **C143 (fading).**  Any sequence of positive gains, any sequence of phases without large steps, and a receiver that starts `d` samples late, within the preamble and at most five samples
off a symbol boundary. -/
theorem C143_fading (o : FskObj) (hr : 1 ≤ o.params.symbolRate) (h2 : o.params.modIndex ≤ 5 / 2) (hs : o.params.sfd ≤ 1) (a : Arg) (msg : List UInt8)
    (hd : C01.Denotes a msg) (h0 : msg ≠ []) (iq : List ℂ) (fs : ℚ) (h : ((fskBytesToIQ id a).call o).1 = .ok (iq, fs)) (g φ : Nat → ℝ) (hg : ∀ j, 0 < g j)
    (hφ : ∀ j, |φ (j + 1) - φ j| < RxF.turnPerSample o.params.modIndex) (d : Nat) (hd1 : d ≤ 160 * o.params.preambleLength) (hd2 : d % 20 ≤ 5 ∨ 15 ≤ d % 20) :
    ∃ b, RxF.receiveDiscriminator (C110.profile o.params) ((iq.drop d).mapIdx fun j x => g j * exp (I * (φ j : ℂ)) * x) =
      some (o.params.fecEnabled, o.params.fcsType == 1, o.params.scramble, b) ∧ Rx.octets b = msg := by
  refine C143_octets o hr h2 hs a msg hd h0 iq fs h _ ((d + 5) / 20) (by omega) ?_ fun n hn => ?_
  · rw [List.length_mapIdx, List.length_drop]; omega
  · refine ⟨(d : ℤ) - 20 * ((d + 5) / 20 : Nat), fun i => g (20 * n + i), fun i => φ (20 * n + i), abs_le.2 ⟨by omega, by omega⟩, fun i hi hi' => ⟨hg _, ?_⟩, fun i _ _ => hφ _⟩
    have e : ((20 * ((((d + 5) / 20 : Nat) : ℤ) + n) + i + ((d : ℤ) - 20 * ((d + 5) / 20 : Nat)) : ℤ)).toNat = d + (20 * n + i) := by omega
    rw [e, List.getD_eq_getElem?_getD, List.getElem?_mapIdx, List.getElem?_drop, List.getD_eq_getElem?_getD, List.getElem?_eq_getElem (by omega), Option.map_some,
      Option.getD_some, Option.getD_some]

/-! Non-vacuity: gains that vary by a factor of 99 and phases that wander without bound meet the hypotheses (modulation index 1). -/
example : (∀ j : Nat, 0 < (fun j : Nat => if j % 2 = 0 then (1 / 100 : ℝ) else 99 / 100) j) ∧ ∀ j : Nat, |((j + 1 : Nat) : ℝ) / 10 - (j : ℝ) / 10| < RxF.turnPerSample 1 := by
  refine ⟨fun j => by beta_reduce; split <;> norm_num, fun j => ?_⟩
  push_cast
  rw [show ((j : ℝ) + 1) / 10 - j / 10 = 1 / 10 by ring, abs_of_pos (by norm_num)]
  unfold RxF.turnPerSample
  have := Real.pi_gt_three
  linarith

end
end SunPhy.C143
