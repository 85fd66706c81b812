import Verif.Spec.FskDiscriminator
import Verif.Props.C110
import Mathlib.Analysis.Real.Pi.Bounds
import Mathlib.Analysis.SpecialFunctions.Trigonometric.Bounds
/-
C121 — MR-FSK frames received with a discriminator: unknown gain, phase, carrier offset, timing and start.
-/
namespace SunPhy.C121
open SunPhy Spec Complex ComplexConjugate
noncomputable section

theorem prod_close (a b a' b' : ℂ) (ρ ε : ℝ) (ha : ‖a‖ = ρ) (hb : ‖b‖ = ρ) (h1 : ‖a' - a‖ ≤ ε * ρ) (h2 : ‖b' - b‖ ≤ ε * ρ) (hε : 0 ≤ ε) :
    ‖a' * conj b' - a * conj b‖ ≤ (2 * ε + ε ^ 2) * ρ ^ 2 := by
  have hρ : 0 ≤ ρ := by rw [← ha]; exact norm_nonneg _
  have e : a' * conj b' - a * conj b = (a' - a) * conj (b' - b) + ((a' - a) * conj b + a * conj (b' - b)) := by
    rw [map_sub]; ring
  rw [e]
  refine le_trans (norm_add_le _ _) (le_trans (add_le_add_right (norm_add_le _ _) _) ?_)
  rw [norm_mul, norm_mul, norm_mul, RCLike.norm_conj, RCLike.norm_conj, ha, hb]
  have := mul_le_mul h1 h2 (norm_nonneg _) (by positivity)
  nlinarith

theorem exp_turn (φ : ℝ) (i : Nat) : exp (I * ((φ * (i + 1 : Nat) : ℝ) : ℂ)) * conj (exp (I * ((φ * i : ℝ) : ℂ))) = exp (I * (φ : ℂ)) := by
  rw [← exp_conj, ← exp_add]
  congr 1
  rw [map_mul, conj_I, conj_ofReal]
  push_cast; ring

theorem norm_turn (x : ℝ) : ‖exp (I * (x : ℂ))‖ = 1 := by rw [mul_comm]; exact norm_exp_ofReal_mul_I x

theorem rotation_close (r : List ℂ) (n : Nat) (c : ℂ) (φ ε : ℝ) (hε : 0 ≤ ε)
    (h : ∀ i : Nat, 5 ≤ i → i ≤ 14 → ‖r.getD (20 * n + i) 0 - c * exp (I * ((φ * i : ℝ) : ℂ))‖ ≤ ε * ‖c‖) :
    ‖RxF.rotation r n - 9 * (‖c‖ ^ 2 : ℝ) * exp (I * (φ : ℂ))‖ ≤ 9 * ((2 * ε + ε ^ 2) * ‖c‖ ^ 2) := by
  have e : (9 : ℂ) * (‖c‖ ^ 2 : ℝ) * exp (I * (φ : ℂ)) =
      ∑ i ∈ Finset.range 9, (c * exp (I * ((φ * (5 + i + 1 : Nat) : ℝ) : ℂ))) * conj (c * exp (I * ((φ * (5 + i : Nat) : ℝ) : ℂ))) := by
    have : ∀ i ∈ Finset.range 9, (c * exp (I * ((φ * (5 + i + 1 : Nat) : ℝ) : ℂ))) * conj (c * exp (I * ((φ * (5 + i : Nat) : ℝ) : ℂ))) =
        (‖c‖ ^ 2 : ℝ) * exp (I * (φ : ℂ)) := by
      intro i _
      rw [map_mul, mul_mul_mul_comm, exp_turn, mul_conj, normSq_eq_norm_sq]
    rw [Finset.sum_congr rfl this, Finset.sum_const, Finset.card_range]
    simp only [nsmul_eq_mul]; push_cast; ring
  rw [e]
  unfold RxF.rotation
  rw [← Finset.sum_sub_distrib]
  refine le_trans (norm_sum_le _ _) ?_
  refine le_trans (Finset.sum_le_card_nsmul _ _ ((2 * ε + ε ^ 2) * ‖c‖ ^ 2) fun i hi => ?_) (by simp)
  have hi := Finset.mem_range.1 hi
  exact prod_close _ _ _ _ ‖c‖ ε (by rw [norm_mul, norm_turn, mul_one]) (by rw [norm_mul, norm_turn, mul_one]) (h _ (by omega) (by omega)) (h _ (by omega) (by omega)) hε

theorem turn_re (φ x : ℝ) : (exp (I * (φ : ℂ)) * exp (-(I * (x : ℂ)))).re = Real.cos (φ - x) := by
  rw [← exp_add, show I * (φ : ℂ) + -(I * (x : ℂ)) = ((φ - x : ℝ) : ℂ) * I by push_cast; ring, exp_ofReal_mul_I_re]

/-- Angles of wrong deviations are further away. -/
theorem cos_far (α θ : ℝ) (k : Int) (hα : α ≤ Real.pi / 8) (hθ : |θ| < α) (h2 : 2 ≤ |k|) (h6 : |k| ≤ 6) : Real.cos (θ + α * k) ≤ Real.cos (2 * α - |θ|) := by
  have h0 : 0 < α := lt_of_le_of_lt (abs_nonneg _) hθ
  rw [← Real.cos_abs (θ + α * k)]
  have k2 : (2 : ℝ) ≤ |(k : ℝ)| := by rw [← Int.cast_abs]; exact_mod_cast h2
  have k6 : |(k : ℝ)| ≤ 6 := by rw [← Int.cast_abs]; exact_mod_cast h6
  have hak : |α * (k : ℝ)| = α * |(k : ℝ)| := by rw [abs_mul, abs_of_pos h0]
  have hpi := Real.pi_pos
  apply Real.cos_le_cos_of_nonneg_of_le_pi
  · nlinarith
  · have := abs_add_le θ (α * k)
    rw [hak] at this
    nlinarith
  · have := abs_sub_abs_le_abs_sub (α * (k : ℝ)) (-θ)
    rw [abs_neg, hak, show α * (k : ℝ) - -θ = θ + α * k by ring] at this
    nlinarith

theorem score_far (h : ℝ) (hh : h ≤ 5 / 2) (r : List ℂ) (n : Nat) (c : ℂ) (θ ε : ℝ) (d d' : Int) (hc : c ≠ 0) (hθ : |θ| < RxF.turnPerSample h) (hε : 0 ≤ ε)
    (hm : 2 * (2 * ε + ε ^ 2) < Real.cos θ - Real.cos (2 * RxF.turnPerSample h - |θ|)) (h2 : 2 ≤ |d - d'|) (h6 : |d - d'| ≤ 6)
    (hr : ∀ i : Nat, 5 ≤ i → i ≤ 14 → ‖r.getD (20 * n + i) 0 - c * exp (I * (((θ + RxF.turnPerSample h * d) * i : ℝ) : ℂ))‖ ≤ ε * ‖c‖) :
    RxF.score h r n d' < RxF.score h r n d := by
  have hE := rotation_close r n c (θ + RxF.turnPerSample h * d) ε hε hr
  have hα : RxF.turnPerSample h ≤ Real.pi / 8 := by
    unfold RxF.turnPerSample
    have := Real.pi_pos
    nlinarith
  generalize hαe : RxF.turnPerSample h = α at *
  have hfar := cos_far α θ (d - d') hα hθ h2 h6
  generalize hEe : RxF.rotation r n - 9 * (‖c‖ ^ 2 : ℝ) * exp (I * ((θ + α * d : ℝ) : ℂ)) = E at hE
  have hD : RxF.rotation r n = ((9 * ‖c‖ ^ 2 : ℝ) : ℂ) * exp (I * ((θ + α * d : ℝ) : ℂ)) + E := by rw [← hEe]; push_cast; ring
  have hs : ∀ x : Int, RxF.score h r n x = 9 * ‖c‖ ^ 2 * Real.cos (θ + α * d - α * x) + (E * exp (-(I * ((α * x : ℝ) : ℂ)))).re := by
    intro x
    unfold RxF.score
    rw [hD, add_mul, add_re, mul_assoc, re_ofReal_mul, turn_re, hαe]
  have hb : ∀ x : Int, |(E * exp (-(I * ((α * x : ℝ) : ℂ)))).re| ≤ 9 * ((2 * ε + ε ^ 2) * ‖c‖ ^ 2) := by
    intro x
    refine le_trans (abs_re_le_norm _) ?_
    rw [norm_mul, show -(I * ((α * x : ℝ) : ℂ)) = I * ((-(α * x) : ℝ) : ℂ) by push_cast; ring, norm_turn, mul_one]
    exact hE
  rw [hs d, hs d', show θ + α * d - α * d = θ by ring, show θ + α * d - α * d' = θ + α * ((d - d' : Int) : ℝ) by push_cast; ring]
  have b1 := abs_le.1 (hb d)
  have b2 := abs_le.1 (hb d')
  have hcp : 0 < ‖c‖ ^ 2 := by have := norm_pos_iff.2 hc; positivity
  have := mul_lt_mul_of_pos_left (lt_of_lt_of_le hm (sub_le_sub_left hfar _)) hcp
  nlinarith

theorem dev_gap (m : FskMod) (d d' : Int) (hd : d ∈ RxF.deviations m) (hd' : d' ∈ RxF.deviations m) (hne : d ≠ d') : 2 ≤ |d - d'| ∧ |d - d'| ≤ 6 := by
  cases m <;> simp only [RxF.deviations, List.mem_cons, List.not_mem_nil, or_false] at hd hd'
  · rcases hd with rfl | rfl <;> rcases hd' with rfl | rfl <;> first | contradiction | decide
  · rcases hd with rfl | rfl | rfl | rfl <;> rcases hd' with rfl | rfl | rfl | rfl <;> first | contradiction | decide

theorem find_best {m : FskMod} (f : Int → ℝ) (d : Int) (hd : d ∈ RxF.deviations m) (h : ∀ d' ∈ RxF.deviations m, d' ≠ d → f d' < f d) :
    (((RxF.deviations m).find? fun d => decide (∀ d' ∈ RxF.deviations m, f d' ≤ f d)).getD 0) = d := by
  cases e : (RxF.deviations m).find? fun d => decide (∀ d' ∈ RxF.deviations m, f d' ≤ f d) with
  | none =>
    rw [List.find?_eq_none] at e
    have := e d hd
    exfalso
    apply this
    rw [decide_eq_true_eq]
    intro d' hd'
    by_cases hq : d' = d
    · rw [hq]
    · exact (h d' hd' hq).le
  | some c =>
    have hc := List.find?_some e
    have hm := List.mem_of_find?_eq_some e
    rw [decide_eq_true_eq] at hc
    by_contra hne
    have a1 := h c hm hne
    have a2 := hc d hd
    linarith

/-- **C121 (decision).**  An audible symbol is decided correctly. -/
theorem decision_ok (p : FskParams) (hr : 1 ≤ p.symbolRate) (h2 : p.modIndex ≤ 5 / 2) (b : Bits) (r : List ℂ) (s n : Nat)
    (hn : s + n < b.length / RefF.width p.modulation) (ha : RxF.Audible p.modIndex (RefF.samples p b) r s n) :
    RxF.discriminate p.modulation p.modIndex r n = RefF.deviation p.modulation b (s + n) := by
  obtain ⟨c, θ, ε, τ, hc, hθ, hτ, hε, hm, hs⟩ := ha
  obtain ⟨t1, t2⟩ := abs_le.1 hτ
  unfold RxF.discriminate
  refine find_best _ _ (C101.dev_mem _ _ _) fun d' hd' hne => ?_
  obtain ⟨g1, g2⟩ := dev_gap _ _ _ (C101.dev_mem p.modulation b (s + n)) hd' (Ne.symm hne)
  have h2' : (p.modIndex : ℝ) ≤ 5 / 2 := by
    have : (p.modIndex : ℝ) ≤ ((5 / 2 : ℚ) : ℝ) := by exact_mod_cast h2
    push_cast at this; exact this
  generalize hd : RefF.deviation p.modulation b (s + n) = d at *
  refine score_far p.modIndex h2' r n (c * exp (I * ((RxF.turnPerSample p.modIndex * d * (20 * (s + n) + τ) : ℝ) : ℂ))) θ ε d d'
    (mul_ne_zero hc (exp_ne_zero _)) hθ hε hm g1 g2 fun i hi hi' => ?_
  have hx : (RefF.samples p b).getD (20 * (s + n) + i + τ : ℤ).toNat 0 = exp (I * ((RxF.turnPerSample p.modIndex * d * (20 * (s + n) + i + τ) : ℝ) : ℂ)) := by
    obtain ⟨j, hj⟩ : ∃ j : Nat, (20 * (s + n) + i + τ : ℤ) = j := ⟨_, (Int.toNat_of_nonneg (by omega)).symm⟩
    have hjR : (20 * (s + n) + i + τ : ℝ) = j := by exact_mod_cast hj
    rw [hj, Int.toNat_natCast, hjR]
    unfold RefF.samples
    rw [List.getD_eq_getElem?_getD, List.getElem?_map, List.getElem?_range (by omega)]
    simp only [Option.map_some, Option.getD_some]
    rw [show j / 20 = s + n by omega, hd, C101.tone_ref p hr]
    unfold RxF.tone RxF.turnPerSample
    congr 3; ring
  have := hs i hi hi'
  rw [hx] at this
  rw [norm_mul, norm_turn, mul_one]
  refine le_of_eq_of_le ?_ this
  congr 2
  rw [mul_assoc c, mul_assoc c, ← exp_add, ← exp_add]
  congr 2
  push_cast; ring

theorem bit_ok (p : FskParams) (b : Bits) (hb : b.length % RefF.width p.modulation = 0) (r : List ℂ) (s : Nat)
    (dec : ∀ n, s + n < b.length / RefF.width p.modulation → RxF.discriminate p.modulation p.modIndex r n = RefF.deviation p.modulation b (s + n))
    (j : Nat) (hj : RefF.width p.modulation * s + j < b.length) :
    RxF.bitD p.modulation p.modIndex r j = b.getD (RefF.width p.modulation * s + j) false := by
  unfold RxF.bitD
  cases hm : p.modulation with
  | FSK2 =>
    simp only
    rw [hm] at dec hj
    simp only [RefF.width, Nat.div_one] at dec hj
    rw [dec j (by omega)]
    refine (C101.dev_two b _).trans ?_
    simp only [RefF.width, Nat.one_mul]
  | FSK4 =>
    simp only
    rw [hm] at dec hb hj
    simp only [RefF.width] at dec hb hj
    rw [dec (j / 2) (by omega)]
    simp only [RefF.width]
    split
    · refine (C101.dev_sign b _).trans ?_
      congr 1; omega
    · refine (C101.dev_outer b _).trans ?_
      congr 1; omega

/-- Synchronisation when the first `q` bits were missed. -/
theorem sync_late (o : FskObj) (a : Arg) (bits : Bits) (h : ((fskBinary a).call o).1 = .ok bits) (hs : o.params.sfd ≤ 1) (q : Nat) (hq : q ≤ C110.place o.params)
    (hsz : C110.place o.params + RxF.delimiterLength o.params.modulation ≤ bits.length) (y : Nat → Bool)
    (hy : ∀ j, q + j < bits.length → y j = bits.getD (q + j) false) (limit : Nat) (hl : C110.place o.params - q < limit) :
    RxF.sync o.params.modulation o.params.sfd y limit = some (C110.place o.params - q, o.params.fecEnabled) := by
  have hw : ∀ i ≤ C110.place o.params - q, RxF.windowAt y i (RxF.delimiterLength o.params.modulation) =
      RxF.windowAt (fun j => bits.getD j false) (q + i) (RxF.delimiterLength o.params.modulation) := by
    intro i hi
    unfold RxF.windowAt
    apply List.map_congr_left
    intro j hj
    have hj := List.mem_range.1 hj
    rw [hy _ (by omega), Nat.add_assoc]
  have far : ∀ i ≤ C110.place o.params - q, ∀ c, (i ≠ C110.place o.params - q ∨ o.params.fecEnabled ≠ c) →
      ¬ hamming (RxF.windowAt y i (RxF.delimiterLength o.params.modulation)) (RxF.delimiter o.params.modulation o.params.sfd c) ≤ 2 := by
    intro i hi c hc
    have d := C110.C110_distance o a bits h hs o.params.sfd hs c (q + i) (by omega) (hc.imp (by omega) Or.inr)
    rw [if_pos rfl] at d
    rw [hw i hi]
    omega
  have near : hamming (RxF.windowAt y (C110.place o.params - q) (RxF.delimiterLength o.params.modulation)) (RxF.delimiter o.params.modulation o.params.sfd o.params.fecEnabled) ≤ 2 := by
    rw [hw _ le_rfl, show q + (C110.place o.params - q) = C110.place o.params by omega, C110.C110_present o a bits h, C110.hamming_self]
    omega
  generalize C110.place o.params - q = w at *
  unfold RxF.sync
  rw [show limit = w + (1 + (limit - w - 1)) by omega, List.range_add, List.findSome?_append]
  have e1 : (List.range w).findSome? (fun o' =>
      ([true, false].find? fun c => decide (hamming (RxF.windowAt y o' (RxF.delimiterLength o.params.modulation)) (RxF.delimiter o.params.modulation o.params.sfd c) ≤ 2)).map
        fun c => (o', c)) = none := by
    rw [List.findSome?_eq_none_iff]
    intro i hi
    have hi := List.mem_range.1 hi
    rw [Option.map_eq_none_iff, List.find?_eq_none]
    intro c _
    simpa using far i (by omega) c (Or.inl (by omega))
  rw [e1, Option.none_or, List.range_add, List.map_append, List.findSome?_append]
  simp only [List.range_one, List.map_cons, List.map_nil, Nat.add_zero, List.findSome?_cons, List.findSome?_nil]
  have e2 : ([true, false].find? fun c => decide (hamming (RxF.windowAt y w (RxF.delimiterLength o.params.modulation)) (RxF.delimiter o.params.modulation o.params.sfd c) ≤ 2)) =
      some o.params.fecEnabled := by
    cases hf : o.params.fecEnabled with
    | true => rw [hf] at near; rw [List.find?_cons_of_pos]; simpa using near
    | false =>
      have hn := far w le_rfl true (Or.inr (by rw [hf]; decide))
      rw [hf] at near
      rw [List.find?_cons_of_neg (by simpa using hn), List.find?_cons_of_pos]
      simpa using near
  rw [e2]
  rfl

/-- Number of symbols in preamble. -/
def preambleSymbols (p : FskParams) : Nat := 8 * p.preambleLength

theorem place_eq (p : FskParams) : C110.place p = RefF.width p.modulation * preambleSymbols p := by
  unfold C110.place preambleSymbols
  cases p.modulation <;> simp only [RxF.preambleUnit, RefF.width] <;> omega

/-- What is received when the symbols are decided right. -/
theorem receive_decided (o : FskObj) (hr : 1 ≤ o.params.symbolRate) (hs : o.params.sfd ≤ 1) (a : Arg) (m : Bits)
    (ha : checkBinaryArray a = .ok m) (iq : List ℂ) (fs : ℚ) (h : ((fskBitsToIQ id a).call o).1 = .ok (iq, fs)) (r : List ℂ) (s : Nat) (hs' : s ≤ 8 * o.params.preambleLength)
    (hl : iq.length ≤ 20 * s + r.length + 20)
    (hn : ∀ b : Bits, iq = RefF.samples o.params b → ∀ n, s + n < b.length / RefF.width o.params.modulation → 20 * (s + n) + 20 ≤ iq.length →
      RxF.discriminate o.params.modulation o.params.modIndex r n = RefF.deviation o.params.modulation b (s + n)) :
    RxF.receiveDiscriminator (C110.profile o.params) r = some (o.params.fecEnabled, o.params.fcsType == 1, o.params.scramble, m.take (8 * (m.length / 8))) := by
  obtain ⟨e1, e2⟩ := C69.C69_reference o hr a m ha
  have hR : ¬ C69.Refused o.params m := by intro hR; rw [e1 hR] at h; cases h
  have hbits : ((fskBinary a).call o).1 = .ok (RefF.bits o.params m) := by
    rw [C69.C69_bits o a m ha, if_neg]
    intro hc; exact hR (by unfold C69.Refused; tauto)
  rw [e2 hR] at h
  obtain rfl : RefF.samples o.params (RefF.bits o.params m) = iq := congrArg Prod.fst (Except.ok.inj h)
  have hmod : (RefF.bits o.params m).length % RefF.width o.params.modulation = 0 := by
    by_contra hc
    exact hR (Or.inr (Or.inr ((C69.bits_mod o.params m).1 hc)))
  have hsl : (RefF.samples o.params (RefF.bits o.params m)).length = 20 * ((RefF.bits o.params m).length / RefF.width o.params.modulation) := by simp [RefF.samples]
  have hbit : ∀ j, RefF.width o.params.modulation * s + j < (RefF.bits o.params m).length →
      RxF.bitD o.params.modulation o.params.modIndex r j = (RefF.bits o.params m).getD (RefF.width o.params.modulation * s + j) false :=
    fun j hj => bit_ok o.params _ hmod r s (fun n hn' => hn _ rfl n hn' (by rw [hsl]; omega)) j hj
  have hplace := place_eq o.params
  have hb : (RefF.bits o.params m).length = (RefF.preamble o.params ++ RefF.sfd o.params).length + (RefF.body o.params m).length := by
    unfold RefF.bits; simp; omega
  have hst : RxF.start (C101.known o.params) = C110.place o.params + RxF.delimiterLength o.params.modulation := by
    unfold RxF.start C110.place C101.known
    cases o.params.modulation <;> simp only [RxF.preambleUnit, RxF.delimiterLength] <;> omega
  have hsz : C110.place o.params + RxF.delimiterLength o.params.modulation ≤ (RefF.bits o.params m).length := by
    rw [hb, C101.shr_length, hst]; omega
  have hq : RefF.width o.params.modulation * s ≤ C110.place o.params := by
    rw [hplace]; exact Nat.mul_le_mul_left _ hs'
  have hw2 : RefF.width o.params.modulation = 1 ∨ RefF.width o.params.modulation = 2 := by cases o.params.modulation <;> decide
  have hd : 16 ≤ RxF.delimiterLength o.params.modulation := by cases o.params.modulation <;> decide
  have hlim : C110.place o.params - RefF.width o.params.modulation * s < 2 * r.length := by
    rcases hw2 with e | e <;> rw [e] at hsl hplace hq ⊢ <;> omega
  have hsync := sync_late o a _ hbits hs _ hq hsz (RxF.bitD o.params.modulation o.params.modIndex r) hbit (2 * r.length) hlim
  unfold RxF.receiveDiscriminator C110.profile
  simp only
  rw [hsync, Option.map_some]
  simp only
  have hrec := C101.receiveFrom_ok o.params m hR
    (fun i => RxF.bitD o.params.modulation o.params.modIndex r (C110.place o.params - RefF.width o.params.modulation * s + RxF.delimiterLength o.params.modulation + i)) fun i hi => by
      obtain ⟨a1, a2⟩ := C101.bits_get o.params m i hi
      have e : RefF.width o.params.modulation * s + (C110.place o.params - RefF.width o.params.modulation * s + RxF.delimiterLength o.params.modulation + i) =
          RxF.start (C101.known o.params) + i := by omega
      rw [← a2, ← e]
      exact hbit _ (by omega)
  exact congrArg (fun z => some (o.params.fecEnabled, z)) hrec

/-- **C121 (bits).**  A receiver that knows modulation, index, SFD group, FEC scheme and interleaving, and that starts anywhere in the preamble (`s` symbols late), recovers whether the frame is
coded, the FCS and whitening flags and the message, if every later symbol is audible. -/
theorem C121_bits (o : FskObj) (hr : 1 ≤ o.params.symbolRate) (h2 : o.params.modIndex ≤ 5 / 2) (hs : o.params.sfd ≤ 1) (a : Arg) (m : Bits)
    (ha : checkBinaryArray a = .ok m) (iq : List ℂ) (fs : ℚ) (h : ((fskBitsToIQ id a).call o).1 = .ok (iq, fs)) (r : List ℂ) (s : Nat) (hs' : s ≤ 8 * o.params.preambleLength)
    (hl : iq.length ≤ 20 * s + r.length + 20) (hn : ∀ n, 20 * (s + n) + 20 ≤ iq.length → RxF.Audible o.params.modIndex iq r s n) :
    RxF.receiveDiscriminator (C110.profile o.params) r = some (o.params.fecEnabled, o.params.fcsType == 1, o.params.scramble, m.take (8 * (m.length / 8))) := 
  receive_decided o hr hs a m ha iq fs h r s hs' hl fun b e n hb hn' => by
    subst e
    exact decision_ok o.params hr h2 b r s n hb (hn n hn')

/-- **C121 (octets).** -/
theorem C121_octets (o : FskObj) (hr : 1 ≤ o.params.symbolRate) (h2 : o.params.modIndex ≤ 5 / 2) (hs : o.params.sfd ≤ 1) (a : Arg) (msg : List UInt8)
    (hd : C01.Denotes a msg) (h0 : msg ≠ []) (iq : List ℂ) (fs : ℚ) (h : ((fskBytesToIQ id a).call o).1 = .ok (iq, fs)) (r : List ℂ) (s : Nat) (hs' : s ≤ 8 * o.params.preambleLength)
    (hl : iq.length ≤ 20 * s + r.length + 20) (hn : ∀ n, 20 * (s + n) + 20 ≤ iq.length → RxF.Audible o.params.modIndex iq r s n) :
    ∃ b, RxF.receiveDiscriminator (C110.profile o.params) r = some (o.params.fecEnabled, o.params.fcsType == 1, o.params.scramble, b) ∧ Rx.octets b = msg := by
  obtain ⟨m, e, hml, -⟩ := C01.C01_lsb_first a msg hd h0
  rw [(fskBytesToIQ_result id a o).1] at h
  unfold fskBytesResult at h
  rw [e] at h
  have hp := List.length_pos_of_ne_nil h0
  have hm0 : m ≠ [] := by intro e; rw [e, List.length_nil] at hml; omega
  have := C121_bits o hr h2 hs (bitsArg m) m (C03.C03_identity m hm0) iq fs (by rw [(fskBitsToIQ_result id _ o).1]; exact h) r s hs' hl hn
  rw [List.take_of_length_le (by omega)] at this
  exact ⟨m, this, C100.octets_ok a msg hd h0 m e⟩

/-- **C121 (without noise).**  Unknown gain and phase `c`, a carrier off by `θ` radians per sample (less than half the distance of neighbouring tones), and a receiver that starts `d` samples late,
within the preamble and at most five samples off a symbol boundary. -/
theorem C121_clean (o : FskObj) (hr : 1 ≤ o.params.symbolRate) (h2 : o.params.modIndex ≤ 5 / 2) (hs : o.params.sfd ≤ 1) (a : Arg) (msg : List UInt8)
    (hd : C01.Denotes a msg) (h0 : msg ≠ []) (iq : List ℂ) (fs : ℚ) (h : ((fskBytesToIQ id a).call o).1 = .ok (iq, fs)) (c : ℂ) (hc : c ≠ 0) (θ : ℝ)
    (hθ : |θ| < RxF.turnPerSample o.params.modIndex) (d : Nat) (hd1 : d ≤ 160 * o.params.preambleLength) (hd2 : d % 20 ≤ 5 ∨ 15 ≤ d % 20) :
    ∃ b, RxF.receiveDiscriminator (C110.profile o.params) ((iq.drop d).mapIdx fun j x => c * exp (I * ((θ * j : ℝ) : ℂ)) * x) =
      some (o.params.fecEnabled, o.params.fcsType == 1, o.params.scramble, b) ∧ Rx.octets b = msg := by
  have hpi := Real.pi_pos
  refine C121_octets o hr h2 hs a msg hd h0 iq fs h _ ((d + 5) / 20) (by omega) ?_ fun n hn => ?_
  · rw [List.length_mapIdx, List.length_drop]; omega
  · refine ⟨c * exp (I * ((θ * (20 * n : Nat) : ℝ) : ℂ)), θ, 0, (d : ℤ) - 20 * ((d + 5) / 20 : Nat), mul_ne_zero hc (exp_ne_zero _), hθ, abs_le.2 ⟨by omega, by omega⟩, le_rfl, ?_,
      fun i hi hi' => ?_⟩
    · have ht : RxF.turnPerSample o.params.modIndex ≤ Real.pi / 8 := by
        have : (o.params.modIndex : ℝ) ≤ ((5 / 2 : ℚ) : ℝ) := by exact_mod_cast h2
        push_cast at this
        unfold RxF.turnPerSample
        nlinarith
      have := Real.cos_lt_cos_of_nonneg_of_le_pi (abs_nonneg θ) (show 2 * RxF.turnPerSample o.params.modIndex - |θ| ≤ Real.pi by
        have := abs_nonneg θ; linarith) (by linarith)
      rw [Real.cos_abs] at this
      norm_num
      exact this
    · have e : ((20 * ((((d + 5) / 20 : Nat) : ℤ) + n) + i + ((d : ℤ) - 20 * ((d + 5) / 20 : Nat)) : ℤ)).toNat = d + (20 * n + i) := by omega
      rw [e, List.getD_eq_getElem?_getD, List.getElem?_mapIdx, List.getElem?_drop, List.getD_eq_getElem?_getD, List.getElem?_eq_getElem (by omega), Option.map_some,
        Option.getD_some, Option.getD_some, zero_mul]
      refine le_of_eq (norm_eq_zero.2 (sub_eq_zero.2 ?_))
      rw [mul_assoc c (exp _) (exp _), ← exp_add]
      congr 3
      push_cast; ring

/-- **C121 (noise).**  With unknown gain and phase `c`, every sample may be disturbed by up to h²/250 of the amplitude (h the modulation index). -/
theorem C121_noise (o : FskObj) (hr : 1 ≤ o.params.symbolRate) (h1 : 1 / 4 ≤ o.params.modIndex) (h2 : o.params.modIndex ≤ 5 / 2) (hs : o.params.sfd ≤ 1) (a : Arg) (msg : List UInt8)
    (hd : C01.Denotes a msg) (h0 : msg ≠ []) (iq : List ℂ) (fs : ℚ) (h : ((fskBytesToIQ id a).call o).1 = .ok (iq, fs)) (c : ℂ) (hc : c ≠ 0) (r : List ℂ) (hl : iq.length ≤ r.length)
    (hn : ∀ j < iq.length, ‖r.getD j 0 - c * iq.getD j 0‖ ≤ (o.params.modIndex : ℝ) ^ 2 / 250 * ‖c‖) :
    ∃ b, RxF.receiveDiscriminator (C110.profile o.params) r = some (o.params.fecEnabled, o.params.fcsType == 1, o.params.scramble, b) ∧ Rx.octets b = msg := by
  have hpi := Real.pi_pos
  have l1 : (1 / 4 : ℝ) ≤ o.params.modIndex := by
    have : ((1 / 4 : ℚ) : ℝ) ≤ (o.params.modIndex : ℝ) := by exact_mod_cast h1
    push_cast at this; exact this
  have l2 : (o.params.modIndex : ℝ) ≤ 5 / 2 := by
    have : (o.params.modIndex : ℝ) ≤ ((5 / 2 : ℚ) : ℝ) := by exact_mod_cast h2
    push_cast at this; exact this
  refine C121_octets o hr h2 hs a msg hd h0 iq fs h r 0 (Nat.zero_le _) (by omega) fun n hn' => ?_
  generalize (o.params.modIndex : ℝ) = x at *
  refine ⟨c, 0, x ^ 2 / 250, 0, hc, ?_, by norm_num, by positivity, ?_, fun i hi hi' => ?_⟩
  · rw [abs_zero]; unfold RxF.turnPerSample; positivity
  · rw [abs_zero, sub_zero, Real.cos_zero]
    have hb := Real.cos_le_one_sub_mul_cos_sq (x := 2 * RxF.turnPerSample x) (by
      unfold RxF.turnPerSample
      rw [abs_of_pos (by positivity)]
      nlinarith)
    have e : 2 / Real.pi ^ 2 * (2 * RxF.turnPerSample x) ^ 2 = x ^ 2 / 50 := by
      unfold RxF.turnPerSample
      field_simp; norm_num
    rw [e] at hb
    have hx : x ^ 2 ≤ 25 / 4 := by nlinarith
    have hx0 : 0 < x ^ 2 := by positivity
    nlinarith
  · have e : ((20 * (((0 : Nat) : ℤ) + n) + i + 0 : ℤ)).toNat = 20 * n + i := by omega
    rw [e]
    simpa using hn (20 * n + i) (by omega)

/-! Non-vacuity: C101 shows frames of every kind; here, a carrier offset and start that are allowed for modulation index 1, and a noise amplitude for 2FSK of index 1. -/
example : |(3 / 20 : ℝ)| < RxF.turnPerSample 1 := by
  rw [abs_of_pos (by norm_num)]
  unfold RxF.turnPerSample
  have := Real.pi_gt_three
  linarith
example : ∀ d ∈ [0, 5, 364, 376, 640], d ≤ 160 * 4 ∧ (d % 20 ≤ 5 ∨ 15 ≤ d % 20) := by decide

end
end SunPhy.C121
