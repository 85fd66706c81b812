import Verif.Props.C152
/-
C152 — the distances of MR-O-QPSK signals spread with the 16 and 32 chip sequences.
-/
namespace SunPhy.C152
open SunPhy Spec Complex

/-- Eight octets, of which the first is given (first bit with weight 1) and the others are zero. -/
def eight (v : Nat) : Bits := (List.range 64).map v.testBit

theorem hamming_append (p a b : Bits) : hamming (p ++ a) (p ++ b) = hamming a b := by
  unfold hamming
  rw [List.zipWith_append rfl, List.count_append]
  have : (List.zipWith xor p p).count true = 0 := by
    rw [List.count_eq_zero]
    intro h
    rw [List.zipWith_self] at h
    simp at h
  omega

theorem range_map_append (n k : Nat) (f : Nat → Bool) : (List.range (n + k)).map f = (List.range n).map f ++ (List.range k).map fun i => f (n + i) := by
  rw [List.range_add, List.map_append, List.map_map]
  rfl

theorem map_getD (x : Bits) : ((List.range x.length).map fun i => x.getD i false) = x := by
  apply List.ext_getElem
  · simp
  · intro i h1 h2
    simp [List.getElem?_eq_getElem h2]

/-- At most one group of chips: one pilot in front. -/
theorem one_pilot (bd : Band) (x : Bits) (h0 : 0 < x.length) (h1 : x.length ≤ (pilots bd).2) :
    RefQ.withPilots bd x = ((List.range (pilots bd).1).map fun k => (RefQ.pilot bd).getD k false) ++ x := by
  have hS : 0 < (pilots bd).2 := by omega
  unfold RefQ.withPilots
  generalize pilots bd = q at *
  obtain ⟨P, S⟩ := q
  simp only at *
  have e1 : (x.length + S - 1) / S = 1 := by
    rw [show x.length + S - 1 = (x.length - 1) + S by omega, Nat.add_div_right _ hS, Nat.div_eq_of_lt (by omega)]
  rw [e1, Nat.one_mul, Nat.add_comm x.length P, range_map_append]
  congr 1
  · apply List.map_congr_left
    intro k hk
    have := List.mem_range.1 hk
    rw [Nat.mod_eq_of_lt (by omega), if_pos this]
  · conv_rhs => rw [← map_getD x]
    apply List.map_congr_left
    intro k hk
    have := List.mem_range.1 hk
    rw [Nat.mod_eq_of_lt (by omega), if_neg (by omega), Nat.div_eq_of_lt (by omega), Nat.zero_mul, Nat.zero_add, Nat.add_sub_cancel_left]

/-- The coded message with the first octet `v`, as a number (252 bits, first bit with the highest weight). -/
def coded : Nat → Nat
  | 1 => 212270188328111613200972116341295517648041628363183834806653812994
  | 8 => 441711978477640699499223475679644413892074128587304648509579200552763908
  | 9 => 441711766207452371387616166742837434188101859945623052866220653543424774
  | _ => 0

/-- Chip `k` of a spread coded message. -/
def spreadChip (N x k : Nat) : Bool := RefQ.chip4 N (fun i => x.testBit (251 - (4 * (k / N) + i))) (k % N)

/-- Chips in which the spread payloads of two coded messages differ. -/
def gap (N x y : Nat) : Nat := ((List.range (63 * N)).map fun k => xor (spreadChip N x k) (spreadChip N y k)).count true

theorem coded_eq : ∀ v ∈ [0, 9, 1, 8], RefQ.psduBits (eight v) = Ref.field 252 (coded v) := by decide +kernel

theorem gap_16 : gap 16 (coded 0) (coded 9) = 142 ∧ gap 16 (coded 1) (coded 8) = 140 := by decide +kernel
theorem gap_32 : gap 32 (coded 0) (coded 9) = 292 ∧ gap 32 (coded 1) (coded 8) = 288 := by decide +kernel

theorem eight_length (v : Nat) : (eight v).length = 64 := by simp [eight]

theorem eight_ne (v : Nat) : eight v ≠ [] := by
  intro h
  have := eight_length v
  rw [h] at this
  cases this

theorem eight_spreadable {p : OqpskParams} (h0 : p.sm = 0) (v : Nat) : (eight v).length / 8 ≤ 2047 ∧ C96.Spreadable p (eight v).length := by
  rw [eight_length]
  refine ⟨by decide, ?_⟩
  unfold C96.Spreadable
  rw [if_pos h0]
  intro _
  decide

theorem field_getD (w x i : Nat) (h : i < w) : (Ref.field w x).getD i false = x.testBit (w - 1 - i) := by
  unfold Ref.field
  rw [List.getD_eq_getElem?_getD, List.getElem?_map, List.getElem?_range h]
  rfl

theorem chip4_congr (N : Nat) (f g : Nat → Bool) (j : Nat) (h : ∀ i < 4, f i = g i) : RefQ.chip4 N f j = RefQ.chip4 N g j := by
  unfold RefQ.chip4
  rw [h 0 (by omega), h 1 (by omega), h 2 (by omega), h 3 (by omega)]

theorem psdu_spread (bd : Band) (rm N v : Nat) (hN : 0 < N) (hg : psduGroup bd rm = (4, N)) (hd : RefQ.psduDifferential bd rm = false) (hv : v ∈ [0, 9, 1, 8]) :
    RefQ.psdu bd false rm (eight v) = (List.range (63 * N)).map (spreadChip N (coded v)) := by
  unfold RefQ.psdu
  rw [hg, hd, coded_eq v hv]
  simp only [if_true, Bool.false_eq_true, if_false]
  rw [show (Ref.field 252 (coded v)).length / 4 = 63 by simp [Ref.field]]
  apply List.map_congr_left
  intro k hk
  have hk' : k / N < 63 := (Nat.div_lt_iff_lt_mul hN).2 (List.mem_range.1 hk)
  unfold spreadChip
  have : ∀ i < 4, (Ref.field 252 (coded v)).getD (4 * (k / N) + i) false = (coded v).testBit (251 - (4 * (k / N) + i)) := fun i hi => field_getD _ _ _ (by omega)
  exact chip4_congr _ _ _ _ this

theorem hamming_map (n : Nat) (f g : Nat → Bool) : hamming ((List.range n).map f) ((List.range n).map g) = ((List.range n).map fun k => xor (f k) (g k)).count true := by
  unfold hamming
  rw [List.zipWith_map, List.zipWith_self]

theorem chips_gap (bd : Band) (rm N v w : Nat) (hN : 0 < N) (hS : 63 * N ≤ (pilots bd).2) (hg : psduGroup bd rm = (4, N)) (hd : RefQ.psduDifferential bd rm = false)
    (hv : v ∈ [0, 9, 1, 8]) (hw : w ∈ [0, 9, 1, 8]) : hamming (RefQ.chips bd false rm (eight v)) (RefQ.chips bd false rm (eight w)) = gap N (coded v) (coded w) := by
  unfold RefQ.chips
  rw [eight_length, eight_length, hamming_append, one_pilot, one_pilot, hamming_append, psdu_spread bd rm N v hN hg hd hv, psdu_spread bd rm N w hN hg hd hw, hamming_map]
  · rfl
  all_goals first | (rw [psdu_spread bd rm N v hN hg hd hv, List.length_map, List.length_range]; omega) | (rw [psdu_spread bd rm N w hN hg hd hw, List.length_map, List.length_range]; omega)

theorem eight_signal (o : OqpskObj) (h : C63.Standard o.params) (h0 : o.params.sm = 0) (v : Nat) :
    ((oqpskBitsToIQ (bitsArg (eight v))).call o).1 = .ok (RefQ.samples o.params.band o.params.sps (RefQ.chips o.params.band false o.params.rm.toNat (eight v)),
      (RefQ.rate o.params.band false o.params.rm.toNat : ℚ) * o.params.sps) := by
  have := (C108.C108_reference o h _ _ (C03.C03_identity (eight v) (eight_ne v))).2 (eight_spreadable h0 v)
  rw [show decide (o.params.sm = 1) = false by rw [h0]; rfl] at this
  exact this

theorem eight_dist (o : OqpskObj) (h : C63.Standard o.params) (h0 : o.params.sm = 0) (N v w : Nat) (hN : 0 < N) (hS : 63 * N ≤ (pilots o.params.band).2)
    (hg : psduGroup o.params.band o.params.rm.toNat = (4, N)) (hd : RefQ.psduDifferential o.params.band o.params.rm.toNat = false) (hv : v ∈ [0, 9, 1, 8]) (hw : w ∈ [0, 9, 1, 8]) :
    distSq (RefQ.samples o.params.band o.params.sps (RefQ.chips o.params.band false o.params.rm.toNat (eight v)))
      (RefQ.samples o.params.band o.params.sps (RefQ.chips o.params.band false o.params.rm.toNat (eight w))) =
      4 * RxQ.pulseEnergy o.params.band o.params.sps * (gap N (coded v) (coded w) : ℝ) := by
  have len : ∀ v, (RefQ.chips o.params.band false o.params.rm.toNat (eight v)).length = C96.frameChipsOf o.params 64 := by
    intro v
    have := (C108.frame_ref h (eight v) (eight_ne v) (eight_spreadable h0 v).1 (eight_spreadable h0 v).2).2
    rw [show decide (o.params.sm = 1) = false by rw [h0]; rfl, eight_length] at this
    exact this
  rw [oqpsk_exact _ _ h.sps _ _ (by rw [len, len]) (by rw [len]; exact C96.chips_even _ h _), chips_gap _ _ N v w hN hS hg hd hv hw]

/-- **C152 (long sequences).**  The exception of C148 is needed: in the DSSS rate modes with the 16 or 32 chip sequences for four bits, two pairs of messages of eight octets differ at the same
places (the first and the fourth bit), but the first pair of signals is further apart than the second. -/
theorem C152_long (o : OqpskObj) (h : C63.Standard o.params) (h0 : o.params.sm = 0) (hl : C148.longSequences o.params.band o.params.rm)
    (hs : if o.params.band = .b915 ∨ o.params.band = .b2450 then 3 ≤ o.params.sps else 2 ≤ o.params.sps) :
    SameDifferences (eight 0) (eight 9) (eight 1) (eight 8) ∧
    ∃ (s s' t t' : List ℂ) (fs : ℚ), ((oqpskBitsToIQ (bitsArg (eight 0))).call o).1 = .ok (s, fs) ∧ ((oqpskBitsToIQ (bitsArg (eight 9))).call o).1 = .ok (s', fs) ∧
      ((oqpskBitsToIQ (bitsArg (eight 1))).call o).1 = .ok (t, fs) ∧ ((oqpskBitsToIQ (bitsArg (eight 8))).call o).1 = .ok (t', fs) ∧ distSq t t' < distSq s s' := by
  refine ⟨by unfold SameDifferences; decide, _, _, _, _, _, eight_signal o h h0 _, eight_signal o h h0 _, eight_signal o h h0 _, eight_signal o h h0 _, ?_⟩
  have hE := C102.pulseEnergy_pos o.params.band o.params.sps hs
  have hgrp : ∃ N, (N = 16 ∨ N = 32) ∧ 63 * N ≤ (pilots o.params.band).2 ∧ psduGroup o.params.band o.params.rm.toNat = (4, N) ∧
      RefQ.psduDifferential o.params.band o.params.rm.toNat = false := by
    rcases hl with ⟨hr, hb | hb | hb⟩ | ⟨hr | hr, hb⟩ <;> rw [hr, hb]
    · exact ⟨16, by decide⟩
    · exact ⟨16, by decide⟩
    · exact ⟨16, by decide⟩
    · exact ⟨32, by decide⟩
    · exact ⟨16, by decide⟩
  obtain ⟨N, hN, hS, hg, hd⟩ := hgrp
  rw [eight_dist o h h0 N 1 8 (by omega) hS hg hd (by decide) (by decide), eight_dist o h h0 N 0 9 (by omega) hS hg hd (by decide) (by decide)]
  refine mul_lt_mul_of_pos_left ?_ (by positivity)
  norm_cast
  rcases hN with rfl | rfl
  · rw [gap_16.1, gap_16.2]; decide
  · rw [gap_32.1, gap_32.2]; decide

/-- Non-vacuity: 2450 MHz, rate mode 1. -/
example : C63.Standard ⟨.b2450, 1, 0, 4⟩ ∧ C148.longSequences .b2450 1 := ⟨⟨by decide, Or.inl rfl, by decide⟩, Or.inr ⟨Or.inl rfl, rfl⟩⟩

end SunPhy.C152
