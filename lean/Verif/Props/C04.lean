import Verif.Proofs.BitsLemmas
/-
C04 — integer <-> bit-array helpers (`to_bin`, `to_int`).

The full statement (`to_int(to_bin(n, w, flag), flag) = n`) is false of the code: with the same flag the two helpers use
opposite bit orders.  Proved here: the refutation, and what does hold.
-/
namespace SunPhy.C04
open SunPhy

/-- The number denoted by bits read most significant first (Horner's rule). -/
def denotesMSB (b : Bits) : Nat := b.foldl (fun acc x => 2 * acc + (if x then 1 else 0)) 0

theorem foldl_reverse_leValue (b : Bits) : denotesMSB b.reverse = leValue b := by
  unfold denotesMSB
  rw [List.foldl_reverse]
  induction b with
  | nil => rfl
  | cons x b ih => simp only [List.foldr_cons, leValue, ih, b2n]; omega

theorem denotesMSB_eq (b : Bits) : denotesMSB b = leValue b.reverse := by
  rw [← foldl_reverse_leValue, List.reverse_reverse]

theorem leValue_range (w : Nat) : ∀ n, n < 2 ^ w → leValue ((List.range w).map n.testBit) = n := by
  induction w with
  | zero => intro n h; simp at h; simp [leValue, h]
  | succ w ih =>
    intro n h
    rw [List.range_succ_eq_map, List.map_cons, List.map_map, leValue]
    have h2 : (n.testBit ∘ Nat.succ) = (n / 2).testBit := by
      funext i; simp [Nat.testBit_succ]
    rw [h2, ih (n / 2) (by rw [Nat.pow_succ] at h; omega)]
    simp only [Nat.testBit_zero, b2n, decide_eq_true_eq]
    split <;> omega

/-- **C04 (to_bin).**  `to_bin(n, w, MSB_first)` has exactly `w` bits and denotes `n` in the requested bit order, for
`0 ≤ n < 2^w`, `w ≥ 1`. -/
theorem C04_to_bin (n w : Nat) (hw : 1 ≤ w) (h : n < 2 ^ w) :
    (toBin n w true).length = w ∧ denotesMSB (toBin n w true) = n ∧
    (toBin n w false).length = w ∧ denotesMSB (toBin n w false).reverse = n := by
  have e : toBin n w true = natBits w n := by simp [toBin, binaryRepr_eq hw h]
  have e' : toBin n w false = (natBits w n).reverse := by simp [toBin, binaryRepr_eq hw h]
  rw [e, e', List.reverse_reverse, denotesMSB_eq, natBits_reverse, leValue_range w n h]
  simp [natBits_length]

/-- **C04 (partial).**  `to_int` inverts `to_bin` when it is given the *opposite* flag.  Missing from the full statement:
inversion with the same flag, which is false (`C04_same_flag_false`). -/
theorem C04_inverse_partial (n w : Nat) (hw : 1 ≤ w) (hw8 : w ≤ 8) (h : n < 2 ^ w) (flag : Bool) :
    toInt (toBin n w flag) (!flag) = .ok n := by
  have key : (natBits w n).reverse ≠ [] := by
    intro h0; have := congrArg List.length h0; simp [natBits_length] at this; omega
  have val : leValue (((natBits w n).reverse).take 8) = n := by
    rw [List.take_of_length_le (by simp [natBits_length]; omega), natBits_reverse, leValue_range w n h]
  cases flag
  · simp only [toBin, Bool.not_false, toInt, binaryRepr_eq hw h, if_true, if_neg key, val,
      Bool.false_eq_true, if_false]
  · simp only [toBin, Bool.not_true, toInt, binaryRepr_eq hw h, if_true, if_neg key, val,
      Bool.false_eq_true, if_false]

/-- With the same flag, `to_int` returns the bit-reversed number. -/
theorem C04_same_flag_reverses (n w : Nat) (hw : 1 ≤ w) (hw8 : w ≤ 8) (h : n < 2 ^ w) (flag : Bool) :
    toInt (toBin n w flag) flag = .ok (denotesMSB (toBin n w true).reverse) := by
  have l := (C04_to_bin n w hw h).1
  have key : toBin n w true ≠ [] := by intro h0; rw [h0] at l; simp at l; omega
  have e : toBin n w false = (toBin n w true).reverse := rfl
  rw [foldl_reverse_leValue]
  cases flag
  · simp only [toInt, e, List.reverse_reverse, Bool.false_eq_true, if_false, if_neg key]
    rw [List.take_of_length_le (by omega)]
  · simp only [toInt, if_true, if_neg key]
    rw [List.take_of_length_le (by omega)]

/-- **C04 is false as stated**: `to_int(to_bin(1, 8))` is 128, with both flags left at their default and also with
both set to `False`. -/
theorem C04_same_flag_false :
    toInt (toBin 1 8 true) true = .ok 128 ∧ toInt (toBin 1 8 false) false = .ok 128 := by decide

example : (1 : Nat) ≤ 8 ∧ 200 < 2 ^ 8 ∧ toInt (toBin 200 8 true) false = .ok 200 := by decide

end SunPhy.C04
