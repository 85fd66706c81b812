import Verif.Model.Bits
import Verif.Proofs.Lists
import Mathlib.Data.Rat.Floor
import Mathlib.Tactic.Linarith
/-
Lemmas about `Model/Bits.lean`.
-/
namespace SunPhy

theorem binaryRepr_length {n w : Nat} (hw : 1 ≤ w) (h : n < 2 ^ w) : (binaryRepr n w).length = w := by
  unfold binaryRepr
  have : n.log2 + 1 ≤ w := by
    by_cases h0 : n = 0
    · subst h0; simpa using hw
    · have := (Nat.log2_lt h0).2 h
      omega
  simp [Nat.max_eq_left this]

theorem binaryRepr_eq {n w : Nat} (hw : 1 ≤ w) (h : n < 2 ^ w) : binaryRepr n w = natBits w n := by
  have := binaryRepr_length hw h
  unfold binaryRepr at this ⊢
  simp at this
  unfold natBits
  rw [Nat.max_eq_left (by omega)]

theorem natBits_length (w n : Nat) : (natBits w n).length = w := by simp [natBits]

theorem natBits_getElem? (w n i : Nat) (h : i < w) : (natBits w n)[i]? = some (n.testBit (w - 1 - i)) := by
  unfold natBits
  rw [List.getElem?_map, List.getElem?_reverse (by simpa using h)]
  simp [show w - 1 - i < w by omega]

theorem natBits_reverse (w n : Nat) : (natBits w n).reverse = (List.range w).map n.testBit := by
  simp [natBits]

theorem byteBits_eq {n : Nat} (h : n < 256) : byteBits n = (List.range 8).map n.testBit := by
  unfold byteBits
  rw [binaryRepr_eq (by decide) (by simpa using h), natBits_reverse]

theorem byteBits_length {n : Nat} (h : n < 256) : (byteBits n).length = 8 := by simp [byteBits_eq h]

theorem natBits_inj {w a b : Nat} (ha : a < 2 ^ w) (hb : b < 2 ^ w) (h : natBits w a = natBits w b) : a = b := by
  apply Nat.eq_of_testBit_eq
  intro i
  by_cases hi : i < w
  · have h1 := natBits_getElem? w a (w - 1 - i) (by omega)
    have h2 := natBits_getElem? w b (w - 1 - i) (by omega)
    rw [h, h2] at h1
    have : w - 1 - (w - 1 - i) = i := by omega
    rw [this] at h1
    exact (Option.some.inj h1).symm
  · have hp : 2 ^ w ≤ 2 ^ i := Nat.pow_le_pow_right (by decide) (by omega)
    rw [Nat.testBit_lt_two_pow (by omega), Nat.testBit_lt_two_pow (by omega)]

theorem truncRat_intCast (i : Int) : truncRat (i : Rat) = i := by
  unfold truncRat
  split <;> simp

theorem truncRat_natCast (n : Nat) : truncRat (n : Rat) = n := by
  simpa using truncRat_intCast (n : Int)

/-- `0 ≤ trunc q ≤ 255` says `-1 < q < 256`. -/
theorem truncRat_nonneg {q : Rat} : 0 ≤ truncRat q ↔ -1 < q := by
  unfold truncRat
  split
  · rename_i h
    have : 0 ≤ q.floor := by rw [← Rat.floor_intCast 0] ; exact Rat.floor_monotone (by simpa using h)
    simp only [this, true_iff]; linarith
  · rename_i h
    have hc : q.ceil = ⌈q⌉ := by rw [Rat.ceil_eq_neg_floor_neg]; rfl
    rw [hc]
    constructor
    · intro h2
      by_contra hq
      have : ⌈q⌉ ≤ -1 := Int.ceil_le.2 (by push_cast; linarith)
      omega
    · intro h2
      have : -1 < ⌈q⌉ := Int.lt_ceil.2 (by push_cast; exact h2)
      omega

theorem truncRat_lt {q : Rat} {n : Int} (hn : 0 < n) : truncRat q < n ↔ q < n := by
  unfold truncRat
  split
  · rename_i h
    have hf : q.floor = ⌊q⌋ := rfl
    rw [hf, Int.floor_lt]
  · rename_i h
    have hc : q.ceil = ⌈q⌉ := by rw [Rat.ceil_eq_neg_floor_neg]; rfl
    have h0 : ⌈q⌉ ≤ 0 := Int.ceil_le.2 (by push_cast; linarith)
    rw [hc]
    have : (0 : Rat) < n := by exact_mod_cast hn
    constructor
    · intro _; linarith
    · intro _; omega

end SunPhy
