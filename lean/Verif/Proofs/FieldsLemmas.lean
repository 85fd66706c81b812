import Verif.Props.C16
import Verif.Proofs.BitsLemmas
/-
Lemmas about the header assembly of `Model/Fields.lean`.
-/
namespace SunPhy

theorem natBits_succ (w n : Nat) : natBits (w + 1) n = n.testBit w :: natBits w n := by
  unfold natBits; simp [List.range_succ]

theorem natBits_pad (d k n : Nat) (h : n < 2 ^ k) : natBits (d + k) n = List.replicate d false ++ natBits k n := by
  induction d with
  | zero => simp
  | succ d ih =>
    rw [show d + 1 + k = (d + k) + 1 by omega, natBits_succ, ih, List.replicate_succ]
    rw [Nat.testBit_lt_two_pow (lt_of_lt_of_le h (Nat.pow_le_pow_right (by decide) (by omega)))]
    rfl

theorem uintarr_ok {v w : Nat} (hw : 1 ≤ w) (h : v < 2 ^ w) : uintarr v w = .ok (natBits w v) := by
  unfold uintarr
  have hb : binaryRepr v 0 = natBits (v.log2 + 1) v := by
    unfold binaryRepr natBits; rw [Nat.max_eq_right (by omega)]
  have hk : v < 2 ^ (v.log2 + 1) := Nat.lt_log2_self
  have hlw : v.log2 + 1 ≤ w := by
    by_cases h0 : v = 0
    · subst h0; simpa using hw
    · have := (Nat.log2_lt h0).2 h; omega
  simp only [hb, natBits_length]
  rw [if_neg (by omega)]
  congr 1
  rw [← natBits_pad _ _ _ hk]
  congr 1; omega

theorem uintarr_error {v w : Nat} (h : 2 ^ w ≤ v) : uintarr v w = .error .ValueError := by
  unfold uintarr
  have hb : (binaryRepr v 0).length = v.log2 + 1 := by unfold binaryRepr; simp
  have h0 : v ≠ 0 := by have := Nat.two_pow_pos w; omega
  have : w ≤ v.log2 := (Nat.le_log2 h0).2 h
  simp only [hb]
  rw [if_pos (by omega)]

theorem assignSlice_ok {α} {l : List α} {a b : Nat} {vals : List α} (hb : b ≤ l.length) (hv : vals.length = b - a)
    (hab : a ≤ b) : assignSlice l a b vals = .ok (l.take a ++ vals ++ l.drop b) := by
  unfold assignSlice
  simp only
  rw [if_pos (by omega)]

end SunPhy
