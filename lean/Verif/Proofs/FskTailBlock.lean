import Verif.Proofs.FskHeaderMasks
/-
The last coded block of a frame with an even number of octets contains only tail and padding; interleaved and not interleaved it differs.
-/
namespace SunPhy.FskHeader
open SunPhy Spec

/-- The padding of messages with an even number of octets. -/
def padding : Bits := Ref.field 13 0xB0B

theorem reg_tail (x : Bits) (k : Nat) (hk : k < 3) : RefF.rsc x padding (x.length + k) = false := by
  rw [RefF.rsc, if_pos (by omega)]

theorem reg_pad (x : Bits) (k : Nat) : RefF.rsc x padding (x.length + (k + 3)) =
    xor (padding.getD k false) (xor (RefF.rsc x padding (x.length + (k + 2))) (xor (RefF.rsc x padding (x.length + (k + 1))) (RefF.rsc x padding (x.length + k)))) := by
  rw [RefF.rsc, if_neg (by omega), if_neg (by omega), if_pos (by omega), if_pos (by omega), if_pos (by omega)]
  unfold RefF.at_
  rw [show x.length + (k + 3) - x.length - 3 = k by omega, show x.length + (k + 3) - 1 = x.length + (k + 2) by omega,
    show x.length + (k + 3) - 2 = x.length + (k + 1) by omega, show x.length + (k + 3) - 3 = x.length + k by omega]

/-- The shift register over the tail and the padding. -/
def padReg : Nat → Bool × Bool × Bool
  | 0 => (false, false, false)
  | k + 1 => (xor (padding.getD k false) (xor (padReg k).1 (xor (padReg k).2.1 (padReg k).2.2)), (padReg k).1, (padReg k).2.1)

theorem padReg_ok (x : Bits) (k : Nat) : RefF.rsc x padding (x.length + (k + 2)) = (padReg k).1 ∧ RefF.rsc x padding (x.length + (k + 1)) = (padReg k).2.1 ∧
    RefF.rsc x padding (x.length + k) = (padReg k).2.2 := by
  induction k with
  | zero => exact ⟨reg_tail x 2 (by omega), reg_tail x 1 (by omega), reg_tail x 0 (by omega)⟩
  | succ k ih =>
    obtain ⟨i1, i2, i3⟩ := ih
    refine ⟨?_, i1, i2⟩
    rw [show k + 1 + 2 = k + 3 from rfl, reg_pad, i1, i2, i3]
    rfl

theorem plain_get (x : Bits) (k : Nat) : (x ++ [false, false, false] ++ padding).getD (x.length + k) false = ([false, false, false] ++ padding).getD k false := by
  rw [List.append_assoc, List.getD_eq_getElem?_getD, List.getD_eq_getElem?_getD, List.getElem?_append_right (by omega), Nat.add_sub_cancel_left]

/-- First output bit for position `j + 3` of the last block. -/
def lastBit (s j : Nat) : Bool :=
  if s = 0 then !(xor (([false, false, false] ++ padding).getD (j + 3) false) (xor (([false, false, false] ++ padding).getD (j + 1) false)
    (([false, false, false] ++ padding).getD j false)))
  else xor (padReg (j + 1)).1 (xor (padReg j).2.1 (padReg j).2.2)

theorem last_val (s : Nat) (x : Bits) (j : Nat) (hj : j < 13) : (RefF.coded s x padding).getD (2 * (x.length + (j + 3))) false = lastBit s j := by
  have hp : padding.length = 13 := by decide
  unfold RefF.coded
  rw [List.getD_eq_getElem?_getD, List.getElem?_map, List.getElem?_range (by omega)]
  simp only [Option.map_some, Option.getD_some]
  have he : 2 * (x.length + (j + 3)) % 2 = 0 := by omega
  rw [show 2 * (x.length + (j + 3)) / 2 = x.length + (j + 3) by omega]
  unfold lastBit
  by_cases hs : s = 0
  · rw [if_pos hs, if_pos he, if_pos hs]
    unfold tapSum delayed
    simp only [List.map_cons, List.map_nil, List.foldr_cons, List.foldr_nil, Bool.xor_false]
    rw [if_pos (by omega), if_pos (by omega), if_pos (by omega), Nat.sub_zero, plain_get, show x.length + (j + 3) - 2 = x.length + (j + 1) by omega, plain_get,
      show x.length + (j + 3) - 3 = x.length + j by omega, plain_get]
  · rw [if_neg hs, if_pos he, if_neg hs]
    unfold RefF.back
    rw [if_pos (by omega), if_pos (by omega), if_pos (by omega), Nat.sub_zero, show x.length + (j + 3) - 2 = x.length + (j + 1) by omega,
      show x.length + (j + 3) - 3 = x.length + j by omega, (padReg_ok x j).2.1, (padReg_ok x j).2.2, show j + 3 = j + 1 + 2 from rfl, (padReg_ok x (j + 1)).1]

theorem lastBits : ∀ s ∈ [0, 1], lastBit s 5 ≠ lastBit s 10 := by decide

/-- With an even number of octets the last block shows whether the frame is interleaved. -/
theorem last_block (s : Nat) (hs : s ≤ 1) (x x' : Bits) (h : x.length = x'.length) (h16 : x.length % 16 = 0)
    (hE : ∀ i, (sent s false x padding).getD i false = (sent s true x' padding).getD i false) : False := by
  have e := hE (2 * (x.length + (5 + 3)))
  have a : (sent s false x padding).getD (2 * (x.length + (5 + 3))) false = lastBit s 5 := last_val s x 5 (by omega)
  have b : (sent s true x' padding).getD (2 * (x.length + (5 + 3))) false = lastBit s 10 := by
    rw [← last_val s x' 10 (by omega)]
    have hp : padding.length = 13 := by decide
    unfold sent RefF.interleave RefF.at_
    rw [if_pos rfl, List.getD_eq_getElem?_getD, List.getElem?_map, List.getElem?_range (by rw [coded_len]; omega)]
    simp only [Option.map_some, Option.getD_some]
    congr 1
    have e1 : 2 * (x.length + (5 + 3)) % 32 = 16 := by omega
    have e2 : 2 * (x.length + (5 + 3)) / 32 * 32 = 2 * x.length := by omega
    rw [e1, e2]
    omega
  rw [a, b] at e
  have hs' : s = 0 ∨ s = 1 := by omega
  exact lastBits s (by rcases hs' with rfl | rfl <;> decide) e

end SunPhy.FskHeader
