import Verif.Model.MrOqpsk
import Mathlib.Tactic.Linarith
/-
C56 — the Hadamard encoder (false: four of the eight codewords are all-zero).
-/
namespace SunPhy.C56
open SunPhy

/-- Sign of entry `(i, j)` of the Sylvester–Hadamard matrix, for a row `i < 4`: parity of the common one bits. -/
def sign (i j : Nat) : Int := if (i.testBit 0 && j.testBit 0) ^^ (i.testBit 1 && j.testBit 1) then -1 else 1

theorem matrix_length (n : Nat) : (hadamardMatrixPow n).length = 2 ^ n := by
  induction n with
  | zero => rfl
  | succ n ih => unfold hadamardMatrixPow; simp [ih]; omega

theorem row_eq (n : Nat) (i : Nat) (hi : i < 4) : (hadamardMatrixPow (n + 2))[i]? = some ((List.range (2 ^ (n + 2))).map (sign i)) := by
  induction n with
  | zero => match i, hi with
    | 0, _ => decide
    | 1, _ => decide
    | 2, _ => decide
    | 3, _ => decide
  | succ n ih =>
    have hp : 4 ≤ 2 ^ (n + 2) := by
      have := Nat.pow_le_pow_right (show 0 < 2 by decide) (show 2 ≤ n + 2 by omega)
      omega
    rw [show n + 1 + 2 = (n + 2) + 1 by omega, hadamardMatrixPow]
    rw [List.getElem?_append_left (by rw [List.length_map, matrix_length]; omega), List.getElem?_map, ih]
    simp only [Option.map_some, Option.some.injEq]
    rw [Nat.pow_succ 2 (n + 2), Nat.mul_two, List.range_add, List.map_append, List.map_map]
    congr 1
    apply List.map_congr_left
    intro j _
    have h0 : ∀ k < 2, (2 ^ (n + 2) + j).testBit k = j.testBit k := by
      intro k hk
      rw [Nat.testBit_two_pow_add_gt (by omega)]
    unfold sign
    simp only [Function.comp, h0 0 (by decide), h0 1 (by decide)]

/-- **C56 (actual codewords).**  For every size `N = 2^x ≥ 4`: the words 0..3 are ±1 Walsh sequences, the words 4..7 are all zero
(`logical_not` of ±1 values). -/
theorem C56_actual (x : Nat) (hx : 2 ≤ x) (i : Nat) (hi : i < 8) :
    hadamardCodeword (2 ^ x) 3 i = .ok (if i < 4 then (List.range (2 ^ x)).map (sign i) else List.replicate (2 ^ x) 0) := by
  obtain ⟨n, rfl⟩ : ∃ n, x = n + 2 := ⟨x - 2, by omega⟩
  unfold hadamardCodeword hadamardMatrix
  rw [Nat.log2_two_pow]
  simp only
  by_cases h : i < 4
  · rw [if_pos (by omega), row_eq n i h, if_pos h]
  · rw [if_neg (by omega), row_eq n _ (by omega), if_neg h]
    simp only [List.map_map]
    congr 1
    have : ((fun x : Int => if x = 0 then (1 : Int) else 0) ∘ sign (2 ^ 3 - 1 - i)) = fun _ => 0 := by
      funext j
      simp only [Function.comp]
      rw [if_neg]
      unfold sign
      split <;> decide
    rw [this, List.map_const', List.length_range]

/-- **C56 (partial).**  The codewords 0..3 are pairwise different, and different from the words 4..7. -/
theorem C56_distinct_partial (x : Nat) (hx : 2 ≤ x) (i j : Nat) (hi : i < 4) (hj : j < 8) (hne : i ≠ j) :
    hadamardCodeword (2 ^ x) 3 i ≠ hadamardCodeword (2 ^ x) 3 j := by
  rw [C56_actual x hx i (by omega), C56_actual x hx j hj, if_pos hi]
  intro e0
  have e := Except.ok.inj e0
  have hp : 4 ≤ 2 ^ x := Nat.pow_le_pow_right (show 0 < 2 by decide) hx
  have at' : ∀ k < 4, sign i k = (if j < 4 then sign j k else 0) := by
    intro k hk
    have := congrArg (fun l : List Int => l[k]?) e
    rw [List.getElem?_map, List.getElem?_range (by omega)] at this
    split at this
    · rename_i hj4
      rw [if_pos hj4]
      rw [List.getElem?_map, List.getElem?_range (by omega)] at this
      exact Option.some.inj this
    · rename_i hj4
      rw [if_neg hj4]
      rw [List.getElem?_replicate, if_pos (by omega)] at this
      exact Option.some.inj this
  by_cases hj4 : j < 4
  · simp only [if_pos hj4] at at'
    have h1 := at' 1 (by decide)
    have h2 := at' 2 (by decide)
    have key : ∀ i < 4, ∀ j < 4, i ≠ j → sign i 1 = sign j 1 → sign i 2 = sign j 2 → False := by decide
    exact key i hi j hj4 hne h1 h2
  · have := at' 0 (by decide)
    rw [if_neg hj4] at this
    unfold sign at this
    split at this <;> cases this

/-- **C56 (refutation).**  For every size, the words 4..7 coincide, and no word `i` is the complement (negation) of the word `7-i`. -/
theorem C56_false (x : Nat) (hx : 2 ≤ x) :
    (∀ i j, 4 ≤ i → i < 8 → 4 ≤ j → j < 8 → hadamardCodeword (2 ^ x) 3 i = hadamardCodeword (2 ^ x) 3 j) ∧
    ∀ i < 8, ∀ w w', hadamardCodeword (2 ^ x) 3 i = .ok w → hadamardCodeword (2 ^ x) 3 (7 - i) = .ok w' → w' ≠ w.map (- ·) := by
  have hp : 0 < 2 ^ x := Nat.pow_pos (by decide)
  constructor
  · intro i j h1 h2 h3 h4
    rw [C56_actual x hx i h2, C56_actual x hx j h4, if_neg (by omega), if_neg (by omega)]
  · intro i hi w w' e e' h
    rw [C56_actual x hx _ (by omega)] at e e'
    have e := Except.ok.inj e
    have e' := Except.ok.inj e'
    have s : ∀ a b, sign a b ≠ 0 := by intro a b; unfold sign; split <;> decide
    by_cases h4 : i < 4
    · rw [if_pos h4] at e
      rw [if_neg (by omega)] at e'
      subst e; subst e'
      have := congrArg (fun l : List Int => l[0]?) h
      simp only [List.getElem?_map, List.getElem?_replicate, if_pos hp, List.getElem?_range hp, Option.map_some, Option.some.injEq] at this
      have := s i 0
      omega
    · rw [if_neg h4] at e
      rw [if_pos (by omega)] at e'
      subst e; subst e'
      have := congrArg (fun l : List Int => l[0]?) h
      simp only [List.getElem?_map, List.getElem?_replicate, if_pos hp, List.getElem?_range hp, Option.map_some, Option.some.injEq] at this
      have := s (7 - i) 0
      omega

example : hadamardCodeword 8 3 2 = .ok [1, 1, -1, -1, 1, 1, -1, -1] ∧ hadamardCodeword 8 3 5 = .ok [0, 0, 0, 0, 0, 0, 0, 0] := by decide

end SunPhy.C56
