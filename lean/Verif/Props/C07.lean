import Verif.Props.C05
/-
C07 — data whitening is an involution with a data-independent keystream (`operations.scrambler`).
-/
namespace SunPhy.C07
open SunPhy

theorem scrambler_eq (m : Bits) (s : Nat) :
    scrambler m s = List.zipWith (fun (x : Nat) (b : Bool) => (x == 1) ^^ b)
      ((List.range m.length).map fun k => pn9Out (pn9Step^[k + 1] s)) m := by
  unfold scrambler
  rw [Pn9.nextN_fst]
  rfl

/-- **C07 (what is transmitted).**  Bit `k` of the whitened message is bit `k` of the message xor bit `k` of the PN9
sequence of the seed, and the length is unchanged. -/
theorem C07_keystream (m : Bits) (s : Nat) :
    (scrambler m s).length = m.length ∧
    ∀ k, (h : k < m.length) → ∃ y, C05.output s k = some y ∧ (scrambler m s)[k]? = some ((y == 1) ^^ m[k]) := by
  constructor
  · rw [scrambler_eq]; simp
  · intro k h
    refine ⟨_, C05.output_eq s k, ?_⟩
    rw [scrambler_eq, List.getElem?_zipWith]
    simp [h]

/-- **C07 (involution).** -/
theorem C07_involution (m : Bits) (s : Nat) : scrambler (scrambler m s) s = m := by
  apply List.ext_getElem?
  intro k
  have hl := (C07_keystream m s).1
  by_cases h : k < m.length
  · obtain ⟨y, hy, e⟩ := (C07_keystream m s).2 k h
    obtain ⟨y', hy', e'⟩ := (C07_keystream (scrambler m s) s).2 k (by omega)
    rw [hy] at hy'
    cases hy'
    rw [e', List.getElem?_eq_getElem h]
    have : (scrambler m s)[k] = ((y == 1) ^^ m[k]) := by
      have h2 : k < (scrambler m s).length := by omega
      rw [List.getElem?_eq_getElem h2] at e
      exact Option.some.inj e
    rw [this]; simp
  · rw [List.getElem?_eq_none (by rw [(C07_keystream _ s).1]; omega), List.getElem?_eq_none (by omega)]

/-- **C07 (differences).**  Whitening does not change which positions of two equally long messages differ. -/
theorem C07_differences (m m' : Bits) (s : Nat) (h : m.length = m'.length) :
    List.zipWith xor (scrambler m s) (scrambler m' s) = List.zipWith xor m m' := by
  apply List.ext_getElem?
  intro k
  by_cases hk : k < m.length
  · obtain ⟨y, hy, e⟩ := (C07_keystream m s).2 k hk
    obtain ⟨y', hy', e'⟩ := (C07_keystream m' s).2 k (by omega)
    rw [hy] at hy'
    cases hy'
    rw [List.getElem?_zipWith, List.getElem?_zipWith, e, e', List.getElem?_eq_getElem hk,
      List.getElem?_eq_getElem (by omega : k < m'.length)]
    simp only [Option.some.injEq]
    cases (y == 1) <;> cases m[k] <;> cases m'[k] <;> rfl
  · rw [List.getElem?_eq_none, List.getElem?_eq_none]
    · simp; omega
    · simp [(C07_keystream _ s).1]; omega

example : scrambler [true, false, true, true, false] 511 = [true, false, true, true, true] := by decide
example : scrambler (scrambler [true, false, true, true, false] 511) 511 = [true, false, true, true, false] := by decide

end SunPhy.C07
