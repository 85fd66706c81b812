import Verif.Proofs.BitsLemmas
/-
C01 — byte messages are expanded least-significant bit first, losslessly (`to_binary_array`).
-/
namespace SunPhy.C01
open SunPhy

/-- The argument is the octet sequence `m`, in one of the accepted Python representations. -/
def Denotes : Arg → List UInt8 → Prop
  | .bytes l, m => l = m
  | .list a, m | .ndarray a, m => a.ndim = 1 ∧ a.vals = m.map fun b => (b.toNat : Rat)
  | _, _ => False

theorem toBinaryArray_of_denotes {a : Arg} {m : List UInt8} (h : Denotes a m) (hne : m ≠ []) :
    toBinaryArray a = .ok (m.flatMap fun b => (List.range 8).map b.toNat.testBit) := by
  have key : toIntArray a = .ok (1, m.map fun b => (b.toNat : Int)) := by
    cases a with
    | bytes l => simp [Denotes] at h; subst h; rfl
    | list a =>
      obtain ⟨h1, h2⟩ := h
      have hs : ¬ a.vals.any (fun v => truncRat v < -2 ^ 63 || 2 ^ 63 ≤ truncRat v) = true := by
        rw [h2]
        simp only [List.any_map, List.any_eq_true, not_exists, not_and]
        intro b _ h
        have := b.toNat_lt
        simp [truncRat_natCast] at h
        omega
      refine (if_neg hs).trans ?_
      simp [h1, h2, Function.comp_def, truncRat_natCast]
    | ndarray a => obtain ⟨h1, h2⟩ := h; simp [toIntArray, h1, h2, Function.comp_def, truncRat_natCast]
    | str => exact h.elim
    | other => exact h.elim
  unfold toBinaryArray
  rw [key]
  simp only [bind, Except.bind]
  rw [if_neg (by simpa using hne), if_neg, if_neg (by simp)]
  · congr 1
    rw [List.flatMap_map]
    congr 1
    funext b
    exact byteBits_eq b.toNat_lt
  · simp only [List.any_map, Bool.or_eq_true, List.any_eq_true, not_or]
    constructor
    · rintro ⟨b, _, h⟩; simp at h; omega
    · rintro ⟨b, _, h⟩
      have := b.toNat_lt
      simp at h
      omega

/-- **C01.**  Every non-empty octet sequence, in each accepted representation, is expanded to exactly `8*len` bits, bit
`8*i + j` being the bit of weight `2^j` of octet `i`. -/
theorem C01_lsb_first (a : Arg) (m : List UInt8) (h : Denotes a m) (hne : m ≠ []) :
    ∃ b, toBinaryArray a = .ok b ∧ b.length = 8 * m.length ∧
      ∀ i j, (hi : i < m.length) → j < 8 → b[8 * i + j]? = some (m[i].toNat.testBit j) := by
  refine ⟨_, toBinaryArray_of_denotes h hne, ?_, ?_⟩
  · rw [flatMap_length_const _ 8 _ (by simp), Nat.mul_comm]
  · clear h hne
    intro i j
    induction m generalizing i with
    | nil => intro hi; simp at hi
    | cons x m ih =>
      intro hi hj
      rw [List.flatMap_cons]
      cases i with
      | zero =>
        rw [List.getElem?_append_left (by simpa using hj)]
        simp [hj]
      | succ i =>
        rw [List.getElem?_append_right (by simp; omega)]
        have : 8 * (i + 1) + j - ((List.range 8).map x.toNat.testBit).length = 8 * i + j := by simp; omega
        rw [this, ih i (by simpa using hi) hj]
        simp

/-- **C01 (lossless).**  Octet sequences with the same bit expansion are equal. -/
theorem C01_injective (a a' : Arg) (m m' : List UInt8) (b : Bits) (h : Denotes a m) (h' : Denotes a' m')
    (hne : m ≠ []) (hne' : m' ≠ []) (hb : toBinaryArray a = .ok b) (hb' : toBinaryArray a' = .ok b) : m = m' := by
  obtain ⟨c, hc, hl, hg⟩ := C01_lsb_first a m h hne
  obtain ⟨c', hc', hl', hg'⟩ := C01_lsb_first a' m' h' hne'
  rw [hb] at hc; rw [hb'] at hc'
  cases hc; cases hc'
  apply List.ext_getElem (by omega)
  intro i hi hi'
  apply UInt8.toNat_inj.1
  apply Nat.eq_of_testBit_eq
  intro j
  by_cases hj : j < 8
  · have h1 := hg i j hi hj
    have h2 := hg' i j hi' hj
    rw [h1] at h2
    exact Option.some.inj h2
  · have hp : 2 ^ 8 ≤ 2 ^ j := Nat.pow_le_pow_right (by decide) (by omega)
    have := m[i].toNat_lt
    have := m'[i].toNat_lt
    rw [Nat.testBit_lt_two_pow (by omega), Nat.testBit_lt_two_pow (by omega)]

-- the hypotheses are met, and the result is not trivial
example : Denotes (.bytes [0x01, 0x80]) [0x01, 0x80] ∧ ([0x01, 0x80] : List UInt8) ≠ [] := ⟨rfl, by simp⟩
example : Denotes (.list ⟨1, [1, 128]⟩) [0x01, 0x80] := ⟨rfl, by simp⟩
example : toBinaryArray (.bytes [0x01, 0x80]) =
    .ok [true, false, false, false, false, false, false, false, false, false, false, false, false, false, false, true] := by
  decide +kernel

end SunPhy.C01
