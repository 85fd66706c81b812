import Verif.Proofs.BitsLemmas
/-
C03 — bit messages are validated before modulation (`check_binary_array`).
-/
namespace SunPhy.C03
open SunPhy

/-- The acceptable bit messages: a non-empty one-dimensional list or array with entries in [0, 1]. -/
def Acceptable : Arg → Prop
  | .list a | .ndarray a => a.ndim = 1 ∧ a.vals ≠ [] ∧ ∀ v ∈ a.vals, 0 ≤ v ∧ v ≤ 1
  | _ => False

/-- Types `check_binary_array` knows: lists and numpy arrays (not `bytes`, not `str`). -/
def KnownType : Arg → Prop
  | .list _ | .ndarray _ => True
  | _ => False

/-- The entries of the argument. -/
def entries : Arg → List Rat
  | .list a | .ndarray a => a.vals
  | _ => []

theorem trunc_unit {v : Rat} (h0 : 0 ≤ v) (h1 : v ≤ 1) : truncRat v = if v = 1 then 1 else 0 := by
  split
  · rename_i h; subst h; simpa using truncRat_natCast 1
  · rename_i h
    have h2 : v < 1 := lt_of_le_of_ne h1 h
    have a := (truncRat_nonneg (q := v)).2 (by linarith)
    have b := (truncRat_lt (q := v) (n := 1) (by decide)).2 (by exact_mod_cast h2)
    omega

theorem arr_spec (a : NdArr) (r : Res Bits)
    (hr : r = if a.ndim ≠ 1 then .error .ValueError
      else if a.vals = [] then .error .ValueError
      else if a.vals.any (· < 0) || a.vals.any (1 < ·) then .error .ValueError
      else .ok (a.vals.map fun v => decide (truncRat v = 1))) :
    ((a.ndim = 1 ∧ a.vals ≠ [] ∧ ∀ v ∈ a.vals, 0 ≤ v ∧ v ≤ 1) ∧ r = .ok (a.vals.map fun v => decide (v = 1))) ∨
    (¬ (a.ndim = 1 ∧ a.vals ≠ [] ∧ ∀ v ∈ a.vals, 0 ≤ v ∧ v ≤ 1) ∧ r = .error .ValueError) := by
  have hc : (a.vals.any (· < 0) || a.vals.any (1 < ·)) = true ↔ ¬ ∀ v ∈ a.vals, 0 ≤ v ∧ v ≤ 1 := by
    simp only [Bool.or_eq_true, List.any_eq_true, decide_eq_true_eq]
    push Not
    constructor
    · rintro (⟨v, hv, h⟩ | ⟨v, hv, h⟩)
      · exact ⟨v, hv, fun h2 => by linarith⟩
      · exact ⟨v, hv, fun h2 => h⟩
    · rintro ⟨v, hv, h⟩
      by_cases h0 : v < 0
      · exact .inl ⟨v, hv, h0⟩
      · exact .inr ⟨v, hv, h (by linarith)⟩
  subst hr
  by_cases h1 : a.ndim = 1
  · rw [if_neg (by simpa using h1)]
    by_cases h2 : a.vals = []
    · right; rw [if_pos h2]; exact ⟨fun h => h.2.1 h2, rfl⟩
    · rw [if_neg h2]
      by_cases h3 : ∀ v ∈ a.vals, 0 ≤ v ∧ v ≤ 1
      · left
        rw [if_neg (by rw [hc]; simpa using h3)]
        refine ⟨⟨h1, h2, h3⟩, ?_⟩
        congr 1
        apply List.map_congr_left
        intro v hv
        rw [trunc_unit (h3 v hv).1 (h3 v hv).2]
        by_cases hv1 : v = 1 <;> simp [hv1]
      · right
        rw [if_pos (hc.2 h3)]
        exact ⟨fun h => h3 h.2.2, rfl⟩
  · right
    rw [if_pos h1]
    exact ⟨fun h => h1 h.1, rfl⟩

/-- **C03.**  Acceptable arguments are turned into bits, entry by entry (1 stays 1, everything below 1 truncates to 0, so
0/1 arrays are unchanged); every other argument of a known type raises `ValueError`; other types raise `TypeError`. -/
theorem C03_validation (a : Arg) :
    (Acceptable a → checkBinaryArray a = .ok ((entries a).map fun v => decide (v = 1))) ∧
    (¬ Acceptable a → KnownType a → checkBinaryArray a = .error .ValueError) ∧
    (¬ KnownType a → checkBinaryArray a = .error .TypeError) := by
  cases a with
  | list a | ndarray a =>
    rcases arr_spec a _ rfl with ⟨h1, h2⟩ | ⟨h1, h2⟩
    · exact ⟨fun _ => h2, fun h => (h h1).elim, fun h => (h trivial).elim⟩
    · exact ⟨fun h => (h1 h).elim, fun _ _ => h2, fun h => (h trivial).elim⟩
  | bytes l => exact ⟨fun h => h.elim, fun _ h => h.elim, fun _ => rfl⟩
  | str => exact ⟨fun h => h.elim, fun _ h => h.elim, fun _ => rfl⟩
  | other => exact ⟨fun h => h.elim, fun _ h => h.elim, fun _ => rfl⟩

/-- **C03 (accepted iff).** -/
theorem C03_accepts_iff (a : Arg) : (∃ b, checkBinaryArray a = .ok b) ↔ Acceptable a := by
  obtain ⟨h1, h2, h3⟩ := C03_validation a
  constructor
  · rintro ⟨b, hb⟩
    by_contra hn
    by_cases hk : KnownType a
    · rw [h2 hn hk] at hb; cases hb
    · rw [h3 hk] at hb; cases hb
  · intro h; exact ⟨_, h1 h⟩

/-- **C03 (identity).**  Bit arrays come back unchanged, in particular with the same length. -/
theorem C03_identity (b : Bits) (hb : b ≠ []) : checkBinaryArray (bitsArg b) = .ok b := by
  have hacc : Acceptable (bitsArg b) := by
    refine ⟨rfl, by simpa [bitsArg] using hb, ?_⟩
    intro v hv
    simp only [List.mem_map] at hv
    obtain ⟨x, _, rfl⟩ := hv
    cases x <;> norm_num
  rw [(C03_validation _).1 hacc]
  congr 1
  simp only [entries, bitsArg, List.map_map]
  conv_rhs => rw [← List.map_id b]
  apply List.map_congr_left
  intro x _
  cases x <;> simp

example : Acceptable (.list ⟨1, [0, 1, 1 / 2]⟩) := ⟨rfl, by simp, by simp; norm_num⟩
example : ¬ Acceptable (.list ⟨1, [0, 2]⟩) ∧ KnownType (.list ⟨1, [0, 2]⟩) := by
  refine ⟨?_, trivial⟩
  rintro ⟨_, _, h⟩
  have := h 2 (by simp)
  norm_num at this
example : ¬ KnownType (.bytes [1]) := id

end SunPhy.C03
