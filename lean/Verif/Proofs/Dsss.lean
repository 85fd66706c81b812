import Verif.Model.MrOqpsk
import Verif.Proofs.Conv
/-
DSSS spreading: block structure and nearest-codeword decoding.
-/
namespace SunPhy
open Spec

/-- Chips per codeword of a table. -/
def Code.chipLen (c : Code) : Nat := ((c.table.head?.map (·.2)).getD []).length

/-- All bit strings of length `n`. -/
def allKeys : Nat → List Bits
  | 0 => [[]]
  | n + 1 => (allKeys n).flatMap fun k => [false :: k, true :: k]

theorem mem_allKeys (b : Bits) : b ∈ allKeys b.length := by
  induction b with
  | nil => simp [allKeys]
  | cons a b ih =>
    simp only [List.length_cons, allKeys, List.mem_flatMap]
    exact ⟨b, ih, by cases a <;> simp⟩

/-- Every key of the right length is in the table, with a codeword of the right length. -/
theorem table_total : ∀ c : Code, ∀ key ∈ allKeys c.keyLen, ∃ e ∈ c.table, e.1 = key ∧ c.lookup key = .ok e.2 ∧ e.2.length = c.chipLen := by
  intro c; cases c <;> decide +kernel

theorem code_pos : ∀ c : Code, 0 < c.keyLen ∧ 0 < c.chipLen := by intro c; cases c <;> decide +kernel

/-- The chips of a key of the right length. -/
def Code.chips (c : Code) (key : Bits) : Bits := match c.lookup key with | .ok x => x | .error _ => []

theorem lookup_ok (c : Code) (key : Bits) (h : key.length = c.keyLen) :
    c.lookup key = .ok (c.chips key) ∧ (c.chips key).length = c.chipLen ∧ (key, c.chips key) ∈ c.table := by
  obtain ⟨e, he, e1, e2, e3⟩ := table_total c key (h ▸ mem_allKeys key)
  unfold Code.chips
  rw [e2]
  refine ⟨rfl, e3, ?_⟩
  rw [← e1]; exact he

/-- A tuple of codes of common sizes. -/
structure Uniform (codes : List Code) (n x : Nat) : Prop where
  ne : codes ≠ []
  key : ∀ c ∈ codes, c.keyLen = n
  chip : ∀ c ∈ codes, c.chipLen = x

theorem uniform_get {codes : List Code} {n x : Nat} (h : Uniform codes n x) (i : Nat) :
    ∃ c, codes[i % codes.length]? = some c ∧ c ∈ codes := by
  have hp := List.length_pos_of_ne_nil h.ne
  refine ⟨codes[i % codes.length]'(Nat.mod_lt _ hp), List.getElem?_eq_getElem _, List.getElem_mem _⟩

theorem uniform_pos {codes : List Code} {n x : Nat} (h : Uniform codes n x) : 0 < n ∧ 0 < x := by
  obtain ⟨c, -, hc⟩ := uniform_get h 0
  have := code_pos c
  rw [h.key c hc, h.chip c hc] at this
  exact this

/-- Chips of row `i`. -/
def rowChips (codes : List Code) (i : Nat) (row : Bits) : Bits :=
  match codes[i % codes.length]? with
  | some c => c.chips row
  | none => []

theorem rowChips_length {codes : List Code} {n x : Nat} (h : Uniform codes n x) (i : Nat) (row : Bits) (hr : row.length = n) :
    (rowChips codes i row).length = x := by
  obtain ⟨c, hc, hm⟩ := uniform_get h i
  unfold rowChips
  rw [hc]
  simp only
  rw [(lookup_ok c row (by rw [h.key c hm, hr])).2.1, h.chip c hm]

theorem dsssRows_ok {codes : List Code} {n x : Nat} (h : Uniform codes n x) (rows : List Bits) : ∀ i, (∀ r ∈ rows, r.length = n) →
    dsssRows codes i rows = .ok ((rows.zipIdx i).flatMap fun (r : Bits × Nat) => rowChips codes r.2 r.1) := by
  induction rows with
  | nil => intro i _; rfl
  | cons r rows ih =>
    intro i hr
    obtain ⟨c, hc, hm⟩ := uniform_get h i
    rw [dsssRows, hc]
    simp only
    rw [(lookup_ok c r (by rw [h.key c hm, hr r (by simp)])).1, ih (i + 1) fun y hy => hr y (by simp [hy])]
    simp [List.zipIdx_cons, bind, Except.bind, pure, Except.pure, rowChips, hc]

/-- Spread sequence. -/
def spreadOf (codes : List Code) (n : Nat) (m : Bits) : Bits := ((chunks n m).zipIdx).flatMap fun (r : Bits × Nat) => rowChips codes r.2 r.1

theorem dsss_ok {codes : List Code} {n x : Nat} (h : Uniform codes n x) (m : Bits) (hm : m.length % n = 0) :
    dsss m codes = .ok (spreadOf codes n m) := by
  have hn := (uniform_pos h).1
  match codes, h with
  | c :: cs, h =>
    have hc : c.keyLen = n := h.key c (by simp)
    simp only [dsss]
    rw [hc]
    unfold reshapeRows
    rw [if_neg (by omega)]
    simp only [bind, Except.bind]
    rw [dsssRows_ok h _ 0 fun r hr => mem_chunks_length hr]
    rfl

theorem dsss_error {codes : List Code} {n x : Nat} (h : Uniform codes n x) (m : Bits) (hm : m.length % n ≠ 0) :
    dsss m codes = .error .ValueError := by
  match codes, h with
  | c :: cs, h =>
    have hc : c.keyLen = n := h.key c (by simp)
    simp only [dsss]
    rw [hc]
    unfold reshapeRows
    rw [if_pos (.inr hm)]
    rfl

theorem spread_rows_length {codes : List Code} {n x : Nat} (h : Uniform codes n x) (m : Bits) :
    ∀ b ∈ ((chunks n m).zipIdx).map (fun (r : Bits × Nat) => rowChips codes r.2 r.1), b.length = x := by
  intro b hb
  simp only [List.mem_map, Prod.exists] at hb
  obtain ⟨r, i, hr, rfl⟩ := hb
  exact rowChips_length h i r (mem_chunks_length (List.fst_mem_of_mem_zipIdx hr))

theorem spreadOf_length {codes : List Code} {n x : Nat} (h : Uniform codes n x) (m : Bits) :
    (spreadOf codes n m).length = m.length / n * x := by
  unfold spreadOf
  rw [flatMap_length_const _ x]
  · simp [chunks_length, Nat.mul_comm]
  · intro r hr
    exact rowChips_length h r.2 r.1 (mem_chunks_length (List.fst_mem_of_mem_zipIdx hr))

theorem spreadOf_chunks {codes : List Code} {n x : Nat} (h : Uniform codes n x) (m : Bits) :
    chunks x (spreadOf codes n m) = ((chunks n m).zipIdx).map fun (r : Bits × Nat) => rowChips codes r.2 r.1 := by
  unfold spreadOf
  rw [List.flatMap_def, chunks_of_flatten (uniform_pos h).2 _ (spread_rows_length h m)]

end SunPhy
