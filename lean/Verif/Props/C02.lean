import Verif.Proofs.BitsLemmas
/-
C02 — which octet messages are accepted, and with which exception the others are refused (`to_binary_array`; the
`bytesToIQ` part is in `Props/C02_IQ.lean`).
-/
namespace SunPhy.C02
open SunPhy

/-- The acceptable arguments: a non-empty `bytes`/`bytearray`, or a non-empty one-dimensional list / array whose entries,
truncated toward zero, are octets (i.e. lie strictly between -1 and 256). -/
def Acceptable : Arg → Prop
  | .bytes l => l ≠ []
  | .list a | .ndarray a => a.ndim = 1 ∧ a.vals ≠ [] ∧ ∀ v ∈ a.vals, -1 < v ∧ v < 256
  | _ => False

/-- Arguments of a type that can hold numbers. -/
def Numeric : Arg → Prop
  | .bytes _ | .list _ | .ndarray _ => True
  | _ => False

/-- Empty, or some entry does not truncate into 0..255. -/
def BadContent : Arg → Prop
  | .bytes l => l = []
  | .list a | .ndarray a => a.vals = [] ∨ ∃ v ∈ a.vals, v ≤ -1 ∨ 256 ≤ v
  | _ => False

/-- A list with a number that does not fit in 64 bits. -/
def Huge : Arg → Prop
  | .list a => ∃ v ∈ a.vals, v ≤ -2 ^ 63 - 1 ∨ 2 ^ 63 ≤ v
  | _ => False

theorem huge_iff (a : NdArr) : a.vals.any (fun v => truncRat v < -2 ^ 63 || 2 ^ 63 ≤ truncRat v) = true ↔ Huge (.list a) := by
  simp only [Huge, List.any_eq_true, Bool.or_eq_true, decide_eq_true_eq]
  have h1 : ∀ v : Rat, truncRat v < -2 ^ 63 ↔ v ≤ -2 ^ 63 - 1 := fun v => by
    unfold truncRat
    split
    · rename_i h
      have : 0 ≤ v.floor := Rat.le_floor_iff.2 (by simpa using h)
      constructor
      · intro h'; omega
      · intro h'; exfalso; linarith [h, h', (by norm_num : ((-2 : Rat) ^ 63 - 1) < 0)]
    · have e : v.ceil < -2 ^ 63 ↔ v.ceil ≤ -2 ^ 63 - 1 := by omega
      rw [e, Rat.ceil_le_iff]; push_cast; norm_num
  have h2 : ∀ v : Rat, 2 ^ 63 ≤ truncRat v ↔ 2 ^ 63 ≤ v := fun v => by
    have := truncRat_lt (q := v) (n := 2 ^ 63) (by decide)
    rw [← not_lt, ← not_lt, this]
    norm_num
  simp only [h1, h2]

theorem huge_bad (a : Arg) (h : Huge a) : BadContent a := by
  cases a with
  | list x =>
    obtain ⟨v, hv, h⟩ := h
    refine .inr ⟨v, hv, ?_⟩
    rcases h with h | h
    · left; norm_num at h; linarith
    · right; norm_num at h; linarith
  | _ => exact h.elim

theorem toIntArray_list (a : NdArr) (h : ¬ Huge (.list a)) : toIntArray (.list a) = .ok (a.ndim, a.vals.map truncRat) := by
  exact if_neg (by rw [huge_iff]; exact h)

theorem huge_result (a : Arg) (h : Huge a) : toBinaryArray a = .error .OverflowError := by
  cases a with
  | list x =>
    unfold toBinaryArray toIntArray
    simp only
    rw [if_pos ((huge_iff x).2 h)]
    rfl
  | _ => exact h.elim

theorem arr_cases (a : NdArr) (vals : List Int) (hv : vals = a.vals.map truncRat) :
    (vals.any (· < 0) || vals.any (255 < ·)) = true ↔ ∃ v ∈ a.vals, v ≤ -1 ∨ 256 ≤ v := by
  subst hv
  simp only [List.any_map, Bool.or_eq_true, List.any_eq_true, Function.comp, decide_eq_true_eq]
  have h1 : ∀ v : Rat, truncRat v < 0 ↔ v ≤ -1 := fun v => by
    rw [← not_le, truncRat_nonneg, not_lt]
  have h2 : ∀ v : Rat, 255 < truncRat v ↔ 256 ≤ v := fun v => by
    have := truncRat_lt (q := v) (n := 256) (by decide)
    push_cast at this
    rw [← not_lt (a := v), ← this]; omega
  simp only [h1, h2]
  constructor
  · rintro (⟨v, hv, h⟩ | ⟨v, hv, h⟩)
    · exact ⟨v, hv, .inl h⟩
    · exact ⟨v, hv, .inr h⟩
  · rintro ⟨v, hv, h | h⟩
    · exact .inl ⟨v, hv, h⟩
    · exact .inr ⟨v, hv, h⟩

theorem bytes_range (l : List UInt8) :
    ((l.map fun b => (b.toNat : Int)).any (· < 0) || (l.map fun b => (b.toNat : Int)).any (255 < ·)) = false := by
  rw [Bool.or_eq_false_iff, List.any_eq_false, List.any_eq_false]
  constructor <;>
  · intro x hx
    obtain ⟨b, _, rfl⟩ := List.mem_map.1 hx
    have := b.toNat_lt
    simp; try omega

theorem array_result (a : NdArr) (ctor : NdArr → Arg) (h : toIntArray (ctor a) = .ok (a.ndim, a.vals.map truncRat)) :
    (a.vals = [] ∨ (∃ v ∈ a.vals, v ≤ -1 ∨ 256 ≤ v) → toBinaryArray (ctor a) = .error .ValueError) ∧
    (¬ (a.vals = [] ∨ (∃ v ∈ a.vals, v ≤ -1 ∨ 256 ≤ v)) → a.ndim ≠ 1 → toBinaryArray (ctor a) = .error .TypeError) ∧
    (¬ (a.vals = [] ∨ (∃ v ∈ a.vals, v ≤ -1 ∨ 256 ≤ v)) → a.ndim = 1 → ∃ b, toBinaryArray (ctor a) = .ok b) := by
  unfold toBinaryArray
  rw [h]
  simp only [bind, Except.bind]
  have hc := arr_cases a _ rfl
  refine ⟨?_, ?_, ?_⟩
  · rintro (h | h)
    · rw [if_pos (by simp [h])]
    · by_cases h0 : a.vals.map truncRat = []
      · rw [if_pos h0]
      · rw [if_neg h0, if_pos (hc.2 h)]
  · intro h1 h2
    rw [not_or] at h1
    rw [if_neg (by simpa using h1.1), if_neg (by rw [hc]; exact h1.2), if_pos h2]
  · intro h1 h2
    rw [not_or] at h1
    rw [if_neg (by simpa using h1.1), if_neg (by rw [hc]; exact h1.2), if_neg (by simpa using h2)]
    exact ⟨_, rfl⟩

/-- **C02.**  The conversion succeeds exactly on the acceptable arguments. -/
theorem C02_accepts_iff (a : Arg) : (∃ b, toBinaryArray a = .ok b) ↔ Acceptable a := by
  have good : ∀ v : Rat, (¬ (v ≤ -1 ∨ 256 ≤ v)) ↔ -1 < v ∧ v < 256 := fun v => by rw [not_or, not_le, not_le]
  have arr : ∀ (arr : NdArr) (ctor : NdArr → Arg), toIntArray (ctor arr) = .ok (arr.ndim, arr.vals.map truncRat) →
      ((∃ b, toBinaryArray (ctor arr) = .ok b) ↔ (arr.ndim = 1 ∧ arr.vals ≠ [] ∧ ∀ v ∈ arr.vals, -1 < v ∧ v < 256)) := by
    intro arr ctor h
    obtain ⟨h1, h2, h3⟩ := array_result arr ctor h
    constructor
    · rintro ⟨b, hb⟩
      have hn : ¬ (arr.vals = [] ∨ (∃ v ∈ arr.vals, v ≤ -1 ∨ 256 ≤ v)) := fun hh => by
        rw [h1 hh] at hb; cases hb
      refine ⟨?_, fun h0 => hn (.inl h0), fun v hv => (good v).1 fun hh => hn (.inr ⟨v, hv, hh⟩)⟩
      by_contra hd
      rw [h2 hn hd] at hb; cases hb
    · rintro ⟨hd, h0, hv⟩
      refine h3 ?_ hd
      rintro (h | ⟨v, hv', h⟩)
      · exact h0 h
      · exact (good v).2 (hv v hv') h
  cases a with
  | list x =>
    by_cases hh : Huge (.list x)
    · constructor
      · rintro ⟨b, hb⟩; rw [huge_result _ hh] at hb; cases hb
      · rintro ⟨-, -, hv⟩
        obtain ⟨v, hm, h⟩ := hh
        have := hv v hm
        norm_num at h
        rcases h with h | h <;> linarith [this.1, this.2]
    · exact arr x .list (toIntArray_list x hh)
  | ndarray x => exact arr x .ndarray rfl
  | bytes l =>
    by_cases h0 : l = []
    · subst h0; simp [Acceptable, toBinaryArray, toIntArray, bind, Except.bind]
    · simp only [Acceptable, ne_eq, h0, not_false_iff, iff_true]
      unfold toBinaryArray toIntArray
      simp only [bind, Except.bind]
      rw [if_neg (by simpa using h0), bytes_range]
      exact ⟨_, rfl⟩
  | str => simp [Acceptable, toBinaryArray, toIntArray, bind, Except.bind]
  | other => simp [Acceptable, toBinaryArray, toIntArray, bind, Except.bind]

/-- **C02 (which exception).**  A list with a number beyond 64 bits raises `OverflowError`; other empty or out of range numeric arguments raise
`ValueError`; `str` and other types raise `TypeError`; numeric arguments with octet content that are not one-dimensional raise `TypeError`. -/
theorem C02_exceptions (a : Arg) :
    (Huge a → toBinaryArray a = .error .OverflowError) ∧
    (BadContent a → ¬ Huge a → toBinaryArray a = .error .ValueError) ∧
    (¬ Numeric a → toBinaryArray a = .error .TypeError) ∧
    (∀ e, toBinaryArray a = .error e → ¬ Huge a → e = .ValueError ∨ e = .TypeError) := by
  refine ⟨huge_result a, ?_⟩
  have arr : ∀ (arr : NdArr) (ctor : NdArr → Arg), toIntArray (ctor arr) = .ok (arr.ndim, arr.vals.map truncRat) →
      (arr.vals = [] ∨ (∃ v ∈ arr.vals, v ≤ -1 ∨ 256 ≤ v) → toBinaryArray (ctor arr) = .error .ValueError) ∧
      (∀ e, toBinaryArray (ctor arr) = .error e → e = .ValueError ∨ e = .TypeError) := by
    intro arr ctor h
    obtain ⟨h1, h2, h3⟩ := array_result arr ctor h
    refine ⟨h1, ?_⟩
    intro e he
    by_cases hb : arr.vals = [] ∨ (∃ v ∈ arr.vals, v ≤ -1 ∨ 256 ≤ v)
    · rw [h1 hb] at he; cases he; exact .inl rfl
    · by_cases hd : arr.ndim = 1
      · obtain ⟨b, hb⟩ := h3 hb hd
        rw [hb] at he; cases he
      · rw [h2 hb hd] at he; cases he; exact .inr rfl
  cases a with
  | list x =>
    refine ⟨fun hb hh => (arr x .list (toIntArray_list x hh)).1 hb, fun h => (h trivial).elim, fun e he hh => (arr x .list (toIntArray_list x hh)).2 e he⟩
  | ndarray x =>
    obtain ⟨h1, h2⟩ := arr x .ndarray rfl
    exact ⟨fun h _ => h1 h, fun h => (h trivial).elim, fun e he _ => h2 e he⟩
  | bytes l =>
    refine ⟨?_, fun h => (h trivial).elim, ?_⟩
    · intro h _; simp only [BadContent] at h; subst h; rfl
    · intro e he _
      by_cases h0 : l = []
      · subst h0; cases he; exact .inl rfl
      · obtain ⟨b, hb⟩ := (C02_accepts_iff (.bytes l)).2 h0
        rw [hb] at he; cases he
  | str => refine ⟨fun h => h.elim, fun _ => rfl, ?_⟩; intro e he _; cases he; exact .inr rfl
  | other => refine ⟨fun h => h.elim, fun _ => rfl, ?_⟩; intro e he _; cases he; exact .inr rfl

-- instances of the cases
example : Huge (.list ⟨1, [3, 10 ^ 20]⟩) ∧ ¬ Huge (.list ⟨1, [3, 256]⟩) := by
  refine ⟨⟨10 ^ 20, by simp, .inr (by norm_num)⟩, ?_⟩
  rintro ⟨v, hv, h⟩
  simp at hv
  rcases hv with rfl | rfl <;> norm_num at h
example : Acceptable (.list ⟨1, [3, 255, 0]⟩) := ⟨rfl, by simp, by simp; norm_num⟩
example : BadContent (.list ⟨1, [3, 256]⟩) := .inr ⟨256, by simp, .inr le_rfl⟩
example : BadContent (.bytes []) := rfl
example : ¬ Numeric .str := id

end SunPhy.C02
