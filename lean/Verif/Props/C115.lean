import Verif.Model.SpecialFloats
import Verif.Props.C02
import Verif.Props.C03
import Verif.Props.C02IQ
/-
C115 — NaN and infinities in messages and in the numeric parameters of the MR-FSK modulator.
-/
namespace SunPhy.C115
open SunPhy

/-- NaN or an infinity. -/
def Special (e : Entry) : Prop := e = .nan ∨ ∃ n, e = .inf n

/-- A finite number of [0, 1]. -/
def InUnit (e : Entry) : Prop := ∃ q, e = .fin q ∧ 0 ≤ q ∧ q ≤ 1

/-- Arguments with finite numbers only are the arguments of `Model/Bits.lean`. -/
def ofArg : Arg → ArgS
  | .list a => .list ⟨a.ndim, a.vals.map .fin⟩
  | .ndarray a => .ndarray ⟨a.ndim, a.vals.map .fin⟩
  | .bytes l => .bytes l
  | .str => .str
  | .other => .other

/-- A machine that converts every floating-point number outside the int64 range to `-2^63` (x86). -/
def X86 (i64 : Entry → Int) : Prop := ∀ e, i64 e = -2 ^ 63

/-- A machine whose conversion to int64 saturates, NaN giving 0 (ARM). -/
def Arm (i64 : Entry → Int) : Prop :=
  i64 .nan = 0 ∧ i64 (.inf true) = -2 ^ 63 ∧ i64 (.inf false) = 2 ^ 63 - 1 ∧ ∀ q, i64 (.fin q) = if q < 0 then -2 ^ 63 else 2 ^ 63 - 1

/-! ### minimum and maximum -/

theorem min_lt {a b : Entry} (ha : a ≠ .nan) (hb : b ≠ .nan) (r : Rat) : (a.min b).lt (.fin r) = (a.lt (.fin r) || b.lt (.fin r)) := by
  unfold Entry.min
  rw [if_neg (by simp [ha, hb])]
  cases a with
  | nan => exact absurd rfl ha
  | inf n => cases b with
    | nan => exact absurd rfl hb
    | inf m => cases n <;> cases m <;> rfl
    | fin y => cases n <;> simp [Entry.lt]
  | fin x => cases b with
    | nan => exact absurd rfl hb
    | inf m => cases m <;> simp [Entry.lt]
    | fin y =>
      simp only [Entry.lt]
      by_cases h : y < x
      · simp only [h, decide_true, if_true, Entry.lt]
        by_cases h2 : x < r
        · simp [h2, lt_trans h h2]
        · simp [h2]
      · simp only [h, decide_false, Bool.false_eq_true, if_false, Entry.lt]
        by_cases h2 : x < r
        · simp [h2]
        · have : ¬ y < r := fun h3 => h2 (lt_of_le_of_lt (not_lt.1 h) h3)
          simp [h2, this]

theorem max_lt {a b : Entry} (ha : a ≠ .nan) (hb : b ≠ .nan) (r : Rat) : (Entry.fin r).lt (a.max b) = ((Entry.fin r).lt a || (Entry.fin r).lt b) := by
  unfold Entry.max
  rw [if_neg (by simp [ha, hb])]
  cases a with
  | nan => exact absurd rfl ha
  | inf n => cases b with
    | nan => exact absurd rfl hb
    | inf m => cases n <;> cases m <;> rfl
    | fin y => cases n <;> simp [Entry.lt]
  | fin x => cases b with
    | nan => exact absurd rfl hb
    | inf m => cases m <;> simp [Entry.lt]
    | fin y =>
      simp only [Entry.lt]
      by_cases h : x < y
      · simp only [h, decide_true, if_true, Entry.lt]
        by_cases h2 : r < x
        · simp [h2, lt_trans h2 h]
        · simp [h2]
      · simp only [h, decide_false, Bool.false_eq_true, if_false, Entry.lt]
        by_cases h2 : r < x
        · simp [h2]
        · have : ¬ r < y := fun h3 => h2 (lt_of_lt_of_le h3 (not_lt.1 h))
          simp [h2, this]

theorem min_ne {a b : Entry} (ha : a ≠ .nan) (hb : b ≠ .nan) : a.min b ≠ .nan := by
  unfold Entry.min; rw [if_neg (by simp [ha, hb])]; split <;> assumption

theorem max_ne {a b : Entry} (ha : a ≠ .nan) (hb : b ≠ .nan) : a.max b ≠ .nan := by
  unfold Entry.max; rw [if_neg (by simp [ha, hb])]; split <;> assumption

theorem foldl_min_nan (l : List Entry) : l.foldl Entry.min .nan = .nan := by
  induction l with
  | nil => rfl
  | cons x l ih => simpa [Entry.min] using ih

theorem foldl_max_nan (l : List Entry) : l.foldl Entry.max .nan = .nan := by
  induction l with
  | nil => rfl
  | cons x l ih => simpa [Entry.max] using ih

theorem foldl_nan (l : List Entry) (x : Entry) (h : Entry.nan ∈ x :: l) : l.foldl Entry.min x = .nan ∧ l.foldl Entry.max x = .nan := by
  induction l generalizing x with
  | nil => simp at h; subst h; exact ⟨rfl, rfl⟩
  | cons y l ih =>
    simp only [List.foldl_cons]
    by_cases hx : x = .nan
    · subst hx; simp [Entry.min, Entry.max, foldl_min_nan, foldl_max_nan]
    · by_cases hy : y = .nan
      · subst hy; simp [Entry.min, Entry.max, foldl_min_nan, foldl_max_nan]
      · have hl : Entry.nan ∈ l := by simpa [Ne.symm hx, Ne.symm hy] using h
        exact ⟨(ih (x.min y) (List.mem_cons_of_mem _ hl)).1, (ih (x.max y) (List.mem_cons_of_mem _ hl)).2⟩

theorem foldl_lt (l : List Entry) (x : Entry) (h : Entry.nan ∉ x :: l) (r : Rat) :
    (l.foldl Entry.min x).lt (.fin r) = (x :: l).any (·.lt (.fin r)) ∧ (Entry.fin r).lt (l.foldl Entry.max x) = (x :: l).any ((Entry.fin r).lt ·) := by
  have key : ∀ x, x ≠ .nan → (∀ y ∈ l, y ≠ .nan) → (l.foldl Entry.min x).lt (.fin r) = (x :: l).any (·.lt (.fin r)) ∧
      (Entry.fin r).lt (l.foldl Entry.max x) = (x :: l).any ((Entry.fin r).lt ·) := by
    clear h x
    induction l with
    | nil => intro x _ _; simp
    | cons y l ih =>
      intro x hx hl
      have hy := hl y (by simp)
      have hl' : ∀ z ∈ l, z ≠ .nan := fun z hz => hl z (List.mem_cons_of_mem _ hz)
      simp only [List.foldl_cons]
      refine ⟨?_, ?_⟩
      · rw [(ih (x.min y) (min_ne hx hy) hl').1]
        simp [min_lt hx hy, Bool.or_assoc]
      · rw [(ih (x.max y) (max_ne hx hy) hl').2]
        simp [max_lt hx hy, Bool.or_assoc]
  exact key x (fun e => h (by simp [e])) (fun y hy e => h (by subst e; exact List.mem_cons_of_mem _ hy))

/-! ### bits -/

theorem lt_unit (e : Entry) (h : e ≠ .nan) : (e.lt (.fin 0) = false ∧ (Entry.fin 1).lt e = false) ↔ InUnit e := by
  cases e with
  | nan => exact absurd rfl h
  | inf n => cases n <;> simp [Entry.lt, InUnit]
  | fin q => simp [Entry.lt, InUnit]

theorem check_eq (u8 : Entry → Int) (a : NdArrS) (arg : ArgS) (harg : arg = .list a ∨ arg = .ndarray a) :
    checkBinaryArrayS u8 arg = if a.ndim = 1 ∧ a.vals ≠ [] ∧ (Entry.nan ∈ a.vals ∨ (a.vals.any (·.lt (.fin 0)) = false ∧ a.vals.any ((Entry.fin 1).lt ·) = false))
      then .ok (a.vals.map (castUint8 u8)) else .error .ValueError := by
  have e : checkBinaryArrayS u8 arg = checkBinaryArrayS u8 (.list a) := by rcases harg with rfl | rfl <;> rfl
  rw [e]
  unfold checkBinaryArrayS
  obtain ⟨d, v⟩ := a
  by_cases hd : d = 1
  swap
  · simp [hd, bind, Except.bind]
  cases v with
  | nil => simp [hd, arrayMin, bind, Except.bind, pure, Except.pure]
  | cons x l =>
    simp only [hd, arrayMin, arrayMax, bind, Except.bind, pure, Except.pure, ne_eq, not_true_eq_false, if_false, true_and, reduceCtorEq, not_false_eq_true]
    by_cases hn : Entry.nan ∈ x :: l
    · rw [(foldl_nan l x hn).1, (foldl_nan l x hn).2]
      simp only [Entry.lt, hn, true_or, if_true, Bool.false_eq_true, if_false]
    · rw [(foldl_lt l x hn 0).1, (foldl_lt l x hn 1).2]
      cases (x :: l).any (·.lt (.fin 0)) <;> cases (x :: l).any ((Entry.fin 1).lt ·) <;> simp [hn]

/-- **C115 (bits, acceptance).**  A list or array is accepted as bits exactly if it is one-dimensional, not empty, and either all its entries are finite numbers of
[0, 1] or **one of them is a NaN** (whatever the others are); otherwise `ValueError`. -/
theorem C115_bits_iff (u8 : Entry → Int) (a : NdArrS) (arg : ArgS) (harg : arg = .list a ∨ arg = .ndarray a) :
    ((∃ b, checkBinaryArrayS u8 arg = .ok b) ↔ a.ndim = 1 ∧ a.vals ≠ [] ∧ (Entry.nan ∈ a.vals ∨ ∀ e ∈ a.vals, InUnit e)) ∧
    (∀ e, checkBinaryArrayS u8 arg = .error e → e = .ValueError) := by
  rw [check_eq u8 a arg harg]
  constructor
  · have h : (a.ndim = 1 ∧ a.vals ≠ [] ∧ (Entry.nan ∈ a.vals ∨ (a.vals.any (·.lt (.fin 0)) = false ∧ a.vals.any ((Entry.fin 1).lt ·) = false))) ↔
        a.ndim = 1 ∧ a.vals ≠ [] ∧ (Entry.nan ∈ a.vals ∨ ∀ e ∈ a.vals, InUnit e) := by
      refine and_congr_right fun _ => and_congr_right fun _ => ?_
      by_cases hn : Entry.nan ∈ a.vals
      · simp only [hn, true_or]
      · simp only [hn, false_or, List.any_eq_false]
        constructor
        · rintro ⟨h1, h2⟩ e he
          exact (lt_unit e (fun h => hn (h ▸ he))).1 ⟨by simpa using h1 e he, by simpa using h2 e he⟩
        · intro h
          exact ⟨fun e he => by simpa using ((lt_unit e (fun h => hn (h ▸ he))).2 (h e he)).1, fun e he => by simpa using ((lt_unit e (fun h => hn (h ▸ he))).2 (h e he)).2⟩
    rw [← h]
    split
    · rename_i h; exact ⟨fun _ => h, fun _ => ⟨_, rfl⟩⟩
    · rename_i h; exact ⟨fun ⟨b, hb⟩ => (by cases hb), fun h' => absurd h' h⟩
  · intro e he
    split at he
    · cases he
    · cases he; rfl

/-- **C115 (bits, infinities).**  Without a NaN, a message with an infinity is refused, and an accepted message has as many values as entries, each 1 where the entry
is 1 and 0 where it is less. -/
theorem C115_bits_values (u8 : Entry → Int) (a : NdArrS) (arg : ArgS) (harg : arg = .list a ∨ arg = .ndarray a) (hn : Entry.nan ∉ a.vals) :
    ((∃ n, Entry.inf n ∈ a.vals) → checkBinaryArrayS u8 arg = .error .ValueError) ∧
    (∀ b, checkBinaryArrayS u8 arg = .ok b → b.length = a.vals.length ∧
      ∀ (k : Nat) (q : Rat), a.vals[k]? = some (.fin q) → b[k]? = some (if q = 1 then 1 else 0)) := by
  have hiff := C115_bits_iff u8 a arg harg
  constructor
  · rintro ⟨n, hinf⟩
    cases hc : checkBinaryArrayS u8 arg with
    | error e => rw [hiff.2 e hc]
    | ok b =>
      obtain ⟨-, -, h | h⟩ := hiff.1.1 ⟨b, hc⟩
      · exact absurd h hn
      · obtain ⟨q, hq, -⟩ := h _ hinf
        cases hq
  · intro b hb
    obtain ⟨h1, h0, h | h⟩ := hiff.1.1 ⟨b, hb⟩
    · exact absurd h hn
    rw [check_eq u8 a arg harg] at hb
    split at hb
    swap
    · cases hb
    rw [← Except.ok.inj hb]
    refine ⟨by simp, ?_⟩
    intro k q hk
    rw [List.getElem?_map, hk]
    obtain ⟨q', hq', h0, h1⟩ := h _ (List.mem_of_getElem? hk)
    cases hq'
    have ht : truncRat q = if q = 1 then 1 else 0 := by
      unfold truncRat
      rw [if_pos h0]
      split
      · rename_i h; subst h; rfl
      · rename_i hne
        have hlt : q < 1 := lt_of_le_of_ne h1 hne
        have ha : 0 ≤ q.floor := Rat.le_floor_iff.2 (by simpa using h0)
        have hb : q.floor < 1 := by
          by_contra hc
          have := Rat.le_floor_iff.1 (not_lt.1 hc)
          push_cast at this
          linarith
        omega
    simp only [Option.map_some, castUint8, ht]
    split <;> simp

/-- **C115 (bits, NaN).**  A NaN anywhere in a one-dimensional message switches the check off: the message is accepted and every entry that is an octet goes through as
it is, so the values handed to the modulators need not be bits. -/
theorem C115_bits_nan (u8 : Entry → Int) (a : NdArrS) (arg : ArgS) (harg : arg = .list a ∨ arg = .ndarray a) (hd : a.ndim = 1) (hn : Entry.nan ∈ a.vals) :
    ∃ b, checkBinaryArrayS u8 arg = .ok b ∧ b.length = a.vals.length ∧
      ∀ k n : Nat, n < 256 → a.vals[k]? = some (.fin n) → b[k]? = some (n : Int) := by
  rw [check_eq u8 a arg harg, if_pos ⟨hd, fun h => (by rw [h] at hn; cases hn), .inl hn⟩]
  refine ⟨_, rfl, by simp, ?_⟩
  intro k n h hk
  rw [List.getElem?_map, hk]
  have ht : truncRat (n : Rat) = n := by
    unfold truncRat
    rw [if_pos (by positivity)]
    exact_mod_cast Rat.floor_intCast (n : Int)
  simp only [Option.map_some, castUint8, ht]
  rw [if_pos ⟨by omega, by omega⟩]

/-- **C115 (bits, finite).**  For messages without special values this is the function of `Model/Bits.lean`, on every machine. -/
theorem C115_bits_finite (u8 : Entry → Int) (a : Arg) :
    checkBinaryArrayS u8 (ofArg a) = (checkBinaryArray a).map (fun b => b.map fun x => if x then (1 : Int) else 0) := by
  have key : ∀ (x : NdArr) (arg : ArgS), (arg = .list ⟨x.ndim, x.vals.map .fin⟩ ∨ arg = .ndarray ⟨x.ndim, x.vals.map .fin⟩) →
      checkBinaryArrayS u8 arg = (checkBinaryArray (.list x)).map (fun b => b.map fun x => if x then (1 : Int) else 0) := by
    intro x arg harg
    have hn : Entry.nan ∉ x.vals.map Entry.fin := by simp
    obtain ⟨hi, he⟩ := C115_bits_iff u8 _ arg harg
    have hv := (C115_bits_values u8 _ arg harg hn).2
    simp only [hn, false_or] at hi
    have hspec := C03.C03_accepts_iff (.list x)
    cases hm : checkBinaryArray (.list x) with
    | error e =>
      have he' : e = .ValueError := by
        have := (C03.C03_validation (.list x)).2.1 (fun h => by obtain ⟨b, hb⟩ := hspec.2 h; rw [hm] at hb; cases hb) trivial
        rw [hm] at this; cases this; rfl
      cases hs : checkBinaryArrayS u8 arg with
      | error e2 => rw [he e2 hs, he']; rfl
      | ok b =>
        obtain ⟨h1, h2, h3⟩ := hi.1 ⟨b, hs⟩
        exfalso
        have : C03.Acceptable (.list x) := by
          refine ⟨h1, by simpa using h2, fun v hv => ?_⟩
          obtain ⟨q, hq, hq'⟩ := h3 (.fin v) (List.mem_map_of_mem hv)
          cases hq; exact hq'
        obtain ⟨b, hb⟩ := hspec.2 this
        rw [hm] at hb; cases hb
    | ok b =>
      obtain ⟨h1, h2, h3⟩ := hspec.1 ⟨b, hm⟩
      have hs : ∃ b', checkBinaryArrayS u8 arg = .ok b' := hi.2 ⟨h1, by simpa using h2, fun e he => by
        obtain ⟨v, hv, rfl⟩ := List.mem_map.1 he
        exact ⟨v, rfl, h3 v hv⟩⟩
      obtain ⟨b', hb'⟩ := hs
      rw [hb']
      obtain ⟨hl, hk⟩ := hv b' hb'
      simp only [Except.map]
      congr 1
      unfold checkBinaryArray at hm
      simp only at hm
      split at hm
      · cases hm
      split at hm
      · cases hm
      have hbe := Except.ok.inj hm
      refine List.ext_getElem? fun k => ?_
      by_cases hlt : k < x.vals.length
      · rw [hk k (x.vals[k]) (by simp [hlt]), ← hbe]
        simp only [List.getElem?_map, hlt, List.getElem?_eq_getElem, Option.map_some]
        obtain ⟨q0, q1⟩ := h3 x.vals[k] (List.getElem_mem hlt)
        by_cases hq : x.vals[k] = 1
        · rw [hq, if_pos rfl]; rfl
        · have : truncRat x.vals[k] ≠ 1 := by
            intro ht
            have hlt1 : x.vals[k] < 1 := lt_of_le_of_ne q1 hq
            unfold truncRat at ht
            rw [if_pos q0] at ht
            have := Rat.le_floor_iff.1 ht.ge
            push_cast at this
            linarith
          simp [hq, this]
      · rw [List.getElem?_eq_none (by rw [hl]; simpa using hlt), ← hbe, List.getElem?_eq_none (by simpa using hlt)]
  cases a with
  | list x => exact key x _ (.inl rfl)
  | ndarray x => exact key x _ (.inr rfl)
  | bytes l => rfl
  | str => rfl
  | other => rfl

/-! ### octets -/

/-- The entry is a finite number that fits in an int64 after truncation. -/
def Fits (e : Entry) : Prop := ∃ q : Rat, e = .fin q ∧ -2 ^ 63 - 1 < q ∧ q < 2 ^ 63

theorem fits_iff (q : Rat) : fitsInt64 q = true ↔ -2 ^ 63 - 1 < q ∧ q < 2 ^ 63 := by
  have h := C02.huge_iff ⟨1, [q]⟩
  simp only [C02.Huge, List.any_cons, List.any_nil, Bool.or_false, List.mem_singleton, exists_eq_left, Bool.or_eq_true, decide_eq_true_eq] at h
  simp only [fitsInt64, Bool.and_eq_true, decide_eq_true_eq]
  have h' := not_congr h
  rw [not_or, not_or, not_lt, not_le, not_le, not_le] at h'
  exact h'

theorem pyToInt64_fits (e : Entry) (h : Fits e) : ∃ q : Rat, e = .fin q ∧ pyToInt64 e = .ok (truncRat q) := by
  obtain ⟨q, rfl, h⟩ := h
  exact ⟨q, rfl, if_pos ((fits_iff q).2 h)⟩

theorem mapM_append_error (pre post : List Entry) (e : Entry) (err : PyErr) (hp : ∀ x ∈ pre, Fits x) (he : pyToInt64 e = .error err) :
    (pre ++ e :: post).mapM pyToInt64 = .error err := by
  induction pre with
  | nil => simp only [List.nil_append, List.mapM_cons, he]; rfl
  | cons x pre ih =>
    obtain ⟨q, -, hq⟩ := pyToInt64_fits x (hp x (by simp))
    simp only [List.cons_append, List.mapM_cons, hq, ih (fun y hy => hp y (List.mem_cons_of_mem _ hy))]
    rfl

/-- **C115 (octets in a list).**  In a list (of any shape) the first entry that is not a number of 64 bits decides: `ValueError` if it is a NaN, `OverflowError` if it is an
infinity or a number that does not fit in 64 bits. -/
theorem C115_octets_list (i64 : Entry → Int) (d : Nat) (pre post : List Entry) (e : Entry) (hp : ∀ x ∈ pre, Fits x) (he : ¬ Fits e) :
    toBinaryArrayS i64 (.list ⟨d, pre ++ e :: post⟩) = .error (if e = .nan then .ValueError else .OverflowError) := by
  have hc : pyToInt64 e = .error (if e = .nan then .ValueError else .OverflowError) := by
    cases e with
    | nan => rfl
    | inf n => rfl
    | fin q =>
      have : ¬ fitsInt64 q = true := fun h => he ⟨q, rfl, (fits_iff q).1 h⟩
      simp [pyToInt64, this]
  unfold toBinaryArrayS toIntArrayS
  simp only
  rw [mapM_append_error pre post e _ hp hc]
  rfl

theorem first_bad (l : List Entry) (h : ∃ e ∈ l, ¬ Fits e) : ∃ pre e post, l = pre ++ e :: post ∧ (∀ x ∈ pre, Fits x) ∧ ¬ Fits e := by
  induction l with
  | nil => obtain ⟨e, he, -⟩ := h; cases he
  | cons x l ih =>
    by_cases hx : Fits x
    · obtain ⟨e, he, hne⟩ := h
      rcases List.mem_cons.1 he with rfl | he
      · exact absurd hx hne
      · obtain ⟨pre, e, post, rfl, h1, h2⟩ := ih ⟨e, he, hne⟩
        refine ⟨x :: pre, e, post, rfl, fun y hy => ?_, h2⟩
        rcases List.mem_cons.1 hy with rfl | hy
        · exact hx
        · exact h1 y hy
    · exact ⟨[], x, l, rfl, by simp, hx⟩

theorem special_not_fits (e : Entry) (h : Special e) : ¬ Fits e := by
  rintro ⟨q, rfl, -⟩
  rcases h with h | ⟨n, h⟩ <;> cases h

/-- **C115 (octets in an array).**  An array is accepted exactly if it is one-dimensional, not empty and the machine converts all its entries to 0…255. -/
theorem C115_octets_array (i64 : Entry → Int) (a : NdArrS) :
    ((∃ b, toBinaryArrayS i64 (.ndarray a) = .ok b) ↔
      a.ndim = 1 ∧ a.vals ≠ [] ∧ ∀ e ∈ a.vals, (∃ q, e = .fin q ∧ -1 < q ∧ q < 256) ∨ (¬ Fits e ∧ 0 ≤ i64 e ∧ i64 e ≤ 255)) := by
  have hent : ∀ e : Entry, (0 ≤ castInt64 i64 e ∧ castInt64 i64 e ≤ 255) ↔ (∃ q, e = .fin q ∧ -1 < q ∧ q < 256) ∨ (¬ Fits e ∧ 0 ≤ i64 e ∧ i64 e ≤ 255) := by
    intro e
    cases e with
    | nan => simp [castInt64, Fits]
    | inf n => simp [castInt64, Fits]
    | fin q =>
      have hF : Fits (.fin q) ↔ fitsInt64 q = true := by
        rw [fits_iff]
        exact ⟨fun ⟨q', h, hq⟩ => by cases h; exact hq, fun h => ⟨q, rfl, h⟩⟩
      have ht : (0 ≤ truncRat q ∧ truncRat q ≤ 255) ↔ -1 < q ∧ q < 256 := by
        have h1 := truncRat_lt (q := q) (n := 256) (by decide)
        push_cast at h1
        rw [← truncRat_nonneg, ← h1]
        omega
      by_cases hf : fitsInt64 q = true
      · simp only [castInt64, hf, if_true, ht, hF, not_true_eq_false, false_and, or_false]
        exact ⟨fun h => ⟨q, rfl, h⟩, fun ⟨q', h, hq⟩ => by cases h; exact hq⟩
      · simp only [castInt64, hf, if_false, hF, not_false_eq_true, true_and, Bool.false_eq_true]
        constructor
        · exact fun h => .inr h
        · rintro (⟨q', h, hq⟩ | h)
          · cases h
            exfalso
            apply hf
            rw [fits_iff]
            constructor <;> norm_num <;> linarith [hq.1, hq.2]
          · exact h
  unfold toBinaryArrayS toIntArrayS
  simp only [bind, Except.bind]
  by_cases h0 : a.vals = []
  · simp [h0]
  rw [if_neg (by simpa using h0)]
  have hany : ((a.vals.map (castInt64 i64)).any (· < 0) || (a.vals.map (castInt64 i64)).any (255 < ·)) = true ↔
      ¬ ∀ e ∈ a.vals, (∃ q, e = .fin q ∧ -1 < q ∧ q < 256) ∨ (¬ Fits e ∧ 0 ≤ i64 e ∧ i64 e ≤ 255) := by
    simp only [← hent, List.any_map, Bool.or_eq_true, List.any_eq_true, Function.comp, decide_eq_true_eq, not_forall]
    constructor
    · rintro (⟨e, he, h⟩ | ⟨e, he, h⟩)
      · exact ⟨e, he, by omega⟩
      · exact ⟨e, he, by omega⟩
    · rintro ⟨e, he, h⟩
      by_cases h1 : castInt64 i64 e < 0
      · exact .inl ⟨e, he, h1⟩
      · exact .inr ⟨e, he, by omega⟩
  by_cases hb : ∀ e ∈ a.vals, (∃ q, e = .fin q ∧ -1 < q ∧ q < 256) ∨ (¬ Fits e ∧ 0 ≤ i64 e ∧ i64 e ≤ 255)
  · rw [if_neg (fun h => hany.1 h hb)]
    by_cases hd : a.ndim = 1
    · rw [if_neg (by simpa using hd)]
      exact ⟨fun _ => ⟨hd, h0, hb⟩, fun _ => ⟨_, rfl⟩⟩
    · rw [if_pos hd]
      exact ⟨fun ⟨b, h⟩ => (by cases h), fun h => absurd h.1 hd⟩
  · rw [if_pos (hany.2 hb)]
    exact ⟨fun ⟨b, h⟩ => (by cases h), fun h => absurd h.2.2 hb⟩

theorem ndarray_errors (i64 : Entry → Int) (a : NdArrS) (e : PyErr) (h : toBinaryArrayS i64 (.ndarray a) = .error e) :
    (∃ x ∈ a.vals, castInt64 i64 x < 0) → e = .ValueError := by
  rintro ⟨x, hx, hneg⟩
  unfold toBinaryArrayS toIntArrayS at h
  simp only [bind, Except.bind] at h
  split at h
  · cases h; rfl
  rw [if_pos (by
    rw [Bool.or_eq_true]
    exact .inl (List.any_eq_true.2 ⟨_, List.mem_map_of_mem hx, by simpa using hneg⟩))] at h
  cases h; rfl

/-- **C115 (octets, x86).**  On an x86 machine every message with a NaN or an infinity is refused as octets, with `ValueError` or (lists only) `OverflowError`. -/
theorem C115_octets_x86 (i64 : Entry → Int) (hm : X86 i64) (a : NdArrS) (h : ∃ e ∈ a.vals, Special e) :
    (toBinaryArrayS i64 (.list a) = .error .ValueError ∨ toBinaryArrayS i64 (.list a) = .error .OverflowError) ∧
    toBinaryArrayS i64 (.ndarray a) = .error .ValueError := by
  obtain ⟨e, he, hs⟩ := h
  constructor
  · obtain ⟨pre, x, post, hl, h1, h2⟩ := first_bad a.vals ⟨e, he, special_not_fits e hs⟩
    have := C115_octets_list i64 a.ndim pre post x h1 h2
    rw [show a = ⟨a.ndim, pre ++ x :: post⟩ by rw [← hl], this]
    split
    · exact .inl rfl
    · exact .inr rfl
  · have hneg : castInt64 i64 e < 0 := by
      rcases hs with rfl | ⟨n, rfl⟩ <;> simp [castInt64, hm _]
    cases hc : toBinaryArrayS i64 (.ndarray a) with
    | error err => rw [ndarray_errors i64 a err hc ⟨e, he, hneg⟩]
    | ok b =>
      obtain ⟨-, -, hall⟩ := (C115_octets_array i64 a).1 ⟨b, hc⟩
      rcases hall e he with ⟨q, hq, -⟩ | ⟨-, h0, -⟩
      · rcases hs with h | ⟨n, h⟩ <;> rw [h] at hq <;> cases hq
      · rw [hm e] at h0; norm_num at h0

/-- **C115 (octets, ARM).**  On an ARM machine infinities are refused, but a NaN in an array counts as the octet 0: the array is accepted exactly if the array with 0 in
place of every NaN is. -/
theorem C115_octets_arm (i64 : Entry → Int) (hm : Arm i64) (a : NdArrS) :
    toBinaryArrayS i64 (.ndarray a) = toBinaryArrayS i64 (.ndarray ⟨a.ndim, a.vals.map fun e => if e = .nan then .fin 0 else e⟩) ∧
    ((∃ n, Entry.inf n ∈ a.vals) → toBinaryArrayS i64 (.ndarray a) = .error .ValueError) := by
  constructor
  · have : a.vals.map (castInt64 i64) = (a.vals.map fun e => if e = .nan then Entry.fin 0 else e).map (castInt64 i64) := by
      rw [List.map_map]
      refine List.map_congr_left fun e _ => ?_
      simp only [Function.comp]
      split
      · rename_i h
        subst h
        simp only [castInt64, hm.1]
        rw [if_pos (by decide +kernel)]
        decide +kernel
      · rfl
    unfold toBinaryArrayS toIntArrayS
    simp only [this]
  · rintro ⟨n, h⟩
    have hout : castInt64 i64 (.inf n) < 0 ∨ 255 < castInt64 i64 (.inf n) := by
      cases n
      · right; simp [castInt64, hm.2.2.1]
      · left; simp [castInt64, hm.2.1]
    unfold toBinaryArrayS toIntArrayS
    simp only [bind, Except.bind]
    split
    · rfl
    · rw [if_pos]
      rw [Bool.or_eq_true, List.any_eq_true, List.any_eq_true]
      rcases hout with h' | h'
      · exact .inl ⟨_, List.mem_map_of_mem h, by simpa using h'⟩
      · exact .inr ⟨_, List.mem_map_of_mem h, by simpa using h'⟩

theorem range_error (d : Nat) (vals : List Int) (h : ∃ v ∈ vals, v < 0 ∨ 255 < v) :
    (if vals = [] then .error .ValueError
      else if (vals.any (· < 0) || vals.any (255 < ·)) = true then .error .ValueError
      else if d ≠ 1 then .error .TypeError
      else .ok (vals.flatMap fun v => byteBits v.toNat) : Res Bits) = .error .ValueError := by
  split
  · rfl
  · obtain ⟨v, hv, h⟩ := h
    rw [if_pos]
    rw [Bool.or_eq_true, List.any_eq_true, List.any_eq_true]
    rcases h with h' | h'
    · exact .inl ⟨v, hv, by simpa using h'⟩
    · exact .inr ⟨v, hv, by simpa using h'⟩

/-- **C115 (octets, finite).**  For messages without special values this is the function of `Model/Bits.lean` on every machine that does not turn an out-of-range number
into an octet (x86 and ARM do not). -/
theorem C115_octets_finite (i64 : Entry → Int) (hm : ∀ q, fitsInt64 q = false → i64 (.fin q) < 0 ∨ 255 < i64 (.fin q)) (a : Arg) :
    toBinaryArrayS i64 (ofArg a) = toBinaryArray a := by
  cases a with
  | list x =>
    by_cases hh : C02.Huge (.list x)
    · rw [C02.huge_result _ hh]
      obtain ⟨v, hv, h⟩ := hh
      obtain ⟨pre, e, post, hl, h1, h2⟩ := first_bad (x.vals.map .fin) ⟨.fin v, List.mem_map_of_mem hv, by
        rintro ⟨q, hq, hq'⟩
        cases hq
        rcases h with h | h
        · exact absurd hq'.1 (not_lt.2 h)
        · exact absurd hq'.2 (not_lt.2 h)⟩
      have := C115_octets_list i64 x.ndim pre post e h1 h2
      show toBinaryArrayS i64 (.list ⟨x.ndim, x.vals.map .fin⟩) = _
      rw [hl, this, if_neg]
      intro he
      have : Entry.nan ∈ x.vals.map Entry.fin := by rw [hl, ← he]; simp
      simp at this
    · unfold toBinaryArray
      rw [C02.toIntArray_list x hh]
      have hmap : ∀ l : List Rat, (∀ v ∈ l, v ∈ x.vals) → (l.map Entry.fin).mapM pyToInt64 = .ok (l.map truncRat) := by
        intro l
        induction l with
        | nil => intro _; rfl
        | cons v l ih =>
          intro hl
          have hv : fitsInt64 v = true := by
            rw [fits_iff]
            by_contra hc
            apply hh
            refine ⟨v, hl v (by simp), ?_⟩
            rw [not_and_or, not_lt, not_lt] at hc
            exact hc
          simp only [List.map_cons, List.mapM_cons, ih (fun w hw => hl w (List.mem_cons_of_mem _ hw)), pyToInt64, hv, if_true]
          rfl
      unfold toBinaryArrayS ofArg toIntArrayS
      simp only [hmap x.vals (fun _ h => h)]
      rfl
  | ndarray x =>
    have hent : ∀ q : Rat, castInt64 i64 (.fin q) = truncRat q ∨ ((castInt64 i64 (.fin q) < 0 ∨ 255 < castInt64 i64 (.fin q)) ∧ (truncRat q < 0 ∨ 255 < truncRat q)) := by
      intro q
      by_cases hf : fitsInt64 q = true
      · left; simp [castInt64, hf]
      · right
        have hf' : fitsInt64 q = false := by simpa using hf
        refine ⟨by simpa [castInt64, hf'] using hm q hf', ?_⟩
        simp only [fitsInt64, Bool.and_eq_false_iff, decide_eq_false_iff_not] at hf'
        omega
    unfold toBinaryArrayS toBinaryArray ofArg toIntArrayS toIntArray
    simp only [bind, Except.bind, List.map_map]
    by_cases hg : ∀ v ∈ x.vals, castInt64 i64 (.fin v) = truncRat v
    · have : x.vals.map (castInt64 i64 ∘ Entry.fin) = x.vals.map truncRat := List.map_congr_left fun v hv => hg v hv
      rw [this]
    · simp only [not_forall] at hg
      obtain ⟨v, hv, hne⟩ := hg
      obtain ⟨h1, h2⟩ := (hent v).resolve_left hne
      rw [range_error _ _ ⟨_, List.mem_map_of_mem hv, h1⟩, range_error _ _ ⟨_, List.mem_map_of_mem hv, h2⟩]
  | bytes l => rfl
  | str => rfl
  | other => rfl

/-- **C115 (modulators).**  On an x86 machine, `bytesToIQ` of the three modulators refuses every list and array with a NaN or an infinity, with `ValueError` or
`OverflowError`, and leaves the object as it was. -/
theorem C115_bytesToIQ (i64 : Entry → Int) (hm : X86 i64) (a : NdArrS) (arg : ArgS) (harg : arg = .list a ∨ arg = .ndarray a) (h : ∃ e ∈ a.vals, Special e) :
    ∃ e, (e = .ValueError ∨ e = .OverflowError) ∧ (∀ o, (ofdmModBytesToIQS i64 arg).call o = (.error e, o)) ∧
      (∀ rn o, (fskBytesToIQS i64 rn arg).call o = (.error e, o)) ∧ (∀ o, (oqpskBytesToIQS i64 arg).call o = (.error e, o)) := by
  have hx := C115_octets_x86 i64 hm a h
  have : ∃ e, (e = PyErr.ValueError ∨ e = .OverflowError) ∧ toBinaryArrayS i64 arg = .error e := by
    rcases harg with rfl | rfl
    · rcases hx.1 with h | h
      · exact ⟨_, .inl rfl, h⟩
      · exact ⟨_, .inr rfl, h⟩
    · exact ⟨_, .inl rfl, hx.2⟩
  obtain ⟨e, he, ht⟩ := this
  refine ⟨e, he, fun o => ?_, fun rn o => ?_, fun o => ?_⟩
  · unfold ofdmModBytesToIQS; rw [ht]; simp only [PyM.call_bind, PyM.call_lift, PyM.seqR_error]
  · unfold fskBytesToIQS; rw [ht]; simp only [PyM.call_bind, PyM.call_lift, PyM.seqR_error]
  · unfold oqpskBytesToIQS; rw [ht]; simp only [PyM.call_bind, PyM.call_lift, PyM.seqR_error]

/-! ### parameters of the MR-FSK modulator -/

/-- **C115 (symbolRate).**  `symbolRate=nan` raises `ValueError`, `symbolRate=±inf` raises `OverflowError`, whatever the other arguments are. -/
theorem C115_fsk_rate (h : PyValS) (sfd mo fec sch fcs scr il pre : PyVal) :
    mrFskInitS .nan h sfd mo fec sch fcs scr il pre = .error .ValueError ∧ ∀ n, mrFskInitS (.inf n) h sfd mo fec sch fcs scr il pre = .error .OverflowError :=
  ⟨rfl, fun _ => rfl⟩

/-- **C115 (FSKModulationIndex).**  With a NaN or infinite modulation index no object is constructed: `ValueError` if the symbol rate is acceptable (otherwise the exception
of the symbol rate). -/
theorem C115_fsk_index (r : PyVal) (sfd mo fec sch fcs scr il pre : PyVal) (h : PyValS) (hs : h = .nan ∨ ∃ n, h = .inf n) :
    mrFskInitS (.val r) h sfd mo fec sch fcs scr il pre = (match fskCheckRate r with | .ok _ => .error .ValueError | .error e => .error e) := by
  unfold mrFskInitS
  have : fskCheckIndexS h = .error .ValueError := by rcases hs with rfl | ⟨n, rfl⟩ <;> rfl
  rw [this]
  cases hr : fskCheckRate r <;> simp [fskCheckRateS, hr, bind, Except.bind]

/-- **C115 (finite parameters).**  Otherwise this is the constructor of `Model/MrFsk.lean`. -/
theorem C115_fsk_finite (r h sfd mo fec sch fcs scr il pre : PyVal) :
    mrFskInitS (.val r) (.val h) sfd mo fec sch fcs scr il pre = mrFskInit r h sfd mo fec sch fcs scr il pre := rfl

/-! Non-vacuity. -/

/-- `[nan, 7]` is accepted as bits and hands the value 7 to the modulators; `[inf, 0]` is refused; `[nan]` is refused as an octet list. -/
example : (∃ b, checkBinaryArrayS (fun _ => 0) (.list ⟨1, [.nan, .fin 7]⟩) = .ok b ∧ b[1]? = some 7) ∧
    checkBinaryArrayS (fun _ => 0) (.list ⟨1, [.inf false, .fin 0]⟩) = .error .ValueError ∧
    toBinaryArrayS (fun _ => -2 ^ 63) (.list ⟨1, [.fin 3, .nan, .inf true]⟩) = .error .ValueError ∧
    toBinaryArrayS (fun _ => -2 ^ 63) (.list ⟨1, [.fin 3, .inf true, .nan]⟩) = .error .OverflowError := by
  refine ⟨?_, ?_, ?_, ?_⟩
  · obtain ⟨b, hb, -, hk⟩ := C115_bits_nan (fun _ => 0) ⟨1, [.nan, .fin 7]⟩ _ (.inl rfl) rfl (by simp)
    exact ⟨b, hb, hk 1 7 (by decide) rfl⟩
  · exact (C115_bits_values (fun _ => 0) ⟨1, [.inf false, .fin 0]⟩ _ (.inl rfl) (by simp)).1 ⟨false, by simp⟩
  · exact C115_octets_list _ 1 [.fin 3] [.inf true] .nan (by simp only [List.mem_singleton, forall_eq]; exact ⟨3, rfl, by norm_num, by norm_num⟩) (special_not_fits _ (.inl rfl))
  · exact C115_octets_list _ 1 [.fin 3] [.nan] (.inf true) (by simp only [List.mem_singleton, forall_eq]; exact ⟨3, rfl, by norm_num, by norm_num⟩) (special_not_fits _ (.inr ⟨_, rfl⟩))

/-- Machines of both kinds exist, and both meet the hypothesis of `C115_octets_finite`. -/
example : X86 (fun _ => -2 ^ 63) ∧ Arm (fun e => match e with | .nan => 0 | .inf n => if n then -2 ^ 63 else 2 ^ 63 - 1 | .fin q => if q < 0 then -2 ^ 63 else 2 ^ 63 - 1) :=
  ⟨fun _ => rfl, rfl, rfl, rfl, fun _ => rfl⟩

theorem machines_ok (i64 : Entry → Int) (h : X86 i64 ∨ Arm i64) : ∀ q, fitsInt64 q = false → i64 (.fin q) < 0 ∨ 255 < i64 (.fin q) := by
  intro q _
  rcases h with h | h
  · left; rw [h]; norm_num
  · rw [h.2.2.2 q]
    split
    · left; norm_num
    · right; norm_num

/-- **C115 (modulators, finite).**  On x86 and ARM, `bytesToIQ` with a message without special values is the method of the model without special values: same value or exception, same object afterwards. -/
theorem C115_bytesToIQ_finite (i64 : Entry → Int) (h : X86 i64 ∨ Arm i64) (a : Arg) :
    (∀ o, (ofdmModBytesToIQS i64 (ofArg a)).call o = (ofdmModBytesToIQ a).call o) ∧ (∀ rn o, (fskBytesToIQS i64 rn (ofArg a)).call o = (fskBytesToIQ rn a).call o) ∧
    (∀ o, (oqpskBytesToIQS i64 (ofArg a)).call o = (oqpskBytesToIQ a).call o) := by
  have e := C115_octets_finite i64 (machines_ok i64 h) a
  refine ⟨fun o => ?_, fun rn o => ?_, fun o => ?_⟩
  · unfold ofdmModBytesToIQS ofdmModBytesToIQ; rw [e]
  · unfold fskBytesToIQS fskBytesToIQ; rw [e]
  · unfold oqpskBytesToIQS oqpskBytesToIQ; rw [e]

/-- **C115 (modulators, ARM).**  On ARM, `bytesToIQ` with an array whose special values are NaNs is `bytesToIQ` with 0 in their place. -/
theorem C115_bytesToIQ_arm (i64 : Entry → Int) (h : Arm i64) (a : NdArrS) (x : NdArr) (hd : x.ndim = a.ndim)
    (hv : (a.vals.map fun e => if e = .nan then .fin 0 else e) = x.vals.map .fin) :
    (∀ o, (ofdmModBytesToIQS i64 (.ndarray a)).call o = (ofdmModBytesToIQ (.ndarray x)).call o) ∧
    (∀ rn o, (fskBytesToIQS i64 rn (.ndarray a)).call o = (fskBytesToIQ rn (.ndarray x)).call o) ∧
    (∀ o, (oqpskBytesToIQS i64 (.ndarray a)).call o = (oqpskBytesToIQ (.ndarray x)).call o) := by
  have e : toBinaryArrayS i64 (.ndarray a) = toBinaryArray (.ndarray x) := by
    rw [(C115_octets_arm i64 h a).1, hv, ← hd]
    exact C115_octets_finite i64 (machines_ok i64 (.inr h)) (.ndarray x)
  refine ⟨fun o => ?_, fun rn o => ?_, fun o => ?_⟩
  · unfold ofdmModBytesToIQS ofdmModBytesToIQ; rw [e]
  · unfold fskBytesToIQS fskBytesToIQ; rw [e]
  · unfold oqpskBytesToIQS oqpskBytesToIQ; rw [e]

/-- `np.array([nan, 7])` counts as `np.array([0, 7])`. -/
example : (([Entry.nan, .fin 7] : List Entry).map fun e => if e = .nan then .fin 0 else e) = ([0, 7] : List Rat).map .fin := by simp

end SunPhy.C115
