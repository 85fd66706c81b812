import Verif.Model.NanOqpsk
import Verif.Spec.NanOqpsk
import Verif.Proofs.NanFsk
import Verif.Proofs.RefOqpsk
/-
MR-O-QPSK on octets.
-/
namespace SunPhy
open Spec C144

/-- What a value counts as where only its being positive matters. -/
abbrev pos (v : Nat) : Bool := decide (0 < v)

theorem pos_b2n (b : Bool) : pos (b2n b) = b := by cases b <;> rfl

theorem map_pos_b2n (x : Bits) : (x.map b2n).map pos = x := by
  rw [List.map_map]
  conv_rhs => rw [← List.map_id x]
  exact List.map_congr_left fun b _ => pos_b2n b

/-! ### MDSSS -/

theorem everyNth_map {α β : Type} (g : α → β) (k : Nat) (l : List α) : ∀ c, everyNth k c (l.map g) = (everyNth k c l).map g := by
  induction l with
  | nil => intro c; cases c <;> rfl
  | cons x l ih =>
    intro c
    cases c with
    | zero => simp only [List.map_cons, everyNth, ih]
    | succ c => simp only [List.map_cons, everyNth, ih]

theorem insertPV_map (m : List Nat) : insertP (m.map pos) = (insertPV m).map pos := by
  unfold insertP insertPV
  rw [chunks_map, List.map_append, List.length_map, List.map_drop, List.map_flatMap, List.flatMap_map]
  congr 1
  apply List.flatMap_congr
  intro x _
  rw [List.map_append]
  rfl

theorem mapM_map_res {α β γ : Type} (g : α → β) (f : β → Res γ) (l : List α) : (l.map g).mapM f = l.mapM fun x => f (g x) := by
  induction l with
  | nil => rfl
  | cons x l ih => rw [List.map_cons, List.mapM_cons, List.mapM_cons, ih]

theorem hadamardRowV_eq (N : Nat) (bs : List Nat) : hadamardEncodeRowV N bs = hadamardEncodeRow N (bs.map pos) := by
  unfold hadamardEncodeRowV hadamardEncodeRow reshapeRows
  rw [List.length_map, chunks_map]
  by_cases h : 3 = 0 ∨ bs.length % 3 ≠ 0
  · rw [if_pos h, if_pos h]; rfl
  · rw [if_neg h, if_neg h]
    show (if chunks 3 bs = [] then _ else _) = (if (chunks 3 bs).map _ = [] then _ else _)
    simp only [List.map_eq_nil_iff, mapM_map_res]

theorem tpcV_eq (m : List Nat) (N : Nat) : tpcV m N = tpc (m.map pos) N := by
  unfold tpcV tpc hadamardEncoder
  have e : m.map pos ++ List.replicate ((m.map pos).length % 8) false = (m ++ List.replicate (m.length % 8) 0).map pos := by
    rw [List.map_append, List.length_map, List.map_replicate]
    rfl
  have e2 : ∀ a b c : List Nat, [a, b, c].mapM (hadamardEncodeRowV N) = [a.map pos, b.map pos, c.map pos].mapM (hadamardEncodeRow N) := by
    intro a b c
    simp only [List.mapM_cons, hadamardRowV_eq, List.mapM_nil]
  simp only
  rw [e, e2, insertPV_map, List.length_map, everyNth_map, everyNth_map, everyNth_map]
  rfl

theorem mdsssV_eq (m : List Nat) (f : Nat) : mdsssV m f = mdsss (m.map pos) f := by
  unfold mdsssV mdsss
  simp only [tpcV_eq]

/-! ### DSSS -/

theorem digits_bit (b : Bool) : decimalDigits (b2n b) = [b2n b] := by cases b <;> rfl

theorem digits_bits (x : Bits) : (x.map b2n).flatMap decimalDigits = x.map b2n := by
  induction x with
  | nil => rfl
  | cons b x ih => rw [List.map_cons, List.flatMap_cons, ih, digits_bit]; rfl

theorem lookupV_bits (c : Code) (x : Bits) : c.lookupV (x.map b2n) = c.lookup x := by
  unfold Code.lookupV
  simp only [digits_bits]
  rw [if_pos]
  · congr 1
    rw [List.map_map]
    conv_rhs => rw [← List.map_id x]
    exact List.map_congr_left fun b _ => by cases b <;> rfl
  · simp only [List.all_map, List.all_eq_true, Function.comp]
    intro b _
    cases b <;> rfl

theorem dsssRowsV_bits (codes : List Code) (rows : List Bits) : ∀ i, dsssRowsV codes i (rows.map (·.map b2n)) = dsssRows codes i rows := by
  induction rows with
  | nil => intro i; rfl
  | cons r rows ih =>
    intro i
    rw [List.map_cons, dsssRowsV, dsssRows, ih]
    simp only [lookupV_bits]
    rfl

theorem dsssV_bits (codes : List Code) (x : Bits) : dsssV (x.map b2n) codes = dsss x codes := by
  unfold dsssV dsss reshapeRows
  cases codes with
  | nil => rfl
  | cons c codes =>
    simp only [List.length_map, chunks_map]
    split
    · rfl
    · exact dsssRowsV_bits _ _ 0

theorem decimalDigits_length (n : Nat) : 1 ≤ (decimalDigits n).length := by
  unfold decimalDigits
  split <;> [skip; split] <;> simp

theorem digits_length (l : List Nat) : l.length ≤ (l.flatMap decimalDigits).length := by
  induction l with
  | nil => simp
  | cons x l ih =>
    rw [List.flatMap_cons, List.length_append, List.length_cons]
    have := decimalDigits_length x
    omega

/-- A row with a value that is no bit has no key. -/
theorem lookupV_fails (c : Code) (row : List Nat) (hl : row.length = c.keyLen) (x : Nat) (hx : x ∈ row) (h2 : 2 ≤ x) : c.lookupV row = .error .KeyError := by
  unfold Code.lookupV
  simp only
  split
  · rename_i hall
    -- ten and more have two digits at least, smaller ones a digit that is no bit
    have hlen : row.length < (row.flatMap decimalDigits).length := by
      obtain ⟨s, t, rfl⟩ := List.append_of_mem hx
      have h10 : 2 ≤ (decimalDigits x).length := by
        by_contra hc
        have : x < 10 := by
          by_contra h
          apply hc
          unfold decimalDigits
          rw [if_neg h]
          split <;> simp
        have hm : x ∈ (s ++ x :: t).flatMap decimalDigits := by
          rw [List.mem_flatMap]
          exact ⟨x, by simp, by unfold decimalDigits; rw [if_pos this]; simp⟩
        have := List.all_eq_true.1 hall x hm
        simp only [decide_eq_true_eq] at this
        omega
      rw [List.flatMap_append, List.flatMap_cons]
      have a := digits_length s
      have b := digits_length t
      simp only [List.length_append, List.length_cons]
      omega
    unfold Code.lookup
    have : c.table.find? (fun e => e.1 == (row.flatMap decimalDigits).map (· == 1)) = none := by
      rw [List.find?_eq_none]
      intro e he
      have key : ∀ c : Code, ∀ e ∈ c.table, e.1.length = c.keyLen := by intro c; cases c <;> decide +kernel
      have := key c e he
      intro hc
      rw [beq_iff_eq] at hc
      rw [hc, List.length_map] at this
      omega
    rw [this]
  · rfl

theorem map_bits (l : List Nat) (h : ∀ x ∈ l, x < 2) : (l.map pos).map b2n = l := by
  rw [List.map_map]
  conv_rhs => rw [← List.map_id l]
  refine List.map_congr_left fun x hx => ?_
  have := h x hx
  interval_cases x <;> rfl

theorem dsssRowsV_fails {codes : List Code} {n N : Nat} (hu : Uniform codes n N) (rows : List (List Nat)) : ∀ i, (∀ r ∈ rows, r.length = n) → (∃ r ∈ rows, ∃ x ∈ r, 2 ≤ x) →
    dsssRowsV codes i rows = .error .KeyError := by
  induction rows with
  | nil => intro i _ ⟨r, hr, _⟩; cases hr
  | cons r rows ih =>
    intro i hl hx
    obtain ⟨c, hc, hm⟩ := uniform_get hu i
    rw [dsssRowsV, hc]
    simp only
    by_cases hr : ∃ x ∈ r, 2 ≤ x
    · obtain ⟨x, hx, h2⟩ := hr
      rw [lookupV_fails c r (by rw [hl r (by simp), hu.key c hm]) x hx h2]
      rfl
    · have hb : ∀ x ∈ r, x < 2 := by
        intro x hx
        by_contra h
        exact hr ⟨x, hx, by omega⟩
      rw [← map_bits r hb, lookupV_bits, (lookup_ok c (r.map pos) (by rw [List.length_map, hl r (by simp), hu.key c hm])).1]
      have : ∃ r ∈ rows, ∃ x ∈ r, 2 ≤ x := by
        obtain ⟨r', hr', h⟩ := hx
        rcases List.mem_cons.1 hr' with rfl | h'
        · exact absurd h hr
        · exact ⟨r', h', h⟩
      rw [ih (i + 1) (fun y hy => hl y (by simp [hy])) this]
      rfl

theorem mem_chunks {α : Type} {n : Nat} (hn : 0 < n) (l : List α) (h : l.length % n = 0) (x : α) (hx : x ∈ l) : ∃ r ∈ chunks n l, x ∈ r := by
  obtain ⟨i, hi, rfl⟩ := List.getElem_of_mem hx
  have hd := Nat.div_add_mod i n
  have hm := Nat.mod_lt i hn
  have hdm := Nat.div_add_mod l.length n
  have hlt : i / n < l.length / n := by
    rw [Nat.div_lt_iff_lt_mul hn, Nat.mul_comm]
    omega
  refine ⟨(l.drop (i / n * n)).take n, ?_, ?_⟩
  · unfold chunks
    exact List.mem_map.2 ⟨i / n, List.mem_range.2 hlt, rfl⟩
  · apply List.mem_of_getElem? (i := i % n)
    rw [List.getElem?_take, if_pos hm, List.getElem?_drop, List.getElem?_eq_some_iff]
    refine ⟨by rw [Nat.mul_comm]; omega, ?_⟩
    congr 1
    rw [Nat.mul_comm]; omega

/-- A value that is no bit has no chips. -/
theorem dsssV_fails {codes : List Code} {n N : Nat} (hu : Uniform codes n N) (x : List Nat) (hl : x.length % n = 0) (h : ∃ y ∈ x, 2 ≤ y) :
    dsssV x codes = .error .KeyError := by
  have hn := (uniform_pos hu).1
  match codes, hu with
  | c :: cs, hu =>
    have hc : c.keyLen = n := hu.key c (by simp)
    unfold dsssV reshapeRows
    simp only [hc]
    rw [if_neg (by omega)]
    obtain ⟨y, hy, h2⟩ := h
    obtain ⟨r, hr, hyr⟩ := mem_chunks hn x hl y hy
    exact dsssRowsV_fails hu _ 0 (fun r hr => mem_chunks_length hr) ⟨r, hr, y, hyr, h2⟩

theorem dsssV_size {codes : List Code} {n N : Nat} (hu : Uniform codes n N) (x : List Nat) (hl : x.length % n ≠ 0) : dsssV x codes = .error .ValueError := by
  match codes, hu with
  | c :: cs, hu =>
    have hc : c.keyLen = n := hu.key c (by simp)
    unfold dsssV reshapeRows
    simp only [hc]
    rw [if_pos (.inr hl)]
    rfl

/-! ### Differential encoding -/

theorem bdeV_bits (x : Bits) : ∀ e i, bdeV (b2n e) (x.map b2n) = (bdeFrom 0 i e x).map b2n := by
  induction x with
  | nil => intro e i; rfl
  | cons b x ih =>
    intro e i
    rw [List.map_cons, bdeV, bdeFrom]
    have h : b2n b ^^^ b2n e = b2n (b ^^ e) := by cases b <;> cases e <;> rfl
    simp only [gt_iff_lt, Nat.lt_irrefl, false_and, if_false, List.map_cons, h]
    rw [ih (b ^^ e) (i + 1)]

theorem bdeV_length (x : List Nat) : ∀ e, (bdeV e x).length = x.length := by
  induction x with
  | nil => intro e; rfl
  | cons v x ih => intro e; simp [bdeV, ih]

theorem xor_large {v e : Nat} (hv : 2 ≤ v) (he : e < 2) : 2 ≤ v ^^^ e := by
  by_contra h
  have h1 : v ^^^ e < 2 := by omega
  have h2 : v = (v ^^^ e) ^^^ e := by rw [Nat.xor_assoc, Nat.xor_self, Nat.xor_zero]
  have : (v ^^^ e) ^^^ e < 2 ^ 1 := Nat.xor_lt_two_pow (by simpa using h1) (by simpa using he)
  omega

theorem xor_small {v e : Nat} (hv : v < 2) (he : e < 2) : v ^^^ e < 2 := by
  have := Nat.xor_lt_two_pow (n := 1) (by simpa using hv) (by simpa using he)
  simpa using this

/-- The first value that is no bit stays none. -/
theorem bdeV_large (x : List Nat) : ∀ e, e < 2 → (∃ y ∈ x, 2 ≤ y) → ∃ y ∈ bdeV e x, 2 ≤ y := by
  induction x with
  | nil => intro e _ ⟨y, hy, _⟩; cases hy
  | cons v x ih =>
    intro e he hx
    rw [bdeV]
    by_cases hv : 2 ≤ v
    · exact ⟨_, List.mem_cons_self, xor_large hv he⟩
    · obtain ⟨y, hy, h2⟩ := hx
      rcases List.mem_cons.1 hy with rfl | hy
      · exact absurd h2 hv
      · obtain ⟨z, hz, h⟩ := ih (v ^^^ e) (xor_small (by omega) he) ⟨y, hy, h2⟩
        exact ⟨z, List.mem_cons_of_mem _ hz, h⟩

/-! ### Pilots -/

theorem insertPilotsV_map (p : OqpskParams) (x : List Nat) : (p.insertPilotsV x).map pos = p.insertPilots (x.map pos) := by
  unfold OqpskParams.insertPilotsV OqpskParams.insertPilots
  simp only [List.length_map, List.map_flatMap, List.map_append, map_pos_b2n, List.map_take, List.map_drop]

end SunPhy
