import Verif.Model.Prelude
import Mathlib.Data.List.Forall2
/-
General lemmas about the indexing primitives of the model.
-/
namespace SunPhy

theorem chunks_nil {α} (n : Nat) : chunks n ([] : List α) = [] := by simp [chunks]

theorem chunks_length {α} (n : Nat) (l : List α) : (chunks n l).length = l.length / n := by simp [chunks]

theorem chunks_append {α} {n : Nat} (hn : 0 < n) {b : List α} (hb : b.length = n) (l : List α) :
    chunks n (b ++ l) = b :: chunks n l := by
  unfold chunks
  have h1 : (b ++ l).length / n = l.length / n + 1 := by
    rw [List.length_append, hb, Nat.add_comm, Nat.add_div_right _ hn]
  rw [h1, List.range_succ_eq_map]
  simp only [List.map_cons, List.map_map, Nat.zero_mul, List.drop_zero]
  congr 1
  · rw [← hb]; simp
  · apply List.map_congr_left
    intro i _
    simp only [Function.comp]
    have : (i + 1) * n = b.length + i * n := by rw [hb, Nat.add_mul, Nat.one_mul, Nat.add_comm]
    rw [this, List.drop_append, List.drop_eq_nil_of_le (by omega)]
    simp

theorem mem_chunks_length {α} {n : Nat} {l b : List α} (h : b ∈ chunks n l) : b.length = n := by
  unfold chunks at h
  simp only [List.mem_map, List.mem_range] at h
  obtain ⟨i, hi, rfl⟩ := h
  rw [List.length_take, List.length_drop]
  have : n * (l.length / n) ≤ l.length := Nat.mul_div_le _ _
  have h2 : n * (i + 1) ≤ n * (l.length / n) := Nat.mul_le_mul_left _ hi
  rw [Nat.mul_add, Nat.mul_one, Nat.mul_comm n i] at h2
  omega

/-- Induction over lists whose length is a multiple of `n`, block by block. -/
theorem blockInduction {α} {n : Nat} (hn : 0 < n) {P : List α → Prop} (h0 : P [])
    (hs : ∀ b l, b.length = n → l.length % n = 0 → P l → P (b ++ l)) :
    ∀ l : List α, l.length % n = 0 → P l := by
  intro l
  generalize hk : l.length = k
  induction k using Nat.strongRecOn generalizing l with
  | _ k ih =>
    intro hm
    by_cases hz : k = 0
    · have : l = [] := List.eq_nil_of_length_eq_zero (by omega)
      subst this; exact h0
    · have hkn : n ≤ k := by
        by_cases h : n ≤ k
        · exact h
        · rw [Nat.mod_eq_of_lt (by omega)] at hm; omega
      rw [← List.take_append_drop n l]
      have hd : (l.drop n).length = k - n := by simp [hk]
      have hm' : (k - n) % n = 0 := by
        have : k = (k - n) + n := by omega
        rw [this, Nat.add_mod_right] at hm; exact hm
      apply hs
      · simp; omega
      · rw [hd]; exact hm'
      · exact ih (k - n) (by omega) _ hd hm'

theorem chunks_flatten {α} {n : Nat} (hn : 0 < n) (l : List α) (h : l.length % n = 0) : (chunks n l).flatten = l := by
  refine blockInduction (P := fun l => (chunks n l).flatten = l) hn (by simp [chunks_nil]) ?_ l h
  intro b l hb hl ih
  rw [chunks_append hn hb, List.flatten_cons, ih]

theorem chunks_of_flatten {α} {n : Nat} (hn : 0 < n) (bs : List (List α)) (h : ∀ b ∈ bs, b.length = n) :
    chunks n bs.flatten = bs := by
  induction bs with
  | nil => simp [chunks_nil]
  | cons b bs ih =>
    rw [List.flatten_cons, chunks_append hn (h b (by simp)), ih fun c hc => h c (by simp [hc])]

/-- All chunks have the same size, hence the flattened map has a predictable length. -/
theorem flatMap_length_const {α β} (f : α → List β) (m : Nat) (l : List α) (h : ∀ x ∈ l, (f x).length = m) :
    (l.flatMap f).length = l.length * m := by
  induction l with
  | nil => simp
  | cons a l ih =>
    rw [List.flatMap_cons, List.length_append, ih fun x hx => h x (by simp [hx]), h a (by simp), List.length_cons]
    rw [Nat.add_mul, Nat.one_mul, Nat.add_comm]

/-- Concatenations of equally long blocks agree only block by block. -/
theorem flatten_inj_const {α} {n : Nat} (hn : 0 < n) {a b : List (List α)} (ha : ∀ x ∈ a, x.length = n)
    (hb : ∀ x ∈ b, x.length = n) (h : a.flatten = b.flatten) : a = b := by
  rw [← chunks_of_flatten hn a ha, h, chunks_of_flatten hn b hb]

/-! ### `mapM` in `Except` -/

theorem mapM_ok_nil {α β} (f : α → Res β) : List.mapM f [] = Except.ok [] := rfl

theorem mapM_ok_cons {α β} (f : α → Res β) (a : α) (l : List α) :
    List.mapM f (a :: l) = (do let b ← f a; let bs ← List.mapM f l; return b :: bs) := by
  simp [List.mapM_cons]

theorem mapM_eq_ok {α β} (f : α → Res β) (g : α → β) (l : List α) (h : ∀ a ∈ l, f a = .ok (g a)) :
    List.mapM f l = .ok (l.map g) := by
  induction l with
  | nil => rfl
  | cons a l ih =>
    rw [mapM_ok_cons, h a (by simp), ih fun x hx => h x (by simp [hx])]
    rfl

theorem mapM_ok_iff {α β} (f : α → Res β) (l : List α) (bs : List β) :
    List.mapM f l = .ok bs ↔ List.Forall₂ (fun a b => f a = .ok b) l bs := by
  induction l generalizing bs with
  | nil =>
    constructor
    · intro h; cases h; exact .nil
    · intro h; cases h; rfl
  | cons a l ih =>
    rw [mapM_ok_cons]
    constructor
    · intro h
      match hfa : f a with
      | .error e => rw [hfa] at h; cases h
      | .ok b =>
        match hl : List.mapM f l with
        | .error e => rw [hfa, hl] at h; cases h
        | .ok bs' =>
          rw [hfa, hl] at h
          cases h
          exact .cons hfa ((ih bs').1 hl)
    · intro h
      cases h with
      | cons h1 h2 => rw [h1, (ih _).2 h2]; rfl

theorem mapM_length {α β} {f : α → Res β} {l : List α} {bs : List β} (h : List.mapM f l = .ok bs) :
    bs.length = l.length := ((mapM_ok_iff f l bs).1 h).length_eq.symm

end SunPhy
