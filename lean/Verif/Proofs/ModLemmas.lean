import Verif.Model.Modulations
import Verif.Proofs.Lists
/-
Lemmas about strided slices and `Model/Modulations.lean`.
-/
namespace SunPhy

theorem everyNth_skip {α} (k c : Nat) (a l : List α) (h : a.length = c) : everyNth k c (a ++ l) = everyNth k 0 l := by
  induction a generalizing c with
  | nil => simp at h; subst h; rfl
  | cons x a ih =>
    simp at h
    subst h
    rw [List.cons_append, everyNth, ih _ rfl]

/-- `everyNth` on a list that starts with a full block of `k` entries. -/
theorem everyNth_block {α} {k off : Nat} {b : List α} (hb : b.length = k) (ho : off < k) (l : List α) :
    everyNth k off (b ++ l) = b[off]'(by omega) :: everyNth k off l := by
  have hsplit : b ++ l = b.take off ++ (b[off]'(by omega) :: (b.drop (off + 1) ++ l)) := by
    conv_lhs => rw [← List.take_append_drop off b]
    rw [List.drop_eq_getElem_cons (by omega), List.append_assoc]; rfl
  rw [hsplit, everyNth_skip k off _ _ (by simp; omega), everyNth]
  congr 1
  -- the counter is now k-1 and k-1-off entries of the block remain
  have gen : ∀ (c : List α) (d : Nat), d = c.length + off → everyNth k d (c ++ l) = everyNth k off l := by
    intro c
    induction c with
    | nil => intro d hd; simp at hd; rw [hd]; rfl
    | cons x c ih =>
      intro d hd
      obtain ⟨e, rfl⟩ : ∃ e, d = e + 1 := ⟨d - 1, by simp at hd; omega⟩
      rw [List.cons_append, everyNth, ih e (by simp at hd; omega)]
  exact gen _ _ (by simp; omega)

theorem everyNth_nil {α} (k c : Nat) : everyNth k c ([] : List α) = [] := by cases c <;> rfl

theorem everyNth_length {α} {k off : Nat} (ho : off < k) (l : List α) (h : l.length % k = 0) :
    (everyNth k off l).length = l.length / k := by
  have hk : 0 < k := by omega
  refine blockInduction (P := fun l => (everyNth k off l).length = l.length / k) hk
    (by simp [everyNth_nil]) ?_ l h
  intro b l hb _ ih
  rw [everyNth_block hb ho, List.length_cons, ih, List.length_append, hb, Nat.add_comm k, Nat.add_div_right _ hk]

theorem bcast_eq {α β γ} (f : α → β → γ) (xs : List α) (ys : List β) (h : xs.length = ys.length) :
    bcast f xs ys = .ok (List.zipWith f xs ys) := by unfold bcast; rw [if_pos h]

end SunPhy
