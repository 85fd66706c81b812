import Verif.Proofs.RefFsk
import Mathlib.Data.Finset.Card
/-
Hamming distance of sequences given by their indices; it is unchanged by permutations of positions and by whitening.
-/
namespace SunPhy
open Spec

theorem hamming_range (n : Nat) (f g : Nat → Bool) :
    hamming ((List.range n).map f) ((List.range n).map g) = ((Finset.range n).filter fun i => f i ≠ g i).card := by
  induction n with
  | zero => rfl
  | succ n ih =>
    rw [List.range_succ, List.map_append, List.map_append, hamming_append (by simp), ih, Finset.range_add_one, Finset.filter_insert]
    by_cases h : f n = g n
    · rw [if_neg (by simpa using h)]
      simp [hamming, h]
    · rw [if_pos h, Finset.card_insert_of_notMem (by simp)]
      have : (f n ^^ g n) = true := by revert h; cases f n <;> cases g n <;> decide
      simp [hamming, this]

theorem bits_range (x : Bits) : x = (List.range x.length).map fun i => x.getD i false :=
  range_map_ext rfl _ fun i hi => by rw [List.getElem?_eq_getElem hi]; simp [hi]

theorem hamming_getD {x y : Bits} (h : x.length = y.length) :
    hamming x y = ((Finset.range x.length).filter fun i => x.getD i false ≠ y.getD i false).card := by
  conv_lhs => rw [bits_range x, bits_range y, ← h]
  exact hamming_range _ _ _

/-- Moving the positions with an involution. -/
theorem hamming_involution {x y : Bits} (h : x.length = y.length) (σ : Nat → Nat) (h1 : ∀ i < x.length, σ i < x.length)
    (h2 : ∀ i < x.length, σ (σ i) = i) :
    hamming ((List.range x.length).map fun i => x.getD (σ i) false) ((List.range y.length).map fun i => y.getD (σ i) false) = hamming x y := by
  rw [← h, hamming_range, hamming_getD h]
  refine Finset.card_nbij' σ σ ?_ ?_ ?_ ?_
  · intro i hi
    simp only [Finset.coe_filter, Finset.mem_range, Set.mem_setOf_eq] at hi ⊢
    exact ⟨h1 i hi.1, hi.2⟩
  · intro i hi
    simp only [Finset.coe_filter, Finset.mem_range, Set.mem_setOf_eq] at hi ⊢
    exact ⟨h1 i hi.1, by rw [h2 i hi.1]; exact hi.2⟩
  · intro i hi
    simp only [Finset.coe_filter, Finset.mem_range, Set.mem_setOf_eq] at hi
    exact h2 i hi.1
  · intro i hi
    simp only [Finset.coe_filter, Finset.mem_range, Set.mem_setOf_eq] at hi
    exact h2 i hi.1

theorem fsk_invol16 : ∀ t < 16, 4 * ((15 - (4 * ((15 - t) % 4) + (15 - t) / 4)) % 4) + (15 - (4 * ((15 - t) % 4) + (15 - t) / 4)) / 4 = t ∧
    4 * ((15 - t) % 4) + (15 - t) / 4 < 16 := by decide

theorem fsk_interleave_hamming {x y : Bits} (h : x.length = y.length) (h32 : x.length % 32 = 0) :
    hamming (RefF.interleave x) (RefF.interleave y) = hamming x y := by
  let σ : Nat → Nat := fun i => i / 32 * 32 + 2 * (4 * ((15 - i % 32 / 2) % 4) + (15 - i % 32 / 2) / 4) + i % 2
  have key : ∀ i, σ i / 32 = i / 32 ∧ σ i % 32 / 2 = 4 * ((15 - i % 32 / 2) % 4) + (15 - i % 32 / 2) / 4 ∧ σ i % 2 = i % 2 := by
    intro i
    have := (fsk_invol16 (i % 32 / 2) (by omega)).2
    simp only [σ]
    generalize 4 * ((15 - i % 32 / 2) % 4) + (15 - i % 32 / 2) / 4 = u at *
    omega
  refine hamming_involution h σ ?_ ?_
  · intro i hi
    have := (fsk_invol16 (i % 32 / 2) (by omega)).2
    simp only [σ]
    generalize 4 * ((15 - i % 32 / 2) % 4) + (15 - i % 32 / 2) / 4 = u at *
    omega
  · intro i _
    obtain ⟨k1, k2, k3⟩ := key i
    have := (fsk_invol16 (i % 32 / 2) (by omega)).1
    show σ i / 32 * 32 + 2 * (4 * ((15 - σ i % 32 / 2) % 4) + (15 - σ i % 32 / 2) / 4) + σ i % 2 = i
    rw [k1, k2, k3, this]
    omega

end SunPhy
