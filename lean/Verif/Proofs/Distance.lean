import Verif.Spec.Distance
import Verif.Spec.Hamming
import Mathlib.Tactic.Linarith
import Mathlib.Tactic.Positivity
import Mathlib.Tactic.Ring
import Mathlib.Algebra.Order.BigOperators.Group.List
import Mathlib.Algebra.BigOperators.Ring.List
/-
Lemmas on the squared Euclidean distance and on sums over ranges.
-/
namespace SunPhy
open Spec
noncomputable section

theorem distSq_nonneg (x y : List ℂ) : 0 ≤ distSq x y := by
  unfold distSq
  apply List.sum_nonneg
  intro v hv
  obtain ⟨i, hi, rfl⟩ := List.mem_iff_getElem.1 hv
  rw [List.getElem_zipWith]
  positivity

theorem distSq_append (a b c d : List ℂ) (h : a.length = c.length) : distSq (a ++ b) (c ++ d) = distSq a c + distSq b d := by
  unfold distSq
  rw [List.zipWith_append h, List.sum_append]

theorem distSq_self (a : List ℂ) : distSq a a = 0 := by
  unfold distSq
  rw [List.zipWith_self]
  simp

theorem distSq_map {ι} (l : List ι) (f g : ι → ℂ) : distSq (l.map f) (l.map g) = (l.map fun i => ‖f i - g i‖ ^ 2).sum := by
  unfold distSq
  rw [List.zipWith_map, List.zipWith_self]

theorem distSq_flatMap {ι} (l : List ι) (f g : ι → List ℂ) (h : ∀ i, (f i).length = (g i).length) :
    distSq (l.flatMap f) (l.flatMap g) = (l.map fun i => distSq (f i) (g i)).sum := by
  induction l with
  | nil => rfl
  | cons a l ih => rw [List.flatMap_cons, List.flatMap_cons, distSq_append _ _ _ _ (h a), ih, List.map_cons, List.sum_cons]

/-- Half the squared distance of two signals is at most the sum of the squared distances to any third one. -/
theorem distSq_triangle (r : List ℂ) : ∀ x y : List ℂ, x.length = r.length → y.length = r.length → distSq x y ≤ 2 * distSq r x + 2 * distSq r y := by
  induction r with
  | nil => intro x y hx hy; rw [List.eq_nil_of_length_eq_zero hx]; simp [distSq]
  | cons c r ih =>
    intro x y hx hy
    cases x with
    | nil => simp at hx
    | cons a x =>
      cases y with
      | nil => simp at hy
      | cons b y =>
        have := ih x y (by simpa using hx) (by simpa using hy)
        unfold distSq at *
        simp only [List.zipWith_cons_cons, List.sum_cons]
        have h1 : ‖a - b‖ ≤ ‖c - a‖ + ‖c - b‖ := by
          have := norm_sub_le (c - b) (c - a)
          rw [show (c - b) - (c - a) = a - b by ring] at this
          linarith
        have h2 : ‖a - b‖ ^ 2 ≤ 2 * ‖c - a‖ ^ 2 + 2 * ‖c - b‖ ^ 2 := by
          have := norm_nonneg (a - b)
          nlinarith [sq_nonneg (‖c - a‖ - ‖c - b‖)]
        linarith

/-! ### Sums -/

/-- Sum of the first `n` values. -/
def S (n : Nat) (f : Nat → ℝ) : ℝ := ((List.range n).map f).sum

theorem S_congr {n : Nat} {f g : Nat → ℝ} (h : ∀ i < n, f i = g i) : S n f = S n g := by
  unfold S
  congr 1
  exact List.map_congr_left fun i hi => h i (List.mem_range.1 hi)

theorem S_le {n : Nat} {f g : Nat → ℝ} (h : ∀ i < n, f i ≤ g i) : S n f ≤ S n g := by
  unfold S
  exact List.sum_le_sum fun i hi => h i (List.mem_range.1 hi)

theorem S_add (a b : Nat) (f : Nat → ℝ) : S (a + b) f = S a f + S b (fun i => f (a + i)) := by
  unfold S
  rw [List.range_add, List.map_append, List.sum_append, List.map_map]; rfl

theorem S_mul (a b : Nat) (f : Nat → ℝ) : S (a * b) f = S a (fun i => S b (fun j => f (i * b + j))) := by
  induction a with
  | zero => simp [S]
  | succ a ih =>
    rw [Nat.succ_mul, S_add, ih, S_add a 1]
    congr 1
    simp [S]

theorem S_scale (n : Nat) (c : ℝ) (f : Nat → ℝ) : S n (fun i => c * f i) = c * S n f := by
  unfold S; rw [List.sum_map_mul_left]

theorem S_const (n : Nat) (c : ℝ) : S n (fun _ => c) = n * c := by
  unfold S; simp

/-- 1 when two bits differ. -/
def neq (a b : Bool) : ℝ := if a = b then 0 else 1

theorem hamming_S (x : Bits) : ∀ y : Bits, x.length = y.length → ((hamming x y : Nat) : ℝ) = S x.length fun i => neq (x.getD i false) (y.getD i false) := by
  induction x with
  | nil => intro y _; simp [hamming, S]
  | cons a x ih =>
    intro y hy
    cases y with
    | nil => simp at hy
    | cons b y =>
      have := ih y (by simpa using hy)
      rw [List.length_cons, Nat.add_comm, S_add 1]
      have e : S 1 (fun i => neq ((a :: x).getD i false) ((b :: y).getD i false)) = neq a b := by simp [S]
      have e2 : S x.length (fun i => neq ((a :: x).getD (1 + i) false) ((b :: y).getD (1 + i) false)) = S x.length fun i => neq (x.getD i false) (y.getD i false) := by
        apply S_congr
        intro i _
        rw [Nat.add_comm]; rfl
      rw [e, e2, ← this]
      unfold hamming neq
      cases a <;> cases b <;> simp [List.count_cons, add_comm]

end
end SunPhy
