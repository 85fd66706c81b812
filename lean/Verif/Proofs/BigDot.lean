import Mathlib.Algebra.BigOperators.Intervals
import Mathlib.Tactic.Ring
import Mathlib.Tactic.Linarith
import Mathlib.Tactic.Zify
/-
Sums of products read off one product of large numbers, so that the kernel can evaluate many of them.
-/
namespace SunPhy.BigDot

/-- The digits of a list, lowest first, in base `B`. -/
def val (B : Nat) : List Nat → Nat
  | [] => 0
  | x :: l => x + B * val B l

/-- Sum of products. -/
def dot : List Nat → List Nat → Nat
  | x :: a, y :: b => x * y + dot a b
  | _, _ => 0

/-- `1 + B + … + B^(n-1)`. -/
def geom (B : Nat) : Nat → Nat
  | 0 => 0
  | n + 1 => 1 + B * geom B n

theorem geom_eq (B n : Nat) : geom B n * (B - 1) + 1 ≤ B ^ n + (if B = 0 then 1 else 0) := by
  induction n with
  | zero => simp [geom]
  | succ n ih =>
    rcases Nat.eq_zero_or_pos B with rfl | hB
    · simp [geom]
    · rw [if_neg (by omega)] at ih ⊢
      obtain ⟨c, rfl⟩ : ∃ c, B = c + 1 := ⟨B - 1, by omega⟩
      simp only [Nat.add_sub_cancel] at ih ⊢
      rw [geom, pow_succ]
      nlinarith

theorem geom_lt {B n K : Nat} (h : K < B) : K * geom B n < B ^ n := by
  have := geom_eq B n
  rw [if_neg (by omega)] at this
  have h1 : K * geom B n ≤ (B - 1) * geom B n := Nat.mul_le_mul_right _ (by omega)
  rw [Nat.mul_comm (B - 1)] at h1
  omega

theorem val_append (B : Nat) (a b : List Nat) : val B (a ++ b) = val B a + B ^ a.length * val B b := by
  induction a with
  | nil => simp [val]
  | cons x a ih => rw [List.cons_append, val, ih, val, List.length_cons, pow_succ]; ring

theorem val_le {B L : Nat} (a : List Nat) (h : ∀ x ∈ a, x ≤ L) : val B a ≤ L * geom B a.length := by
  induction a with
  | nil => simp [val]
  | cons x a ih =>
    rw [val, List.length_cons, geom]
    have := ih fun y hy => h y (List.mem_cons_of_mem _ hy)
    have hx := h x (by simp)
    nlinarith

theorem val_lt {B : Nat} (a : List Nat) (h : ∀ x ∈ a, x < B) : val B a < B ^ a.length := by
  induction a with
  | nil => simp [val]
  | cons x a ih =>
    rw [val, List.length_cons, pow_succ]
    have := ih fun y hy => h y (List.mem_cons_of_mem _ hy)
    have hx := h x (by simp)
    nlinarith

/-- The tail of a list. -/
theorem val_drop {B : Nat} (a : List Nat) (h : ∀ x ∈ a, x < B) (n : Nat) : val B (a.drop n) = val B a / B ^ n := by
  induction n generalizing a with
  | zero => simp
  | succ n ih =>
    cases a with
    | nil => simp [val]
    | cons x a =>
      have hB : 0 < B := lt_of_le_of_lt (Nat.zero_le _) (h x (by simp))
      rw [List.drop_succ_cons, ih a fun y hy => h y (List.mem_cons_of_mem _ hy), val, pow_succ, Nat.mul_comm (B ^ n), ← Nat.div_div_eq_div_mul,
        Nat.add_mul_div_left _ _ hB, Nat.div_eq_of_lt (h x (by simp)), Nat.zero_add]

/-- One digit. -/
theorem val_digit {B : Nat} (a : List Nat) (h : ∀ x ∈ a, x < B) (n : Nat) : val B a / B ^ n % B = a.getD n 0 := by
  rw [← val_drop a h]
  rcases hd : a.drop n with _ | ⟨x, l⟩
  · have : a.length ≤ n := List.drop_eq_nil_iff.1 hd
    rw [List.getD_eq_getElem?_getD, List.getElem?_eq_none this]; simp [val]
  · have hn : a[n]? = some x := by
      have := congrArg (fun l : List Nat => l[0]?) hd
      simpa using this
    rw [List.getD_eq_getElem?_getD, hn, val, Nat.add_mul_mod_self_left, Nat.mod_eq_of_lt (h x (List.mem_of_getElem? hn))]; rfl

theorem dot_le {L L' : Nat} (a b : List Nat) (ha : ∀ x ∈ a, x ≤ L) (hb : ∀ x ∈ b, x ≤ L') : dot a b ≤ b.length * (L * L') := by
  induction b generalizing a with
  | nil => cases a <;> simp [dot]
  | cons y b ih =>
    cases a with
    | nil => simp [dot]
    | cons x a =>
      rw [dot, List.length_cons, Nat.add_mul, Nat.one_mul]
      have := ih a (fun z hz => ha z (List.mem_cons_of_mem _ hz)) (fun z hz => hb z (List.mem_cons_of_mem _ hz))
      have := Nat.mul_le_mul (ha x (by simp)) (hb y (by simp))
      omega

/-- The product with the reversed list has the sum of products as a digit. -/
theorem product {B L L' : Nat} (b : List Nat) : ∀ (a : List Nat), (∀ x ∈ a, x ≤ L) → (∀ x ∈ b, x ≤ L') → b.length ≤ a.length → 0 < b.length →
    ∃ low high, val B a * val B b.reverse = low + B ^ (b.length - 1) * (dot a b + B * high) ∧ low ≤ L * L' * b.length * geom B (b.length - 1) := by
  induction b with
  | nil => intro a _ _ _ h; simp at h
  | cons y b ih =>
    intro a ha hb hl _
    cases a with
    | nil => simp at hl
    | cons x a =>
      have ha' : ∀ z ∈ a, z ≤ L := fun z hz => ha z (List.mem_cons_of_mem _ hz)
      have hb' : ∀ z ∈ b, z ≤ L' := fun z hz => hb z (List.mem_cons_of_mem _ hz)
      have hx := ha x (by simp)
      simp only [List.length_cons, Nat.add_sub_cancel] at *
      rw [List.reverse_cons, val_append, List.length_reverse, val, val, val, Nat.mul_zero, Nat.add_zero, dot]
      rcases Nat.eq_zero_or_pos b.length with h0 | h0
      · rw [List.length_eq_zero_iff.1 h0]
        refine ⟨0, val B a * y, ?_, by simp⟩
        cases a <;> simp [val, dot] <;> ring
      · obtain ⟨low, high, e, hlow⟩ := ih a ha' hb' (by omega) h0
        obtain ⟨m, hm⟩ : ∃ m, b.length = m + 1 := ⟨b.length - 1, by omega⟩
        rw [hm] at e hlow ⊢
        simp only [Nat.add_sub_cancel] at e hlow ⊢
        have hR : val B b.reverse ≤ L' * geom B (m + 1) := by
          have := val_le (B := B) (L := L') b.reverse fun z hz => hb' z (List.mem_reverse.1 hz)
          rwa [List.length_reverse, hm] at this
        refine ⟨x * val B b.reverse + B * low, high + val B a * y, ?_, ?_⟩
        · have : (x + B * val B a) * (val B b.reverse + B ^ (m + 1) * y) =
            x * val B b.reverse + B * (val B a * val B b.reverse) + B ^ (m + 1) * (x * y) + B ^ (m + 1) * (B * (val B a * y)) := by ring
          rw [this, e, pow_succ]
          ring
        · have h1 : x * val B b.reverse ≤ L * (L' * geom B (m + 1)) := Nat.mul_le_mul hx hR
          have h2 : B * low ≤ L * L' * (m + 1) * (B * geom B m) := by
            have := Nat.mul_le_mul_left B hlow
            nlinarith
          have h3 : B * geom B m ≤ geom B (m + 1) := by rw [geom]; omega
          have h4 := Nat.mul_le_mul_left (L * L' * (m + 1)) h3
          nlinarith

/-- Sum of products of the window of `a` that starts at `i` with `b`. -/
theorem dot_eq {B L L' : Nat} (a b : List Nat) (i : Nat) (ha : ∀ x ∈ a, x ≤ L) (hb : ∀ x ∈ b, x ≤ L') (hl : i + b.length ≤ a.length) (h0 : 0 < b.length)
    (hB : L * L' * b.length < B) (hL : L < B) : val B a / B ^ i * val B b.reverse / B ^ (b.length - 1) % B = dot (a.drop i) b := by
  rw [← val_drop a fun x hx => lt_of_le_of_lt (ha x hx) hL]
  obtain ⟨low, high, e, hlow⟩ := product (B := B) b (a.drop i) (fun x hx => ha x (List.mem_of_mem_drop hx)) hb (by simp; omega) h0
  have h1 := lt_of_le_of_lt hlow (geom_lt hB)
  have h2 : 0 < B ^ (b.length - 1) := Nat.pow_pos (by omega)
  have h3 := dot_le (a.drop i) b (fun x hx => ha x (List.mem_of_mem_drop hx)) hb
  rw [e, Nat.add_mul_div_left _ _ h2, Nat.div_eq_of_lt h1, Nat.zero_add, Nat.add_mul_mod_self_left, Nat.mod_eq_of_lt]
  rw [Nat.mul_comm] at h3
  omega

theorem dot_getD (b : List Nat) : ∀ a : List Nat, b.length ≤ a.length → dot a b = ∑ k ∈ Finset.range b.length, a.getD k 0 * b.getD k 0 := by
  induction b with
  | nil => intro a _; cases a <;> simp [dot]
  | cons y b ih =>
    intro a h
    cases a with
    | nil => simp at h
    | cons x a =>
      rw [dot, ih a (by simpa using h), List.length_cons, Finset.sum_range_succ', Nat.add_comm]
      rfl

/-- For lists that are given by functions. -/
theorem dot_fun {B L L' : Nat} (f g : Nat → Nat) (n m i : Nat) (hf : ∀ k < n, f k ≤ L) (hg : ∀ k < m, g k ≤ L') (hl : i + m ≤ n) (h0 : 0 < m)
    (hB : L * L' * m < B) (hL : L < B) :
    val B ((List.range n).map f) / B ^ i * val B ((List.range m).map g).reverse / B ^ (m - 1) % B = ∑ k ∈ Finset.range m, f (i + k) * g k := by
  have ha : ∀ x ∈ (List.range n).map f, x ≤ L := by
    intro x hx
    obtain ⟨k, hk, rfl⟩ := List.mem_map.1 hx
    exact hf k (List.mem_range.1 hk)
  have hb : ∀ x ∈ (List.range m).map g, x ≤ L' := by
    intro x hx
    obtain ⟨k, hk, rfl⟩ := List.mem_map.1 hx
    exact hg k (List.mem_range.1 hk)
  have hlm : ((List.range m).map g).length = m := by simp
  have := dot_eq (B := B) ((List.range n).map f) ((List.range m).map g) i ha hb (by simpa using hl) (by simpa using h0) (by rw [hlm]; exact hB) hL
  rw [hlm] at this
  rw [this, dot_getD _ _ (by simp; omega), hlm]
  refine Finset.sum_congr rfl fun k hk => ?_
  have hk := Finset.mem_range.1 hk
  rw [List.getD_eq_getElem?_getD, List.getElem?_drop, List.getElem?_map, List.getElem?_range (by omega), List.getD_eq_getElem?_getD, List.getElem?_map, List.getElem?_range hk]
  rfl

end SunPhy.BigDot
