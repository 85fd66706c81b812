import Verif.Spec.Gf2
import Verif.Model.Fields
import Mathlib.Tactic.Ring
import Mathlib.Tactic.LinearCombination
import Mathlib.Tactic.ComputeDegree
/-
The integer-list division of `Model/Poly.lean` refines division of polynomials over GF(2).
-/
namespace SunPhy
open Spec Polynomial

theorem toPoly_nil : toPoly [] = 0 := rfl
theorem toPoly_cons (c : Int) (l : List Int) : toPoly (c :: l) = C (c : ZMod 2) * X ^ l.length + toPoly l := rfl

theorem toPoly_zeros (n : Nat) : toPoly (List.replicate n 0) = 0 := by
  induction n with
  | zero => rfl
  | succ n ih => rw [List.replicate_succ, toPoly_cons, ih]; simp

theorem toPoly_append (a b : List Int) : toPoly (a ++ b) = toPoly a * X ^ b.length + toPoly b := by
  induction a with
  | nil => simp [toPoly_nil]
  | cons c a ih => rw [List.cons_append, toPoly_cons, toPoly_cons, ih, List.length_append, pow_add]; ring

theorem toPoly_degree (l : List Int) : (toPoly l).degree < l.length := by
  induction l with
  | nil => simp [toPoly_nil]
  | cons c l ih =>
    rw [toPoly_cons]
    refine lt_of_le_of_lt (degree_add_le _ _) (max_lt ?_ ?_)
    · refine lt_of_le_of_lt (degree_C_mul_X_pow_le _ _) ?_
      exact_mod_cast Nat.lt_succ_self _
    · refine lt_trans ih ?_
      exact_mod_cast Nat.lt_succ_self _

theorem toPoly_congr_mod2 (f : Int → Int) (hf : ∀ x, ((f x : Int) : ZMod 2) = (x : ZMod 2)) (l : List Int) :
    toPoly (l.map f) = toPoly l := by
  induction l with
  | nil => rfl
  | cons c l ih => rw [List.map_cons, toPoly_cons, toPoly_cons, ih, hf, List.length_map]

theorem cast_mod2 (x : Int) : ((x % 2 : Int) : ZMod 2) = (x : ZMod 2) := by
  have := Int.emod_add_mul_ediv x 2
  have h2 : ((2 : Int) : ZMod 2) = 0 := by decide
  conv_rhs => rw [← this]
  push_cast
  rw [show ((2 : ZMod 2)) = 0 from by decide]; ring

theorem toPoly_mod2 (l : List Int) : toPoly (mod2 l) = toPoly l := toPoly_congr_mod2 _ cast_mod2 l

theorem cast_toUint8 (x : Int) : ((x % 256 : Int) : ZMod 2) = (x : ZMod 2) := by
  have := Int.emod_add_mul_ediv x 256
  conv_rhs => rw [← this]
  push_cast
  rw [show ((256 : ZMod 2)) = 0 from by decide]; ring

theorem toPoly_dropWhile (l : List Int) : toPoly (l.dropWhile (· == 0)) = toPoly l := by
  induction l with
  | nil => rfl
  | cons c l ih =>
    rw [List.dropWhile_cons]
    split
    · rename_i h
      have : c = 0 := by simpa using h
      subst this
      rw [ih, toPoly_cons]; simp
    · rfl

theorem toPoly_poly1d (l : List Int) : toPoly (poly1d l) = toPoly l := by
  unfold poly1d
  rw [← toPoly_dropWhile l]
  split
  · rename_i h; rw [h]; simp [toPoly]
  · rfl

theorem poly1d_ne_nil (l : List Int) : poly1d l ≠ [] := by
  unfold poly1d
  split
  · simp
  · assumption

theorem addFront_length (a b : List Int) : (addFront a b).length = max a.length b.length := by
  induction a generalizing b with
  | nil => simp [addFront]
  | cons x a ih =>
    cases b with
    | nil => simp [addFront]
    | cons y b => simp [addFront, ih]

theorem toPoly_addFront (a b : List Int) :
    toPoly (addFront a b) = toPoly a * X ^ (max a.length b.length - a.length) +
      toPoly b * X ^ (max a.length b.length - b.length) := by
  induction a generalizing b with
  | nil => simp [addFront, toPoly_nil]
  | cons x a ih =>
    cases b with
    | nil => simp [addFront, toPoly_nil]
    | cons y b =>
      rw [addFront, toPoly_cons, ih, addFront_length, toPoly_cons, toPoly_cons]
      simp only [List.length_cons]
      rw [show max (a.length + 1) (b.length + 1) - (a.length + 1) = max a.length b.length - a.length by omega,
        show max (a.length + 1) (b.length + 1) - (b.length + 1) = max a.length b.length - b.length by omega]
      have e1 : (X : (ZMod 2)[X]) ^ max a.length b.length = X ^ a.length * X ^ (max a.length b.length - a.length) := by
        rw [← pow_add]; congr 1; omega
      have e2 : (X : (ZMod 2)[X]) ^ max a.length b.length = X ^ b.length * X ^ (max a.length b.length - b.length) := by
        rw [← pow_add]; congr 1; omega
      push_cast
      rw [C_add]
      linear_combination C (x : ZMod 2) * e1 + C (y : ZMod 2) * e2

theorem toPoly_smul (d : Int) (l : List Int) : toPoly (l.map (d * ·)) = C (d : ZMod 2) * toPoly l := by
  induction l with
  | nil => simp [toPoly_nil]
  | cons c l ih =>
    rw [List.map_cons, toPoly_cons, toPoly_cons, ih, List.length_map]
    push_cast
    rw [C_mul]; ring

theorem convolve_spec (a b : List Int) (hb : b ≠ []) :
    toPoly (convolve a b) = toPoly a * toPoly b ∧ (a ≠ [] → (convolve a b).length + 1 = a.length + b.length) := by
  have hb0 : 0 < b.length := List.length_pos_of_ne_nil hb
  induction a with
  | nil => simp [convolve, toPoly_nil]
  | cons x a ih =>
    obtain ⟨h1, h2⟩ := ih
    rw [convolve]
    have hlen : (addFront (b.map (x * ·)) (0 :: convolve a b)).length + 1 = (x :: a).length + b.length := by
      rw [addFront_length]
      simp only [List.length_map, List.length_cons]
      by_cases ha : a = []
      · subst ha; simp [convolve]; omega
      · have := h2 ha
        have : 0 < a.length := List.length_pos_of_ne_nil ha
        omega
    refine ⟨?_, fun _ => hlen⟩
    rw [addFront_length] at hlen
    rw [toPoly_addFront, toPoly_smul, toPoly_cons 0, h1, toPoly_cons]
    simp only [List.length_map, List.length_cons] at hlen ⊢
    have ex : max b.length ((convolve a b).length + 1) - b.length = a.length := by omega
    rw [ex]
    by_cases ha : a = []
    · subst ha; simp [toPoly_nil]
    · have := h2 ha
      have hapos : 0 < a.length := List.length_pos_of_ne_nil ha
      rw [show max b.length ((convolve a b).length + 1) - ((convolve a b).length + 1) = 0 by omega]
      simp; ring

theorem toPoly_polymul (a b : List Int) : toPoly (polymul a b) = toPoly a * toPoly b := by
  unfold polymul
  rw [(convolve_spec _ _ (poly1d_ne_nil b)).1, toPoly_poly1d, toPoly_poly1d]

theorem subPrefix_spec (d : Int) (r t : List Int) (h : t.length ≤ r.length) :
    (subPrefix d r t).length = r.length ∧
    toPoly (subPrefix d r t) = toPoly r - C (d : ZMod 2) * toPoly t * X ^ (r.length - t.length) := by
  induction r generalizing t with
  | nil =>
    cases t with
    | nil => simp [subPrefix, toPoly_nil]
    | cons => simp at h
  | cons x r ih =>
    cases t with
    | nil => simp [subPrefix, toPoly_nil]
    | cons y t =>
      obtain ⟨h1, h2⟩ := ih t (by simpa using h)
      have hl : t.length ≤ r.length := by simpa using h
      refine ⟨by simp [subPrefix, h1], ?_⟩
      rw [subPrefix, toPoly_cons, toPoly_cons, toPoly_cons, h1, h2]
      simp only [List.length_cons]
      rw [show r.length + 1 - (t.length + 1) = r.length - t.length by omega]
      have e : (X : (ZMod 2)[X]) ^ r.length = X ^ t.length * X ^ (r.length - t.length) := by
        rw [← pow_add]; congr 1; omega
      push_cast
      rw [C_sub, C_mul]
      linear_combination -(C (d : ZMod 2) * C (y : ZMod 2)) * e

/-- The division loop changes the polynomial by a multiple of the divisor and clears the first `s` coefficients. -/
theorem polydivLoop_spec (vt : List Int) (s : Nat) : ∀ r : List Int, s + vt.length ≤ r.length →
    ∃ low, polydivLoop (1 :: vt) s r = List.replicate s 0 ++ low ∧ low.length = r.length - s ∧
      toPoly (1 :: vt) ∣ toPoly r - toPoly low := by
  induction s with
  | zero => intro r _; exact ⟨r, rfl, rfl, by simp⟩
  | succ s ih =>
    intro r h
    cases r with
    | nil => simp at h
    | cons d r =>
      have hr : vt.length ≤ r.length := by simp at h; omega
      obtain ⟨h1, h2⟩ := subPrefix_spec d r vt hr
      obtain ⟨low, e, hl, hd⟩ := ih (subPrefix d r vt) (by simp at h; omega)
      refine ⟨low, ?_, ?_, ?_⟩
      · simp only [polydivLoop, List.headD_cons, List.tail_cons, e, List.replicate_succ]
        simp
      · rw [hl, h1]; simp
      · have e2 : toPoly (d :: r) - toPoly low = (toPoly (subPrefix d r vt) - toPoly low) +
            toPoly (1 :: vt) * (C (d : ZMod 2) * X ^ (r.length - vt.length)) := by
          rw [h2, toPoly_cons, toPoly_cons]
          have e : (X : (ZMod 2)[X]) ^ r.length = X ^ vt.length * X ^ (r.length - vt.length) := by
            rw [← pow_add]; congr 1; omega
          push_cast
          rw [C_1]
          linear_combination C (d : ZMod 2) * e
        rw [e2]
        exact dvd_add hd (dvd_mul_right _ _)

theorem toPoly_trimFront (l : List Int) : toPoly (trimFront l) = toPoly l := by
  fun_induction trimFront l with
  | case1 => rfl
  | case2 => rfl
  | case3 y l ih => rw [ih, toPoly_cons 0]; simp
  | case4 => rfl

theorem trimFront_length_le (l : List Int) : (trimFront l).length ≤ l.length := by
  fun_induction trimFront l with
  | case1 => simp
  | case2 => simp
  | case3 y l ih => simp at ih ⊢; omega
  | case4 => simp

theorem trimFront_zeros (s : Nat) (low : List Int) (h : low ≠ []) : trimFront (List.replicate s 0 ++ low) = trimFront low := by
  induction s with
  | zero => rfl
  | succ s ih =>
    rw [List.replicate_succ, List.cons_append]
    cases hh : List.replicate s 0 ++ low with
    | nil => exact (h (List.append_eq_nil_iff.1 hh).2).elim
    | cons y l => rw [← ih, hh]; simp [trimFront]

theorem trimFront_ne_nil {l : List Int} (h : l ≠ []) : trimFront l ≠ [] := by
  fun_induction trimFront l with
  | case1 => exact h
  | case2 => simp
  | case3 y l ih => exact ih (by simp)
  | case4 => simp

theorem toPoly_polyG : toPoly polyG = G := by
  simp [polyG, toPoly, G]; ring

theorem G_monic : G.Monic := by unfold G; monicity!
theorem G_degree : G.degree = 8 := by unfold G; compute_degree!

/-- The remainder computed by the modelled `np.polydiv` is congruent to the dividend and has at most 8 coefficients. -/
theorem polydivRem_spec (u : List Int) (hu : u ≠ []) : G ∣ toPoly u - toPoly (polydivRem u polyG) ∧ (polydivRem u polyG).length ≤ 8 ∧
    polydivRem u polyG ≠ [] := by
  have hu0 : 0 < u.length := List.length_pos_of_ne_nil hu
  unfold polydivRem
  have h9 : polyG.length = 9 := rfl
  rw [h9]
  by_cases hs : u.length + 1 ≤ 9
  · rw [show u.length + 1 - 9 = 0 by omega]
    simp only [polydivLoop]
    refine ⟨by rw [toPoly_trimFront]; simp, le_trans (trimFront_length_le u) (by omega), trimFront_ne_nil hu⟩
  · obtain ⟨low, e, hl, hd⟩ := polydivLoop_spec polyG.tail (u.length + 1 - 9) u (by
      have : polyG.tail.length = 8 := rfl
      omega)
    have hp : (1 :: polyG.tail) = polyG := rfl
    rw [hp] at e hd
    have hlow : low ≠ [] := List.ne_nil_of_length_pos (by omega)
    rw [e, trimFront_zeros _ _ hlow]
    refine ⟨?_, le_trans (trimFront_length_le low) (by omega), trimFront_ne_nil hlow⟩
    rw [toPoly_trimFront, ← toPoly_polyG]
    exact hd

/-- As GF(2) polynomials: it is the remainder. -/
theorem polydivRem_modByMonic (u : List Int) (hu : u ≠ []) : toPoly (polydivRem u polyG) = toPoly u %ₘ G := by
  obtain ⟨⟨q, hq⟩, hl, _⟩ := polydivRem_spec u hu
  have hdeg : (toPoly (polydivRem u polyG)).degree < G.degree := by
    refine lt_of_lt_of_le (toPoly_degree _) ?_
    rw [G_degree]
    exact_mod_cast hl
  have := (div_modByMonic_unique (f := toPoly u) q (toPoly (polydivRem u polyG)) G_monic
    ⟨by linear_combination -hq, hdeg⟩).2
  exact this.symm

/-- Coefficient lists of equal length denote the same polynomial only if they agree modulo 2. -/
theorem toPoly_inj : ∀ (a b : List Int), a.length = b.length → toPoly a = toPoly b → mod2 a = mod2 b := by
  intro a
  induction a with
  | nil => intro b h _; cases b with
    | nil => rfl
    | cons => simp at h
  | cons x a ih =>
    intro b hl he
    cases b with
    | nil => simp at hl
    | cons y b =>
      have hl' : a.length = b.length := by simpa using hl
      have hc : ((x : Int) : ZMod 2) = y := by
        have h1 := congrArg (fun p => p.coeff a.length) he
        simp only [toPoly_cons, coeff_add, coeff_C_mul, coeff_X_pow, hl'] at h1
        rw [coeff_eq_zero_of_degree_lt (by rw [← hl']; exact toPoly_degree a), coeff_eq_zero_of_degree_lt (toPoly_degree b)] at h1
        simpa using h1
      have ht : toPoly a = toPoly b := by
        rw [toPoly_cons, toPoly_cons, hc, hl'] at he
        exact add_left_cancel he
      have hx : x % 2 = y % 2 := (ZMod.intCast_eq_intCast_iff x y 2).1 hc
      simp only [mod2, List.map_cons, hx] at ih ⊢
      rw [ih b hl' ht]

end SunPhy
