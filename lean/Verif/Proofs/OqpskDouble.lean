import Verif.Model.MrOqpskDouble
import Verif.Proofs.Float64
import Verif.Props.C105
import Mathlib.Analysis.SpecialFunctions.Trigonometric.Sinc
import Mathlib.Analysis.SpecialFunctions.Integrals.Basic
/-
The pulse of MR-O-QPSK in floating point.
-/
namespace SunPhy.C111
open SunPhy Spec C109

/-- A correctly rounded arithmetic whose results are its own roundings. -/
structure Arithmetic (rn : ℚ → ℚ) : Prop where
  rounding : Rounding rn
  idem : ∀ q, rn (rn q) = rn q
  neg : ∀ q, rn (-q) = -rn q
  one : rn 1 = 1

/-- Library functions for sine and cosine: absolute error at most `η`, and for the sine also relative to small arguments; the results are floating-point numbers. -/
structure Trig (rn sn cs : ℚ → ℚ) (η : ℝ) : Prop where
  sin : ∀ x : ℚ, |((sn x : ℚ) : ℝ) - Real.sin x| ≤ η
  sin_small : ∀ x : ℚ, |((sn x : ℚ) : ℝ) - Real.sin x| ≤ η * |(x : ℝ)|
  cos : ∀ x : ℚ, |((cs x : ℚ) : ℝ) - Real.cos x| ≤ η
  double : ∀ x : ℚ, rn (sn x) = sn x

theorem arithmetic_double : Arithmetic float64 := ⟨rounding_double, Float64.float64_idem, Float64.float64_neg, by decide +kernel⟩

/-! ### sinc -/

theorem sinc_integral (x : ℝ) : Real.sinc x = ∫ t in (0 : ℝ)..1, Real.cos (t * x) := by
  by_cases h : x = 0
  · simp [h]
  · rw [intervalIntegral.integral_comp_mul_right _ h, integral_cos, Real.sinc_of_ne_zero h]
    simp [div_eq_inv_mul]

theorem sinc_lip (x y : ℝ) : |Real.sinc x - Real.sinc y| ≤ |x - y| := by
  rw [sinc_integral, sinc_integral, ← intervalIntegral.integral_sub]
  · have := intervalIntegral.norm_integral_le_of_norm_le_const (a := (0 : ℝ)) (b := 1) (C := |x - y|) (f := fun t => Real.cos (t * x) - Real.cos (t * y)) (by
      intro t ht
      rw [Set.uIoc_of_le (by norm_num)] at ht
      rw [Real.norm_eq_abs]
      refine (Real.abs_cos_sub_cos_le _ _).trans ?_
      rw [← mul_sub, abs_mul, abs_of_pos ht.1]
      exact mul_le_of_le_one_left (abs_nonneg _) ht.2)
    simpa using this
  · exact (by fun_prop : Continuous fun t : ℝ => Real.cos (t * x)).intervalIntegrable _ _
  · exact (by fun_prop : Continuous fun t : ℝ => Real.cos (t * y)).intervalIntegrable _ _

/-! ### Relative errors -/

theorem u_small : u ≤ 1 / 10 ^ 15 := by unfold u; norm_num

theorem rel_pos {k : Nat} {x y : ℝ} (h : Rel k x y) (hk : k ≤ 20) (hy : 0 < y) : 0 < x := by
  unfold C109.Rel at h
  rw [abs_of_pos hy] at h
  have : (1 + u) ^ k - 1 ≤ 1 / 2 := by
    have h1 : (1 + u) ^ k ≤ (1 + u) ^ 20 := pow_le_pow_right₀ (by have := u_pos; linarith) hk
    have h2 : (1 + u) ^ 20 - 1 ≤ 1 / 2 := by unfold u; norm_num
    linarith
  have := mul_le_mul_of_nonneg_right this hy.le
  linarith [(abs_le.1 h).1]

theorem rel_inv {x y : ℝ} (h : Rel 1 x y) (hy : 0 < y) : Rel 2 x⁻¹ y⁻¹ := by
  have hx := rel_pos h (by norm_num) hy
  unfold C109.Rel at *
  rw [abs_of_pos hy] at h
  rw [abs_of_pos (inv_pos.2 hy), inv_sub_inv hx.ne' hy.ne', abs_div, abs_of_pos (mul_pos hx hy), div_le_iff₀ (mul_pos hx hy), abs_sub_comm]
  have hu := u_pos
  have hu1 := u_small
  have e : ((1 + u) ^ 2 - 1) * y⁻¹ * (x * y) = (2 * u + u ^ 2) * x := by field_simp; ring
  rw [e]
  rw [pow_one] at h
  have hl := (abs_le.1 h).1
  have : y * (1 - u) ≤ x := by linarith
  nlinarith [mul_pos hu hy]

/-- From a relative to an absolute error. -/
theorem rel_abs {k : Nat} {x y : ℝ} (h : Rel k x y) {c B : ℝ} (hc : (1 + u) ^ k - 1 ≤ c * u) (hB : |y| ≤ B) (hc0 : 0 ≤ c) : |x - y| ≤ c * u * B := by
  unfold C109.Rel at h
  exact h.trans (mul_le_mul hc hB (abs_nonneg _) (mul_nonneg hc0 u_pos.le))

theorem pow4 : (1 + u) ^ 4 - 1 ≤ 401 / 100 * u := by unfold u; norm_num
theorem pow3 : (1 + u) ^ 3 - 1 ≤ 301 / 100 * u := by unfold u; norm_num
theorem pow5 : (1 + u) ^ 5 - 1 ≤ 501 / 100 * u := by unfold u; norm_num
theorem pow9 : (1 + u) ^ 9 - 1 ≤ 901 / 100 * u := by unfold u; norm_num

/-- Position of sample `j` in units of `Tc`. -/
noncomputable def grid (sps j : Nat) : ℝ := -2 + 4 * (j : ℝ) / sps

theorem grid_bounds {sps j : Nat} (hj : j < sps) : -2 ≤ grid sps j ∧ grid sps j < 2 := by
  unfold grid
  have hs : (0 : ℝ) < sps := by exact_mod_cast (show 0 < sps by omega)
  have hj' : (j : ℝ) < sps := by exact_mod_cast hj
  have h1 : 0 ≤ 4 * (j : ℝ) / sps := by positivity
  have h2 : 4 * (j : ℝ) / sps < 4 := by rw [div_lt_iff₀ hs]; linarith
  constructor <;> linarith

/-- The instants of the pulse: 21 units of rounding. -/
theorem time_err {rn : ℚ → ℚ} (hrn : Rounding rn) (Tc : ℚ) (hT : 0 < Tc) {sps j : Nat} (hj : j < sps) :
    |((oqpskPulseTimeF rn Tc sps j : ℚ) : ℝ) - grid sps j * Tc| ≤ 21 * u * Tc := by
  have hT' : (0 : ℝ) < Tc := by exact_mod_cast hT
  have hs : (0 : ℝ) < sps := by exact_mod_cast (show 0 < sps by omega)
  have hu := u_pos
  have hu1 := u_small
  unfold oqpskPulseTimeF
  simp only
  have a1 : Rel 1 ((rn (-2 * Tc) : ℚ) : ℝ) (-2 * Tc) := by apply Rel.rn hrn; push_cast; exact Rel.refl _
  have a2 : Rel 1 ((rn (2 * Tc) : ℚ) : ℝ) (2 * Tc) := by apply Rel.rn hrn; push_cast; exact Rel.refl _
  generalize rn (-2 * Tc) = st at *
  generalize rn (2 * Tc) = sp at *
  have b1 : |(st : ℝ) - -2 * Tc| ≤ u * (2 * Tc) := by
    have := a1; unfold C109.Rel at this; rw [abs_mul, abs_of_pos hT'] at this; norm_num at this; norm_num; linarith
  have b2 : |(sp : ℝ) - 2 * Tc| ≤ u * (2 * Tc) := by
    have := a2; unfold C109.Rel at this; rw [abs_mul, abs_of_pos hT'] at this; norm_num at this; norm_num; linarith
  have c : Rel 1 ((sp - st : ℚ) : ℝ) (4 * Tc) := by
    unfold C109.Rel
    rw [abs_of_pos (show (0:ℝ) < 4 * Tc by positivity)]
    push_cast
    rw [abs_le] at b1 b2 ⊢
    constructor <;> linarith [b1.1, b1.2, b2.1, b2.2]
  have d : Rel 4 ((rn ((j : ℚ) * rn (rn (sp - st) / sps)) : ℚ) : ℝ) ((j : ℝ) * (4 * Tc * (1 / sps))) := by
    have d1 := c.rn hrn
    have d2 := d1.mul (Rel.refl (1 / (sps : ℝ)))
    have d3 : Rel 3 ((rn (rn (sp - st) / sps) : ℚ) : ℝ) (4 * Tc * (1 / sps)) := by
      apply Rel.rn hrn; push_cast; rw [div_eq_mul_one_div]; exact d2
    have d4 := (Rel.refl (j : ℝ)).mul d3
    exact Rel.rn hrn (by push_cast; simpa using d4)
  generalize rn ((j : ℚ) * rn (rn (sp - st) / sps)) = y at *
  obtain ⟨g1, g2⟩ := grid_bounds hj
  have hg : (j : ℝ) * (4 * Tc * (1 / sps)) = (grid sps j + 2) * Tc := by unfold grid; field_simp; ring
  rw [hg] at d
  have e : |(y : ℝ) - (grid sps j + 2) * Tc| ≤ 401 / 100 * u * (4 * Tc) := by
    refine rel_abs d pow4 ?_ (by norm_num)
    rw [abs_of_nonneg (mul_nonneg (by linarith) hT'.le)]
    exact mul_le_mul_of_nonneg_right (by linarith) hT'.le
  have f := rn_real hrn (y + st)
  push_cast at f
  have hs1 : |(y : ℝ) + st - grid sps j * Tc| ≤ 1804 / 100 * u * Tc := by
    rw [abs_le] at b1 e ⊢
    constructor <;> nlinarith [b1.1, b1.2, e.1, e.2, mul_pos hu hT']
  have hgT : |grid sps j * Tc| ≤ 2 * Tc := by
    rw [abs_mul, abs_of_pos hT']; exact mul_le_mul_of_nonneg_right (abs_le.2 ⟨g1, g2.le⟩) hT'.le
  have h2 : |(y : ℝ) + st| ≤ 21 / 10 * Tc := by
    have := abs_add_le ((y : ℝ) + st - grid sps j * Tc) (grid sps j * Tc)
    rw [sub_add_cancel] at this
    have h3 : 1804 / 100 * u * Tc ≤ 1 / 10 * Tc := mul_le_mul_of_nonneg_right (by linarith) hT'.le
    linarith
  have t := abs_add_le (((rn (y + st) : ℚ) : ℝ) - ((y : ℝ) + st)) ((y : ℝ) + st - grid sps j * Tc)
  rw [sub_add_sub_cancel] at t
  have : u * |(y : ℝ) + st| ≤ u * (21 / 10 * Tc) := mul_le_mul_of_nonneg_left h2 hu.le
  nlinarith [mul_pos hu hT']

/-! ### Half sine -/

theorem half_clamp (g : ℝ) : halfSinePulse g = Real.sin (Real.pi / 2 * max 0 (min g 2)) := by
  unfold halfSinePulse
  rcases lt_or_ge g 0 with h | h
  · rw [if_neg (by rintro ⟨a, -⟩; linarith), max_eq_left (le_trans (min_le_left _ _) h.le)]; simp
  · rcases le_or_gt g 2 with h2 | h2
    · rw [if_pos ⟨h, h2⟩, min_eq_left h2, max_eq_right h]; congr 1; ring
    · rw [if_neg (by rintro ⟨-, a⟩; linarith), min_eq_right h2.le, max_eq_right (by norm_num)]
      rw [show Real.pi / 2 * 2 = Real.pi by ring, Real.sin_pi]

theorem clamp_lip (x y : ℝ) : |max 0 (min x 2) - max 0 (min y 2)| ≤ |x - y| := by
  refine (abs_max_sub_max_le_max _ _ _ _).trans ?_
  rw [sub_self, abs_zero, max_eq_right (abs_nonneg _)]
  refine (abs_min_sub_min_le_max _ _ _ _).trans ?_
  rw [sub_self, abs_zero, max_eq_left (abs_nonneg _)]

theorem half_err {rn sn cs : ℚ → ℚ} {η : ℝ} (hrn : Rounding rn) (ht : Trig rn sn cs η) (Tc : ℚ) (hT : 0 < Tc) (t : ℚ) (g : ℝ)
    (hg : |(t : ℝ) - g * Tc| ≤ 21 * u * Tc) : |((halfSineF rn sn t Tc : ℚ) : ℝ) - halfSinePulse g| ≤ η + 80 * u := by
  have hT' : (0 : ℝ) < Tc := by exact_mod_cast hT
  have hu := u_pos
  have hu1 := u_small
  have hpi := Real.pi_lt_d2
  have hpi0 := Real.pi_pos
  have hη : 0 ≤ η := le_trans (abs_nonneg _) (ht.sin 0)
  obtain ⟨w, hw⟩ : ∃ w : ℝ, (t : ℝ) = w * Tc := ⟨t / Tc, by field_simp⟩
  have hwg : |w - g| ≤ 21 * u := by
    rw [hw, ← sub_mul, abs_mul, abs_of_pos hT'] at hg
    exact le_of_mul_le_mul_right hg hT'
  have a2 : Rel 1 ((rn (2 * Tc) : ℚ) : ℝ) (2 * Tc) := by apply Rel.rn hrn; push_cast; exact Rel.refl _
  have b2 : |((rn (2 * Tc) : ℚ) : ℝ) - 2 * Tc| ≤ 2 * u * Tc := by
    have := a2; unfold C109.Rel at this; rw [abs_mul, abs_of_pos hT'] at this; norm_num at this; linarith
  have hc := clamp_lip w g
  rw [half_clamp]
  unfold halfSineF
  split
  · rename_i h
    obtain ⟨h0, h2⟩ := h
    have h0' : 0 ≤ w := by
      have : (0 : ℝ) ≤ t := by exact_mod_cast h0
      rw [hw] at this; exact nonneg_of_mul_nonneg_left this hT'
    have h2' : w ≤ 2 + 2 * u := by
      have : (t : ℝ) ≤ ((rn (2 * Tc) : ℚ) : ℝ) := by exact_mod_cast h2
      have := (abs_le.1 b2).2
      have : w * Tc ≤ (2 + 2 * u) * Tc := by linarith
      exact le_of_mul_le_mul_right this hT'
    have hr : Rel 5 ((rn (rn (npPi * t) / rn (2 * Tc)) : ℚ) : ℝ) (Real.pi / 2 * w) := by
      have r1 : Rel 2 ((rn (npPi * t) : ℚ) : ℝ) (Real.pi * t) := by
        apply Rel.rn hrn; push_cast; exact pi_rel.mul (Rel.refl _)
      have r2 := r1.mul (rel_inv a2 (by positivity))
      have r3 : Rel 5 ((rn (rn (npPi * t) / rn (2 * Tc)) : ℚ) : ℝ) (Real.pi * t * (2 * (Tc : ℝ))⁻¹) := by
        apply Rel.rn hrn; push_cast; rw [div_eq_mul_inv]; exact r2
      rw [hw] at r3
      rwa [show Real.pi * (w * Tc) * (2 * (Tc : ℝ))⁻¹ = Real.pi / 2 * w by field_simp] at r3
    generalize rn (rn (npPi * t) / rn (2 * Tc)) = x at *
    have e1 : |(x : ℝ) - Real.pi / 2 * w| ≤ 501 / 100 * u * 4 := by
      refine rel_abs hr pow5 ?_ (by norm_num)
      rw [abs_of_nonneg (by positivity)]
      nlinarith
    have e2 : |w - max 0 (min w 2)| ≤ 2 * u := by
      rcases le_or_gt w 2 with h | h
      · rw [min_eq_left h, max_eq_right h0', sub_self, abs_zero]; linarith
      · rw [min_eq_right h.le, max_eq_right (by norm_num), abs_le]; constructor <;> linarith
    have e3 := ht.sin x
    have e4 := Real.abs_sin_sub_sin_le (x : ℝ) (Real.pi / 2 * max 0 (min g 2))
    have e5 : |(x : ℝ) - Real.pi / 2 * max 0 (min g 2)| ≤ 501 / 100 * u * 4 + Real.pi / 2 * (23 * u) := by
      have e : (x : ℝ) - Real.pi / 2 * max 0 (min g 2) = (x - Real.pi / 2 * w) + Real.pi / 2 * ((w - max 0 (min w 2)) + (max 0 (min w 2) - max 0 (min g 2))) := by ring
      rw [e]
      refine (abs_add_le _ _).trans (add_le_add e1 ?_)
      rw [abs_mul, abs_of_pos (by positivity)]
      refine mul_le_mul_of_nonneg_left ((abs_add_le _ _).trans ?_) (by positivity)
      linarith
    have t1 := abs_add_le (((sn x : ℚ) : ℝ) - Real.sin x) (Real.sin x - Real.sin (Real.pi / 2 * max 0 (min g 2)))
    rw [sub_add_sub_cancel] at t1
    have : Real.pi / 2 * (23 * u) ≤ 2 * (23 * u) := mul_le_mul_of_nonneg_right (by linarith) (by linarith)
    linarith
  · rename_i h
    have hval : |Real.sin (Real.pi / 2 * max 0 (min w 2))| ≤ 4 * u := by
      rcases lt_or_ge w 0 with h0 | h0
      · rw [max_eq_left (le_trans (min_le_left _ _) h0.le)]; simp; linarith
      · have ht0 : (0 : ℝ) ≤ t := by rw [hw]; positivity
        have h2 : ¬ t ≤ rn (2 * Tc) := fun h' => h ⟨by exact_mod_cast ht0, h'⟩
        have h2' : ((rn (2 * Tc) : ℚ) : ℝ) < t := by exact_mod_cast not_le.1 h2
        have hw2 : 2 - 2 * u ≤ w := by
          have := (abs_le.1 b2).1
          have : (2 - 2 * u) * Tc ≤ w * Tc := by rw [← hw]; linarith
          exact le_of_mul_le_mul_right this hT'
        have hm : |max 0 (min w 2) - 2| ≤ 2 * u := by
          rcases le_or_gt w 2 with h | h
          · rw [min_eq_left h, max_eq_right h0, abs_le]; constructor <;> linarith
          · rw [min_eq_right h.le, max_eq_right (by norm_num)]; simp; linarith
        have := Real.abs_sin_sub_sin_le (Real.pi / 2 * max 0 (min w 2)) Real.pi
        rw [Real.sin_pi, sub_zero] at this
        refine this.trans ?_
        rw [show Real.pi / 2 * max 0 (min w 2) - Real.pi = Real.pi / 2 * (max 0 (min w 2) - 2) by ring, abs_mul, abs_of_pos (by positivity)]
        nlinarith [abs_nonneg (max 0 (min w 2) - 2)]
    have e4 := Real.abs_sin_sub_sin_le (Real.pi / 2 * max 0 (min w 2)) (Real.pi / 2 * max 0 (min g 2))
    rw [← mul_sub, abs_mul, abs_of_pos (by positivity : (0:ℝ) < Real.pi / 2)] at e4
    have e5 : Real.pi / 2 * |max 0 (min w 2) - max 0 (min g 2)| ≤ 2 * (21 * u) := mul_le_mul (by linarith) (hc.trans hwg) (abs_nonneg _) (by norm_num)
    rw [Rat.cast_zero, zero_sub, abs_neg]
    have t1 := abs_add_le (Real.sin (Real.pi / 2 * max 0 (min g 2)) - Real.sin (Real.pi / 2 * max 0 (min w 2))) (Real.sin (Real.pi / 2 * max 0 (min w 2)))
    rw [sub_add_cancel, abs_sub_comm] at t1
    linarith

/-! ### Raised cosine -/

theorem raised_sinc (g : ℝ) : raisedCosinePulse g = Real.sinc (Real.pi * g) * Real.cos (4 / 5 * Real.pi * g) / (1 - (8 / 5 * g) ^ 2) := by
  unfold raisedCosinePulse
  split
  · rename_i h; subst h; simp
  · rename_i h
    rw [Real.sinc_of_ne_zero (mul_ne_zero Real.pi_ne_zero h), mul_div_assoc]

theorem rollOff_rel : C109.Rel 1 ((rollOff : ℚ) : ℝ) (4 / 5) := by
  unfold C109.Rel u rollOff
  norm_num [abs_le]

/-- Away from the singularities the denominator is at least `1/(5·sps)`. -/
theorem den_lower {sps j : Nat} (hj : j < sps) (h32 : ¬ 32 ∣ sps) : 1 / (5 * (sps : ℝ)) ≤ |1 - (8 / 5 * grid sps j) ^ 2| := by
  have hs : (0 : ℝ) < sps := by exact_mod_cast (show 0 < sps by omega)
  have e : 1 - (8 / 5 * grid sps j) ^ 2 = (((21 * sps : ℤ) - 32 * j : ℤ) : ℝ) * ((32 * j - 11 * sps : ℤ) : ℝ) / (25 * (sps : ℝ) ^ 2) := by
    unfold grid; push_cast; field_simp; ring
  have hA : (21 * sps : ℤ) - 32 * j ≠ 0 := by omega
  have hB : (32 * j : ℤ) - 11 * sps ≠ 0 := by omega
  have key : 5 * (sps : ℤ) ≤ |(21 * sps : ℤ) - 32 * j| * |(32 * j : ℤ) - 11 * sps| := by
    have h1 := Int.one_le_abs hA
    have h2 := Int.one_le_abs hB
    have h3 : 10 * (sps : ℤ) ≤ |(21 * sps : ℤ) - 32 * j| + |(32 * j : ℤ) - 11 * sps| := by
      have := abs_add_le ((21 * sps : ℤ) - 32 * j) ((32 * j : ℤ) - 11 * sps)
      rw [show (21 * sps : ℤ) - 32 * j + ((32 * j : ℤ) - 11 * sps) = 10 * sps by ring, abs_of_nonneg (by positivity)] at this
      exact this
    rcases le_total (5 * (sps : ℤ)) |(21 * sps : ℤ) - 32 * j| with h | h
    · nlinarith
    · nlinarith
  have keyR : 5 * (sps : ℝ) ≤ |(((21 * sps : ℤ) - 32 * j : ℤ) : ℝ)| * |((32 * j - 11 * sps : ℤ) : ℝ)| := by exact_mod_cast key
  rw [e, abs_div, abs_mul, abs_of_pos (show (0:ℝ) < 25 * (sps : ℝ) ^ 2 by positivity), div_le_div_iff₀ (by positivity) (by positivity)]
  nlinarith

theorem prod_err {S C s c P η : ℝ} (hη : 0 ≤ η) (hη1 : η ≤ 1 / 100) (hsb : |s| ≤ 1) (hcb : |c| ≤ 1) (hS : |S - s| ≤ 102 / 100 * η + 95 * u) (hC : |C - c| ≤ η + 85 * u)
    (hP : |P - S * C| ≤ u * |S * C|) : |P - s * c| ≤ 21 / 10 * η + 187 * u := by
  have hu := u_pos
  have hu1 := u_small
  have p1 : |S * C - s * c| ≤ 21 / 10 * η + 185 * u := by
    have e : S * C - s * c = (S - s) * (C - c) + (S - s) * c + s * (C - c) := by ring
    rw [e]
    have x1 : |(S - s) * (C - c)| ≤ (102 / 100 * η + 95 * u) * (2 / 100) := by
      rw [abs_mul]; exact mul_le_mul hS (hC.trans (by linarith)) (abs_nonneg _) (by linarith)
    have x2 : |(S - s) * c| ≤ (102 / 100 * η + 95 * u) * 1 := by
      rw [abs_mul]; exact mul_le_mul hS hcb (abs_nonneg _) (by linarith)
    have x3 : |s * (C - c)| ≤ 1 * (η + 85 * u) := by
      rw [abs_mul]; exact mul_le_mul hsb hC (abs_nonneg _) (by norm_num)
    have t1 := abs_add_le ((S - s) * (C - c) + (S - s) * c) (s * (C - c))
    have t2 := abs_add_le ((S - s) * (C - c)) ((S - s) * c)
    linarith
  have sc : |s * c| ≤ 1 := by rw [abs_mul]; exact mul_le_one₀ hsb (abs_nonneg _) hcb
  have h3 : |S * C| ≤ 11 / 10 := by
    have := abs_add_le (S * C - s * c) (s * c)
    rw [sub_add_cancel] at this
    linarith
  have t1 := abs_add_le (P - S * C) (S * C - s * c)
  rw [sub_add_sub_cancel] at t1
  have : u * |S * C| ≤ u * (11 / 10) := mul_le_mul_of_nonneg_left h3 hu.le
  linarith

theorem quot_err {s c D P d v η : ℝ} {sps : Nat} (hs1 : 1 ≤ (sps : ℝ)) (hs2 : (sps : ℝ) ≤ 2 ^ 30) (hη : 0 ≤ η) (hsb : |s| ≤ 1) (hfac : |c / D| ≤ 1)
    (hD : 1 / (5 * (sps : ℝ)) ≤ |D|) (hP : |P - s * c| ≤ 21 / 10 * η + 187 * u) (hd : |d - D| ≤ 330 * u) (hv : |v - P / d| ≤ u * |P / d|) :
    d ≠ 0 ∧ |v - s * c / D| ≤ sps * (13 * η + 5 / 10 ^ 13) := by
  have hs : (0 : ℝ) < sps := by linarith
  have hu := u_pos
  have hu1 := u_small
  have hDpos : 0 < |D| := lt_of_lt_of_le (by positivity) hD
  have hD0 : D ≠ 0 := abs_pos.1 hDpos
  have hi : 330 * u ≤ 1 / (30 * (sps : ℝ)) := by
    rw [le_div_iff₀ (by positivity)]
    have : 330 * u * (30 * (sps : ℝ)) ≤ 330 * u * (30 * 2 ^ 30) := by
      apply mul_le_mul_of_nonneg_left _ (by linarith); linarith
    refine this.trans ?_
    unfold u; norm_num
  have hdl : 1 / (6 * (sps : ℝ)) ≤ |d| := by
    have h1 := abs_sub_abs_le_abs_sub D d
    rw [abs_sub_comm] at h1
    have : 1 / (5 * (sps : ℝ)) - 1 / (30 * sps) = 1 / (6 * sps) := by field_simp; norm_num
    linarith
  have hdpos : 0 < |d| := lt_of_lt_of_le (by positivity) hdl
  have hd0 : d ≠ 0 := abs_pos.1 hdpos
  refine ⟨hd0, ?_⟩
  have sD : |s * c / D| ≤ 1 := by
    rw [mul_div_assoc, abs_mul]; exact mul_le_one₀ hsb (abs_nonneg _) hfac
  have q1 : |P / d - s * c / D| ≤ 6 * sps * (21 / 10 * η + 520 * u) := by
    have e : P / d - s * c / D = ((P - s * c) + s * c / D * (D - d)) / d := by field_simp; ring
    rw [e, abs_div, div_le_iff₀ hdpos]
    have x1 : |s * c / D * (D - d)| ≤ 1 * (330 * u) := by
      rw [abs_mul]; exact mul_le_mul sD (by rw [abs_sub_comm]; exact hd) (abs_nonneg _) (by norm_num)
    have t1 := abs_add_le (P - s * c) (s * c / D * (D - d))
    have h1 : 1 ≤ 6 * sps * |d| := by
      have := mul_le_mul_of_nonneg_left hdl (show (0:ℝ) ≤ 6 * sps by positivity)
      rwa [mul_one_div_cancel (by positivity)] at this
    have h2 : 0 ≤ 21 / 10 * η + 520 * u := by linarith
    have := mul_le_mul_of_nonneg_right h1 h2
    linarith
  have t0 := abs_add_le (P / d - s * c / D) (s * c / D)
  rw [sub_add_cancel] at t0
  have t1 := abs_add_le (v - P / d) (P / d - s * c / D)
  rw [sub_add_sub_cancel] at t1
  have h5 : u * |P / d| ≤ u * (6 * sps * (21 / 10 * η + 520 * u) + 1) := mul_le_mul_of_nonneg_left (by linarith) hu.le
  have h6 : u * (6 * sps * (21 / 10 * η + 520 * u) + 1) ≤ sps * (1 / 10 * η + 2 * u) := by
    have y1 : u * (6 * sps * (21 / 10 * η)) ≤ sps * (1 / 10 * η) := by
      have : u * (6 * (21 / 10)) ≤ 1 / 10 := by linarith
      have := mul_le_mul_of_nonneg_right this (mul_nonneg hs.le hη)
      linarith
    have y2 : u * (6 * sps * (520 * u)) ≤ sps * u := by
      have : u * (6 * 520) ≤ 1 := by linarith
      have := mul_le_mul_of_nonneg_right this (mul_nonneg hs.le hu.le)
      linarith
    have y3 : u * 1 ≤ sps * u := by nlinarith
    linarith
  have h7 : 6 * sps * (21 / 10 * η + 520 * u) + sps * (1 / 10 * η + 2 * u) ≤ sps * (13 * η + 5 / 10 ^ 13) := by
    have : 6 * (21 / 10 * η + 520 * u) + (1 / 10 * η + 2 * u) ≤ 13 * η + 5 / 10 ^ 13 := by
      have : 3122 * u ≤ 5 / 10 ^ 13 := by unfold u; norm_num
      linarith
    have := mul_le_mul_of_nonneg_left this hs.le
    linarith
  linarith

theorem rn_zero {rn : ℚ → ℚ} (hrn : Rounding rn) : rn 0 = 0 := by
  have := hrn 0
  simp at this
  exact this

theorem rn_ne {rn : ℚ → ℚ} (hrn : Rounding rn) {q : ℚ} (hq : q ≠ 0) : rn q ≠ 0 := by
  intro h
  have := hrn q
  rw [h, zero_sub, abs_neg] at this
  have h0 : 0 < |q| := abs_pos.2 hq
  have h2 : |q| / 2 ^ 53 < |q| := by rw [div_lt_iff₀ (by norm_num)]; linarith
  linarith

theorem phase_rel' {rn : ℚ → ℚ} (hrn : Rounding rn) {t Tc : ℚ} {w : ℝ} (hT : 0 < (Tc : ℝ)) (hw : (t : ℝ) = w * Tc) : C109.Rel 3 ((rcPhase rn t Tc : ℚ) : ℝ) (Real.pi * w) := by
  have r1 : C109.Rel 2 ((rn (npPi * t) : ℚ) : ℝ) (Real.pi * t) := by
    apply Rel.rn hrn; push_cast; exact pi_rel.mul (Rel.refl _)
  have r2 := r1.mul (Rel.refl ((Tc : ℝ)⁻¹))
  have r3 : C109.Rel 3 ((rcPhase rn t Tc : ℚ) : ℝ) (Real.pi * t * (Tc : ℝ)⁻¹) := by
    unfold rcPhase; apply Rel.rn hrn; push_cast; rw [div_eq_mul_inv]; exact r2
  rw [hw] at r3
  rwa [show Real.pi * (w * Tc) * (Tc : ℝ)⁻¹ = Real.pi * w by field_simp] at r3

theorem phase2_rel {rn : ℚ → ℚ} (hrn : Rounding rn) {t Tc : ℚ} {w : ℝ} (hT : 0 < (Tc : ℝ)) (hw : (t : ℝ) = w * Tc) :
    C109.Rel 5 ((rcPhase2 rn t Tc : ℚ) : ℝ) (4 / 5 * Real.pi * w) := by
  have r0 : C109.Rel 3 ((rn (rollOff * npPi) : ℚ) : ℝ) (4 / 5 * Real.pi) := by
    apply Rel.rn hrn; push_cast; exact rollOff_rel.mul pi_rel
  have r1 : C109.Rel 4 ((rn (rn (rollOff * npPi) * t) : ℚ) : ℝ) (4 / 5 * Real.pi * t) := by
    apply Rel.rn hrn; push_cast; exact r0.mul (Rel.refl _)
  have r2 := r1.mul (Rel.refl ((Tc : ℝ)⁻¹))
  have r3 : C109.Rel 5 ((rcPhase2 rn t Tc : ℚ) : ℝ) (4 / 5 * Real.pi * t * (Tc : ℝ)⁻¹) := by
    unfold rcPhase2; apply Rel.rn hrn; push_cast; rw [div_eq_mul_inv]; exact r2
  rw [hw] at r3
  rwa [show 4 / 5 * Real.pi * (w * Tc) * (Tc : ℝ)⁻¹ = 4 / 5 * Real.pi * w by field_simp] at r3

theorem den_err {rn : ℚ → ℚ} (hrn : Rounding rn) {t Tc : ℚ} {w g : ℝ} (hT : 0 < (Tc : ℝ)) (hw : (t : ℝ) = w * Tc) (hwb : |w| ≤ 201 / 100) (hgb : |g| ≤ 2)
    (hwg : |w - g| ≤ 21 * u) : |((rcDenominator rn t Tc : ℚ) : ℝ) - (1 - (8 / 5 * g) ^ 2)| ≤ 330 * u := by
  have hu := u_pos
  have hu1 := u_small
  have r0 : C109.Rel 4 ((rn (4 * rn (rollOff ^ 2)) : ℚ) : ℝ) (4 * (4 / 5 * (4 / 5))) := by
    have x1 : C109.Rel 3 ((rn (rollOff ^ 2) : ℚ) : ℝ) (4 / 5 * (4 / 5)) := by
      apply Rel.rn hrn; push_cast; rw [sq]; exact rollOff_rel.mul rollOff_rel
    have x2 := (Rel.refl 4).mul x1
    exact Rel.rn hrn (by push_cast; simpa using x2)
  have r1 : C109.Rel 1 ((rn (t ^ 2) : ℚ) : ℝ) ((w * Tc) ^ 2) := by
    apply Rel.rn hrn; push_cast; rw [hw]; exact Rel.refl _
  have r2 : C109.Rel 6 ((rn (rn (4 * rn (rollOff ^ 2)) * rn (t ^ 2)) : ℚ) : ℝ) (4 * (4 / 5 * (4 / 5)) * (w * Tc) ^ 2) := by
    apply Rel.rn hrn; push_cast; exact r0.mul r1
  have r3 : C109.Rel 1 ((rn (Tc ^ 2) : ℚ) : ℝ) ((Tc : ℝ) ^ 2) := by
    apply Rel.rn hrn; push_cast; exact Rel.refl _
  have r4 : C109.Rel 9 ((rn (rn (rn (4 * rn (rollOff ^ 2)) * rn (t ^ 2)) / rn (Tc ^ 2)) : ℚ) : ℝ) (4 * (4 / 5 * (4 / 5)) * (w * Tc) ^ 2 * ((Tc : ℝ) ^ 2)⁻¹) := by
    apply Rel.rn hrn; push_cast; rw [div_eq_mul_inv]; exact r2.mul (rel_inv r3 (by positivity))
  rw [show 4 * (4 / 5 * (4 / 5)) * (w * Tc) ^ 2 * ((Tc : ℝ) ^ 2)⁻¹ = 64 / 25 * w ^ 2 by field_simp; ring] at r4
  unfold rcDenominator
  generalize rn (rn (rn (4 * rn (rollOff ^ 2)) * rn (t ^ 2)) / rn (Tc ^ 2)) = q at *
  obtain ⟨a1, a2⟩ := abs_le.1 hwb
  have hw2 : w ^ 2 ≤ 405 / 100 := by nlinarith
  have e1 : |(q : ℝ) - 64 / 25 * w ^ 2| ≤ 901 / 100 * u * (104 / 10) := by
    refine rel_abs r4 pow9 ?_ (by norm_num)
    rw [abs_of_nonneg (by positivity)]; linarith
  have e2 : |w ^ 2 - g ^ 2| ≤ 21 * u * (402 / 100) := by
    rw [show w ^ 2 - g ^ 2 = (w - g) * (w + g) by ring, abs_mul]
    refine mul_le_mul hwg ((abs_add_le _ _).trans (by linarith)) (abs_nonneg _) (by linarith)
  have e3 : |(q : ℝ) - (8 / 5 * g) ^ 2| ≤ 311 * u := by
    have e : (q : ℝ) - (8 / 5 * g) ^ 2 = (q - 64 / 25 * w ^ 2) + 64 / 25 * (w ^ 2 - g ^ 2) := by ring
    rw [e]
    have t1 := abs_add_le ((q : ℝ) - 64 / 25 * w ^ 2) (64 / 25 * (w ^ 2 - g ^ 2))
    rw [abs_mul, abs_of_pos (by norm_num : (0:ℝ) < 64 / 25)] at t1
    linarith
  have f := rn_real hrn (1 - q)
  push_cast at f
  have hb : |1 - (q : ℝ)| ≤ 12 := by
    have hgg : (8 / 5 * g) ^ 2 ≤ 1024 / 100 := by
      obtain ⟨b1, b2⟩ := abs_le.1 hgb
      nlinarith
    have := sq_nonneg (8 / 5 * g)
    obtain ⟨c1, c2⟩ := abs_le.1 e3
    rw [abs_le]; constructor <;> linarith
  have t1 := abs_add_le (((rn (1 - q) : ℚ) : ℝ) - (1 - q)) ((1 - (q : ℝ)) - (1 - (8 / 5 * g) ^ 2))
  rw [sub_add_sub_cancel] at t1
  rw [show (1 - (q : ℝ)) - (1 - (8 / 5 * g) ^ 2) = -((q : ℝ) - (8 / 5 * g) ^ 2) by ring, abs_neg] at t1
  have : u * |1 - (q : ℝ)| ≤ u * 12 := mul_le_mul_of_nonneg_left hb hu.le
  linarith

theorem raised_err {rn sn cs : ℚ → ℚ} {η : ℝ} (hrn : Rounding rn) (ht : Trig rn sn cs η) (hη1 : η ≤ 1 / 100) (Tc : ℚ) (hT : 0 < Tc) (t : ℚ) (sps j : Nat) (hj : j < sps)
    (h32 : ¬ 32 ∣ sps) (hsps : sps ≤ 2 ^ 30) (hg : |(t : ℝ) - grid sps j * Tc| ≤ 21 * u * Tc) :
    ∃ q, raisedCosineF rn sn cs t Tc = some q ∧ (q = 1 ∨ ∃ x, q = rn x) ∧ |((q : ℚ) : ℝ) - raisedCosinePulse (grid sps j)| ≤ sps * (13 * η + 5 / 10 ^ 13) := by
  have hT' : (0 : ℝ) < Tc := by exact_mod_cast hT
  have hs1 : (1 : ℝ) ≤ sps := by exact_mod_cast (show 1 ≤ sps by omega)
  have hs2 : (sps : ℝ) ≤ 2 ^ 30 := by exact_mod_cast hsps
  have hu := u_pos
  have hu1 := u_small
  have hpi := Real.pi_lt_d2
  have hpi0 := Real.pi_pos
  have hη : 0 ≤ η := le_trans (abs_nonneg _) (ht.sin 0)
  obtain ⟨g1, g2⟩ := grid_bounds hj
  have hD := den_lower hj h32
  have hfac := C105.factor_le (8 / 5 * grid sps j)
  rw [raised_sinc]
  generalize grid sps j = g at *
  rw [show Real.pi / 2 * (8 / 5 * g) = 4 / 5 * Real.pi * g by ring] at hfac
  obtain ⟨w, hw⟩ : ∃ w : ℝ, (t : ℝ) = w * Tc := ⟨t / Tc, by field_simp⟩
  have hwg : |w - g| ≤ 21 * u := by
    rw [hw, ← sub_mul, abs_mul, abs_of_pos hT'] at hg
    exact le_of_mul_le_mul_right hg hT'
  have hgb : |g| ≤ 2 := abs_le.2 ⟨g1, g2.le⟩
  have hwb : |w| ≤ 201 / 100 := by
    have := abs_add_le (w - g) g
    rw [sub_add_cancel] at this
    linarith
  have hsb := Real.abs_sinc_le_one (Real.pi * g)
  have hcb := Real.abs_cos_le_one (4 / 5 * Real.pi * g)
  by_cases h0 : t = 0
  · have hw0 : w = 0 := by
      rw [h0, Rat.cast_zero] at hw
      exact (mul_eq_zero.1 hw.symm).resolve_right hT'.ne'
    rw [hw0] at hwg
    have hgs : |g| ≤ 21 * u := by rwa [zero_sub, abs_neg] at hwg
    have hsS : |1 - Real.sinc (Real.pi * g)| ≤ 102 / 100 * η + 95 * u := by
      have := sinc_lip 0 (Real.pi * g)
      rw [Real.sinc_zero, zero_sub, abs_neg, abs_mul, abs_of_pos hpi0] at this
      have h1 : Real.pi * |g| ≤ 3.15 * (21 * u) := mul_le_mul hpi.le hgs (abs_nonneg _) (by norm_num)
      linarith
    have hsC : |1 - Real.cos (4 / 5 * Real.pi * g)| ≤ η + 85 * u := by
      have := Real.abs_cos_sub_cos_le 0 (4 / 5 * Real.pi * g)
      rw [Real.cos_zero, zero_sub, abs_neg, mul_assoc, abs_mul, abs_mul, abs_of_pos hpi0] at this
      have h1 : Real.pi * |g| ≤ 3.15 * (21 * u) := mul_le_mul hpi.le hgs (abs_nonneg _) (by norm_num)
      have h2 : |(4 / 5 : ℝ)| = 4 / 5 := abs_of_pos (by norm_num)
      rw [h2, ← mul_assoc] at this
      linarith
    have hsd : |1 - (1 - (8 / 5 * g) ^ 2)| ≤ 330 * u := by
      rw [show 1 - (1 - (8 / 5 * g) ^ 2) = 64 / 25 * |g| ^ 2 by rw [sq_abs]; ring, abs_of_nonneg (by positivity)]
      have : |g| ^ 2 ≤ 21 * u * 2 := by rw [sq]; exact mul_le_mul hgs hgb (abs_nonneg _) (by linarith)
      linarith
    have hP := prod_err (P := 1) hη hη1 hsb hcb hsS hsC (by simp; linarith)
    have := (quot_err (v := 1) hs1 hs2 hη hsb hfac hD hP hsd (by simp; linarith)).2
    refine ⟨1, by unfold raisedCosineF; rw [if_pos h0], Or.inl rfl, ?_⟩
    push_cast
    exact this
  · have hx := phase_rel' hrn hT' hw
    have hy := phase2_rel hrn hT' hw
    have hd := den_err hrn hT' hw hwb hgb hwg
    have hx0 : rcPhase rn t Tc ≠ 0 := by
      have hp : npPi ≠ 0 := by unfold npPi; norm_num
      exact rn_ne hrn (div_ne_zero (rn_ne hrn (mul_ne_zero hp h0)) hT.ne')
    unfold raisedCosineF
    rw [if_neg h0]
    generalize rcPhase rn t Tc = x at *
    generalize rcPhase2 rn t Tc = y at *
    generalize rcDenominator rn t Tc = d at *
    have hxR : (x : ℝ) ≠ 0 := by exact_mod_cast hx0
    have x1 : |(x : ℝ) - Real.pi * g| ≤ 90 * u := by
      have a := rel_abs hx pow3 (B := 6.34) (by rw [abs_mul, abs_of_pos hpi0]; exact (mul_le_mul hpi.le hwb (abs_nonneg _) (by norm_num)).trans (by norm_num)) (by norm_num)
      have b := abs_add_le ((x : ℝ) - Real.pi * w) (Real.pi * w - Real.pi * g)
      rw [sub_add_sub_cancel, ← mul_sub, abs_mul, abs_of_pos hpi0] at b
      have c : Real.pi * |w - g| ≤ 3.15 * (21 * u) := mul_le_mul hpi.le hwg (abs_nonneg _) (by norm_num)
      linarith
    have y1 : |(y : ℝ) - 4 / 5 * Real.pi * g| ≤ 85 * u := by
      have hk : 4 / 5 * Real.pi ≤ 2.52 := by linarith
      have hk0 : (0 : ℝ) < 4 / 5 * Real.pi := by positivity
      have a := rel_abs hy pow5 (B := 5.1) (by rw [abs_mul, abs_of_pos hk0]; exact (mul_le_mul hk hwb (abs_nonneg _) (by norm_num)).trans (by norm_num)) (by norm_num)
      have b := abs_add_le ((y : ℝ) - 4 / 5 * Real.pi * w) (4 / 5 * Real.pi * w - 4 / 5 * Real.pi * g)
      rw [sub_add_sub_cancel, ← mul_sub, abs_mul, abs_of_pos hk0] at b
      have c : 4 / 5 * Real.pi * |w - g| ≤ 2.52 * (21 * u) := mul_le_mul hk hwg (abs_nonneg _) (by norm_num)
      linarith
    have hsS : |((rn (sn x / x) : ℚ) : ℝ) - Real.sinc (Real.pi * g)| ≤ 102 / 100 * η + 95 * u := by
      have a : |((sn x / x : ℚ) : ℝ) - Real.sinc x| ≤ η := by
        push_cast
        rw [Real.sinc_of_ne_zero hxR, ← sub_div, abs_div, div_le_iff₀ (abs_pos.2 hxR)]
        exact ht.sin_small x
      have b := sinc_lip x (Real.pi * g)
      have c := rn_real hrn (sn x / x)
      have s1 := Real.abs_sinc_le_one (x : ℝ)
      have d1 := abs_add_le (((sn x / x : ℚ) : ℝ) - Real.sinc x) (Real.sinc x)
      rw [sub_add_cancel] at d1
      have d2 : u * |((sn x / x : ℚ) : ℝ)| ≤ u * (η + 1) := mul_le_mul_of_nonneg_left (by linarith) hu.le
      have d3 := abs_add_le (((rn (sn x / x) : ℚ) : ℝ) - ((sn x / x : ℚ) : ℝ)) ((((sn x / x : ℚ) : ℝ) - Real.sinc x) + (Real.sinc x - Real.sinc (Real.pi * g)))
      have d4 := abs_add_le (((sn x / x : ℚ) : ℝ) - Real.sinc x) (Real.sinc x - Real.sinc (Real.pi * g))
      rw [sub_add_sub_cancel] at d4
      rw [sub_add_sub_cancel, sub_add_sub_cancel] at d3
      have d5 : u * η ≤ 1 / 100 * η := mul_le_mul_of_nonneg_right (by linarith) hη
      linarith
    have hsC : |((cs y : ℚ) : ℝ) - Real.cos (4 / 5 * Real.pi * g)| ≤ η + 85 * u := by
      have a := ht.cos y
      have b := Real.abs_cos_sub_cos_le (y : ℝ) (4 / 5 * Real.pi * g)
      have c := abs_add_le (((cs y : ℚ) : ℝ) - Real.cos y) (Real.cos y - Real.cos (4 / 5 * Real.pi * g))
      rw [sub_add_sub_cancel] at c
      linarith
    have hP := prod_err (P := ((rn (rn (sn x / x) * cs y) : ℚ) : ℝ)) hη hη1 hsb hcb hsS hsC (by have := rn_real hrn (rn (sn x / x) * cs y); push_cast at this; exact this)
    obtain ⟨q1, q2⟩ := quot_err (v := ((rn (rn (rn (sn x / x) * cs y) / d) : ℚ) : ℝ)) hs1 hs2 hη hsb hfac hD hP hd
      (by have := rn_real hrn (rn (rn (sn x / x) * cs y) / d); push_cast at this; exact this)
    refine ⟨rn (rn (rn (sn x / x) * cs y) / d), ?_, Or.inr ⟨_, rfl⟩, q2⟩
    have hd0 : d ≠ 0 := by exact_mod_cast q1
    simp only [Fl.div, Fl.mul, hx0, hd0, if_false]

end SunPhy.C111
