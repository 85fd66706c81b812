import Verif.Spec.OfdmCarrier
import Verif.Proofs.OfdmSyncBound
import Mathlib.Analysis.Real.Pi.Bounds
/-
Measuring an angle in noise.
-/
namespace SunPhy.Carrier
open SunPhy Complex SyncCheck
noncomputable section

/-- The angle of a number near 1. -/
theorem arg_small (w : ℂ) (ρ : ℝ) (hρ : ρ < 1) (h : ‖w - 1‖ ≤ ρ) : |arg w| ≤ 16 / 9 * ρ := by
  have hre : 0 < w.re := by
    have := (abs_re_le_norm (w - 1)).trans h
    rw [sub_re, one_re] at this
    linarith [(abs_le.1 this).1]
  have hw : w ≠ 0 := by intro e; rw [e] at hre; simp at hre
  have hn : 0 < ‖w‖ := norm_pos_iff.2 hw
  have hs : |Real.sin (arg w)| ≤ ρ := by
    rw [Complex.sin_arg, abs_div, abs_of_pos hn, div_le_iff₀ hn]
    have e : w.im = -((starRingEnd ℂ) w * (1 - w)).im := by
      simp [mul_im, sub_im, sub_re]; ring
    rw [e, abs_neg]
    refine (abs_im_le_norm _).trans ?_
    rw [norm_mul, Complex.norm_conj, mul_comm, norm_sub_rev]
    exact mul_le_mul_of_nonneg_right h hn.le
  have ha : |arg w| ≤ Real.pi / 2 := Complex.abs_arg_le_pi_div_two_iff.2 hre.le
  have hm := Real.mul_le_sin (abs_nonneg (arg w)) ha
  have hse : Real.sin |arg w| = |Real.sin (arg w)| := by
    rcases le_total 0 (arg w) with h0 | h0
    · rw [abs_of_nonneg h0, abs_of_nonneg (Real.sin_nonneg_of_nonneg_of_le_pi h0 (by have := arg_le_pi w; exact this))]
    · rw [abs_of_nonpos h0, Real.sin_neg, abs_of_nonpos (Real.sin_nonpos_of_nonpos_of_neg_pi_le h0 (neg_pi_lt_arg w).le)]
  rw [hse] at hm
  have hp := Real.pi_pos
  have hp2 : Real.pi ≤ 32 / 9 := by have := Real.pi_lt_d2; linarith
  have h1 : |arg w| ≤ Real.pi / 2 * ρ := by
    have : 2 / Real.pi * |arg w| ≤ ρ := hm.trans hs
    have := mul_le_mul_of_nonneg_left this (show 0 ≤ Real.pi / 2 by positivity)
    rw [← mul_assoc] at this
    rwa [show Real.pi / 2 * (2 / Real.pi) = 1 by field_simp, one_mul] at this
  have h0 : 0 ≤ ρ := (norm_nonneg _).trans h
  refine h1.trans ?_
  nlinarith

/-- Adding angles. -/
theorem arg_turn (G φ : ℝ) (hG : 0 < G) (w : ℂ) (hw : w ≠ 0) (h : |φ| + |arg w| < Real.pi) : arg (G * (exp (I * (φ : ℝ)) * w)) = φ + arg w := by
  have hn : 0 < ‖w‖ := norm_pos_iff.2 hw
  have e : (G : ℂ) * (exp (I * (φ : ℝ)) * w) = ((G * ‖w‖ : ℝ) : ℂ) * (Complex.cos ((φ + arg w : ℝ) : ℂ) + Complex.sin ((φ + arg w : ℝ) : ℂ) * I) := by
    rw [← Complex.exp_mul_I]
    conv_lhs => rw [← Complex.norm_mul_exp_arg_mul_I w]
    push_cast
    rw [add_mul, Complex.exp_add]
    rw [mul_comm I (φ : ℂ)]
    ring
  rw [e, Complex.arg_mul_cos_add_sin_mul_I (by positivity)]
  have a := abs_lt.1 (lt_of_le_of_lt (abs_add_le φ (arg w)) h)
  exact ⟨a.1, a.2.le⟩

/-- Two noisy copies of `N` samples, the second turned by `φ`: the angle between them. -/
theorem measure (N : Nat) (t n1 n2 : Nat → ℂ) (φ g ε : ℝ) (hg : 0 < g) (hε : 0 ≤ ε) (h4 : 4 * ε ≤ g)
    (hG : g ^ 2 ≤ ∑ k ∈ Finset.range N, ‖t k‖ ^ 2) (h1 : ∑ k ∈ Finset.range N, ‖n1 k‖ ^ 2 ≤ ε ^ 2) (h2 : ∑ k ∈ Finset.range N, ‖n2 k‖ ^ 2 ≤ ε ^ 2)
    (hφ : |φ| + 4 * (ε / g) < Real.pi) (a b : Nat → ℂ) (v : Nat → ℂ) (hv : ∀ k, ‖v k‖ = 1)
    (ha : ∀ k < N, a k = v k * t k + n1 k) (hb : ∀ k < N, b k = exp (I * (φ : ℝ)) * (v k * t k) + n2 k) :
    |arg (∑ k ∈ Finset.range N, b k * (starRingEnd ℂ) (a k)) - φ| ≤ 4 * (ε / g) := by
  set G := Real.sqrt (∑ k ∈ Finset.range N, ‖t k‖ ^ 2) with hGd
  have hG2 : G ^ 2 = ∑ k ∈ Finset.range N, ‖t k‖ ^ 2 := Real.sq_sqrt (Finset.sum_nonneg fun _ _ => sq_nonneg _)
  have hgG : g ≤ G := by
    have h0 : 0 ≤ G := Real.sqrt_nonneg _
    by_contra hc; push Not at hc; nlinarith
  have hGp : 0 < G := lt_of_lt_of_le hg hgG
  set e : ℂ := exp (I * (φ : ℝ)) with he
  have hen : ‖e‖ = 1 := by rw [he, mul_comm]; exact Complex.norm_exp_ofReal_mul_I φ
  let T := vec N fun k => v k * t k
  let A := vec N n1
  let B := vec N n2
  have hT : ‖T‖ = G := by
    have : ‖T‖ ^ 2 = G ^ 2 := by
      rw [vec_norm, hG2]
      exact Finset.sum_congr rfl fun k _ => by rw [norm_mul, hv, one_mul]
    exact (pow_left_inj₀ (norm_nonneg _) hGp.le two_ne_zero).1 this
  have hA : ‖A‖ ≤ ε := by
    have : ‖A‖ ^ 2 ≤ ε ^ 2 := by rw [vec_norm]; exact h1
    exact (pow_le_pow_iff_left₀ (norm_nonneg _) hε two_ne_zero).1 this
  have hB : ‖B‖ ≤ ε := by
    have : ‖B‖ ^ 2 ≤ ε ^ 2 := by rw [vec_norm]; exact h2
    exact (pow_le_pow_iff_left₀ (norm_nonneg _) hε two_ne_zero).1 this
  have hS : ∑ k ∈ Finset.range N, b k * (starRingEnd ℂ) (a k) = inner ℂ (T + A) (e • T + B) := by
    have e1 : T + A = vec N fun k => v k * t k + n1 k := rfl
    have e2 : e • T + B = vec N fun k => e * (v k * t k) + n2 k := rfl
    rw [e1, e2, vec_inner]
    exact Finset.sum_congr rfl fun k hk => by rw [ha k (Finset.mem_range.1 hk), hb k (Finset.mem_range.1 hk)]
  rw [hS]
  set X := inner ℂ (T + A) (e • T + B) with hX
  have herr : ‖X - e * (G ^ 2 : ℝ)‖ ≤ 2 * G * ε + ε ^ 2 := by
    have ex : X - e * (G ^ 2 : ℝ) = inner ℂ T B + e * inner ℂ A T + inner ℂ A B := by
      rw [hX, inner_add_left, inner_add_right, inner_add_right, inner_smul_right, inner_smul_right, inner_self_eq_norm_sq_to_K, hT]
      push_cast
      simp only [RCLike.ofReal, Complex.coe_algebraMap]
      ring
    rw [ex]
    have i1 : ‖inner ℂ T B‖ ≤ G * ε := (norm_inner_le_norm _ _).trans (by rw [hT]; exact mul_le_mul_of_nonneg_left hB hGp.le)
    have i2 : ‖e * inner ℂ A T‖ ≤ G * ε := by
      rw [norm_mul, hen, one_mul]
      refine (norm_inner_le_norm _ _).trans ?_
      rw [hT, mul_comm]; exact mul_le_mul_of_nonneg_left hA hGp.le
    have i3 : ‖inner ℂ A B‖ ≤ ε ^ 2 := (norm_inner_le_norm _ _).trans (by rw [sq]; exact mul_le_mul hA hB (norm_nonneg _) hε)
    refine (norm_add_le _ _).trans ?_
    have := norm_add_le (inner ℂ T B) (e * inner ℂ A T)
    linarith
  have hG2p : (0 : ℝ) < G ^ 2 := by positivity
  have he0 : e ≠ 0 := by intro h; rw [h, norm_zero] at hen; norm_num at hen
  have hGC : ((G ^ 2 : ℝ) : ℂ) ≠ 0 := by exact_mod_cast hG2p.ne'
  set w := X / (e * (G ^ 2 : ℝ)) with hw
  have hXw : X = (G ^ 2 : ℝ) * (exp (I * (φ : ℝ)) * w) := by
    rw [hw, ← he]; field_simp
  have hw1 : ‖w - 1‖ ≤ 9 / 4 * (ε / g) := by
    have : w - 1 = (X - e * (G ^ 2 : ℝ)) / (e * (G ^ 2 : ℝ)) := by rw [hw]; field_simp
    rw [this, norm_div, norm_mul, hen, one_mul, Complex.norm_real, Real.norm_eq_abs, abs_of_pos hG2p, div_le_iff₀ hG2p]
    refine herr.trans ?_
    have k1 : ε / g * G ^ 2 ≥ ε * G := by
      rw [ge_iff_le, div_mul_eq_mul_div, le_div_iff₀ hg]
      have := mul_le_mul_of_nonneg_left hgG (show 0 ≤ ε * G by positivity)
      nlinarith
    have k2 : ε ^ 2 ≤ 1 / 4 * (ε * G) := by nlinarith
    linarith
  have hq : ε / g ≤ 1 / 4 := by rw [div_le_iff₀ hg]; linarith
  have hang := arg_small w _ (by linarith) hw1
  have hang' : |arg w| ≤ 4 * (ε / g) := hang.trans (by linarith)
  have hw0 : w ≠ 0 := by
    intro h0
    rw [h0, zero_sub, norm_neg, norm_one] at hw1
    linarith
  rw [hXw, arg_turn _ φ hG2p w hw0 (by linarith), add_sub_cancel_left]
  exact hang'

/-- A window after the turn has been removed imperfectly. -/
theorem detune (N : Nat) (a th : Nat → ℂ) (ω c D ε P : ℝ) (s : Nat) (hε : 0 ≤ ε) (hD : 0 ≤ D) (hP : 0 ≤ P) (hc : ∀ k < N, |ω - c| * (s + k : Nat) ≤ D)
    (hn : ∑ k ∈ Finset.range N, ‖a k - exp (I * (ω * (s + k : Nat) : ℝ)) * th k‖ ^ 2 ≤ ε ^ 2) (hp : ∑ k ∈ Finset.range N, ‖th k‖ ^ 2 ≤ P ^ 2) :
    ∑ k ∈ Finset.range N, ‖a k * exp (I * (-(c * (s + k : Nat)) : ℝ)) - th k‖ ^ 2 ≤ (ε + D * P) ^ 2 := by
  let u : Nat → ℂ := fun k => exp (I * (-(c * (s + k : Nat)) : ℝ))
  let w : Nat → ℂ := fun k => exp (I * ((ω - c) * (s + k : Nat) : ℝ)) - 1
  have hu : ∀ k, ‖u k‖ = 1 := fun k => by
    change ‖exp (I * (-(c * (s + k : Nat)) : ℝ))‖ = 1
    rw [mul_comm]; exact Complex.norm_exp_ofReal_mul_I _
  have hw : ∀ k < N, ‖w k‖ ≤ D := fun k hk => by
    refine (Real.norm_exp_I_mul_ofReal_sub_one_le).trans ?_
    rw [Real.norm_eq_abs, abs_mul, Nat.abs_cast]
    exact hc k hk
  let A := vec N fun k => u k * (a k - exp (I * (ω * (s + k : Nat) : ℝ)) * th k)
  let B := vec N fun k => w k * th k
  have e : ∑ k ∈ Finset.range N, ‖a k * exp (I * (-(c * (s + k : Nat)) : ℝ)) - th k‖ ^ 2 = ‖A + B‖ ^ 2 := by
    rw [vec_add, vec_norm]
    refine Finset.sum_congr rfl fun k _ => ?_
    congr 2
    have : exp (I * ((ω - c) * (s + k : Nat) : ℝ)) = u k * exp (I * (ω * (s + k : Nat) : ℝ)) := by
      rw [← Complex.exp_add]
      congr 1
      push_cast; ring
    change a k * u k - th k = u k * (a k - exp (I * (ω * (s + k : Nat) : ℝ)) * th k) + (exp (I * ((ω - c) * (s + k : Nat) : ℝ)) - 1) * th k
    rw [this]; ring
  have hA : ‖A‖ ≤ ε := by
    have : ‖A‖ ^ 2 ≤ ε ^ 2 := by
      rw [vec_norm]
      refine le_trans (le_of_eq (Finset.sum_congr rfl fun k _ => ?_)) hn
      rw [norm_mul, hu, one_mul]
    exact (pow_le_pow_iff_left₀ (norm_nonneg _) hε two_ne_zero).1 this
  have hB : ‖B‖ ≤ D * P := by
    have : ‖B‖ ^ 2 ≤ (D * P) ^ 2 := by
      rw [vec_norm, mul_pow]
      refine le_trans ?_ (mul_le_mul_of_nonneg_left hp (sq_nonneg D))
      rw [Finset.mul_sum]
      refine Finset.sum_le_sum fun k hk => ?_
      rw [norm_mul, mul_pow]
      exact mul_le_mul_of_nonneg_right (pow_le_pow_left₀ (norm_nonneg _) (hw k (Finset.mem_range.1 hk)) 2) (sq_nonneg _)
    exact (pow_le_pow_iff_left₀ (norm_nonneg _) (by positivity) two_ne_zero).1 this
  rw [e]
  exact pow_le_pow_left₀ (norm_nonneg _) ((norm_add_le _ _).trans (add_le_add hA hB)) 2

end
end SunPhy.Carrier
