import Mathlib.Analysis.Real.Pi.Bounds
import Mathlib.Analysis.SpecialFunctions.Trigonometric.Bounds
import Mathlib.Analysis.SpecialFunctions.Complex.Circle
/-
The 128th roots of unity, in decimals.
-/
namespace SunPhy.Roots
open Complex

/-- `10^6 · (1 + cos (2πk/128))`, rounded. -/
def cosTab : List Nat := [
  2000000, 1998795, 1995185, 1989177, 1980785, 1970031, 1956940, 1941544, 1923880, 1903989, 1881921, 1857729,
  1831470, 1803208, 1773010, 1740951, 1707107, 1671559, 1634393, 1595699, 1555570, 1514103, 1471397, 1427555,
  1382683, 1336890, 1290285, 1242980, 1195090, 1146730, 1098017, 1049068, 1000000, 950932, 901983, 853270,
  804910, 757020, 709715, 663110, 617317, 572445, 528603, 485897, 444430, 404301, 365607, 328441,
  292893, 259049, 226990, 196792, 168530, 142271, 118079, 96011, 76120, 58456, 43060, 29969,
  19215, 10823, 4815, 1205, 0, 1205, 4815, 10823, 19215, 29969, 43060, 58456,
  76120, 96011, 118079, 142271, 168530, 196792, 226990, 259049, 292893, 328441, 365607, 404301,
  444430, 485897, 528603, 572445, 617317, 663110, 709715, 757020, 804910, 853270, 901983, 950932,
  1000000, 1049068, 1098017, 1146730, 1195090, 1242980, 1290285, 1336890, 1382683, 1427555, 1471397, 1514103,
  1555570, 1595699, 1634393, 1671559, 1707107, 1740951, 1773010, 1803208, 1831470, 1857729, 1881921, 1903989,
  1923880, 1941544, 1956940, 1970031, 1980785, 1989177, 1995185, 1998795]

/-- The integers `10^6 cos` and `10^6 sin`. -/
def cosI (k : Nat) : Int := (cosTab.getD (k % 128) 0 : Int) - 1000000
def sinI (k : Nat) : Int := (cosTab.getD ((k + 96) % 128) 0 : Int) - 1000000

theorem step_ok : ∀ k < 128, |1000000 * cosI (k + 1) - (cosI k * cosI 1 - sinI k * sinI 1)| ≤ 1300000 ∧
    |1000000 * sinI (k + 1) - (cosI k * sinI 1 + sinI k * cosI 1)| ≤ 1300000 ∧ cosI k ^ 2 + sinI k ^ 2 ≤ 1000002000000 := by decide +kernel

/-- The decimal root of unity. -/
noncomputable def rootHat (k : Nat) : ℂ := ((cosI k : ℝ) / 1000000 : ℝ) + ((sinI k : ℝ) / 1000000 : ℝ) * I

/-- The root of unity. -/
noncomputable def root (k : Nat) : ℂ := exp (2 * Real.pi * I * k / 128)

theorem root_zero : root 0 = 1 := by unfold root; simp

theorem root_add (j k : Nat) : root (j + k) = root j * root k := by
  unfold root
  rw [← Complex.exp_add]
  congr 1
  push_cast
  ring

theorem root_norm (k : Nat) : ‖root k‖ = 1 := by
  unfold root
  rw [show (2 * Real.pi * I * k / 128 : ℂ) = ((2 * Real.pi * k / 128 : ℝ) : ℂ) * I by push_cast; ring, Complex.norm_exp_ofReal_mul_I]

theorem root_period (k : Nat) : root (k + 128) = root k := by
  rw [root_add]
  have : root 128 = 1 := by
    unfold root
    rw [show (2 * Real.pi * I * (128 : Nat) / 128 : ℂ) = 2 * Real.pi * I by push_cast; ring, Complex.exp_two_pi_mul_I]
  rw [this, mul_one]

/-- A complex number with small parts. -/
theorem norm_le_parts (z : ℂ) (a b d : ℝ) (h1 : |z.re| ≤ a) (h2 : |z.im| ≤ b) (hd : 0 ≤ d) (h : a ^ 2 + b ^ 2 ≤ d ^ 2) : ‖z‖ ≤ d := by
  have e : ‖z‖ ^ 2 ≤ d ^ 2 := by
    rw [← Complex.normSq_eq_norm_sq, Complex.normSq_apply]
    have a1 := sq_le_sq' (by linarith [neg_abs_le z.re]) (le_trans (le_abs_self _) h1)
    have a2 := sq_le_sq' (by linarith [neg_abs_le z.im]) (le_trans (le_abs_self _) h2)
    nlinarith
  exact le_of_sq_le_sq e hd
where
  le_of_sq_le_sq {x d : ℝ} (h : x ^ 2 ≤ d ^ 2) (hd : 0 ≤ d) : x ≤ d := by nlinarith [sq_nonneg (x - d), sq_nonneg (x + d)]

theorem root_one : ‖root 1 - rootHat 1‖ ≤ 11 / 10 ^ 7 := by
  have hx : root 1 = ((Real.cos (Real.pi / 64) : ℝ) : ℂ) + ((Real.sin (Real.pi / 64) : ℝ) : ℂ) * I := by
    unfold root
    rw [show (2 * Real.pi * I * (1 : Nat) / 128 : ℂ) = ((Real.pi / 64 : ℝ) : ℂ) * I by push_cast; ring, Complex.exp_mul_I]
    push_cast; ring
  have hp1 := Real.pi_gt_d20
  have hp2 := Real.pi_lt_d20
  have hx1 : |Real.pi / 64| ≤ 1 := by rw [abs_of_pos (by positivity)]; linarith
  have hc := Real.cos_bound hx1
  have hs := Real.sin_bound hx1
  have c1 : cosI 1 = 998795 := by decide +kernel
  have s1 : sinI 1 = 49068 := by decide +kernel
  have hq : |Real.pi / 64| ^ 4 * (5 / 96) ≤ 31 / 10 ^ 8 := by
    rw [abs_of_pos (by positivity)]
    have : (Real.pi / 64) ^ 4 ≤ (3.1416 / 64) ^ 4 := pow_le_pow_left₀ (by positivity) (by linarith) 4
    refine le_trans (mul_le_mul_of_nonneg_right this (by norm_num)) (by norm_num)
  have hq5 : |Real.pi / 64| ^ 5 / 100 ≤ 31 / 10 ^ 8 := by
    rw [abs_of_pos (by positivity)]
    have : (Real.pi / 64) ^ 5 ≤ (3.1416 / 64) ^ 5 := pow_le_pow_left₀ (by positivity) (by linarith) 5
    refine le_trans (div_le_div_of_nonneg_right this (by norm_num)) (by norm_num)
  have hsq1 : (3.14159265 / 64 : ℝ) ^ 2 ≤ (Real.pi / 64) ^ 2 := pow_le_pow_left₀ (by norm_num) (by linarith) 2
  have hsq2 : (Real.pi / 64) ^ 2 ≤ (3.14159266 / 64 : ℝ) ^ 2 := pow_le_pow_left₀ (by positivity) (by linarith) 2
  have hcu1 : (3.14159265 / 64 : ℝ) ^ 3 ≤ (Real.pi / 64) ^ 3 := pow_le_pow_left₀ (by norm_num) (by linarith) 3
  have hcu2 : (Real.pi / 64) ^ 3 ≤ (3.14159266 / 64 : ℝ) ^ 3 := pow_le_pow_left₀ (by positivity) (by linarith) 3
  norm_num at hsq1 hsq2 hcu1 hcu2
  have hc := abs_le.1 (le_trans hc hq)
  have hs := abs_le.1 (le_trans hs hq5)
  refine norm_le_parts _ (78 / 10 ^ 8) (66 / 10 ^ 8) _ ?_ ?_ (by norm_num) (by norm_num)
  · have : (root 1 - rootHat 1).re = Real.cos (Real.pi / 64) - 998795 / 1000000 := by
      rw [hx]; unfold rootHat; rw [c1, s1]; generalize Real.cos (Real.pi / 64) = u; generalize Real.sin (Real.pi / 64) = v; simp
    rw [this, abs_le]
    constructor <;> norm_num <;> linarith [hc.1, hc.2]
  · have : (root 1 - rootHat 1).im = Real.sin (Real.pi / 64) - 49068 / 1000000 := by
      rw [hx]; unfold rootHat; rw [c1, s1]; generalize Real.cos (Real.pi / 64) = u; generalize Real.sin (Real.pi / 64) = v; simp
    rw [this, abs_le]
    constructor <;> norm_num <;> linarith [hs.1, hs.2]

theorem rootHat_norm (k : Nat) (hk : k < 128) : ‖rootHat k‖ ≤ 1 + 1 / 10 ^ 6 := by
  have h := (step_ok k hk).2.2
  have hR : ((cosI k : ℝ)) ^ 2 + (sinI k : ℝ) ^ 2 ≤ 1000002000000 := by exact_mod_cast h
  have e : ‖rootHat k‖ ^ 2 ≤ (1 + 1 / 10 ^ 6) ^ 2 := by
    rw [← Complex.normSq_eq_norm_sq, Complex.normSq_apply]
    have h1 : (rootHat k).re = (cosI k : ℝ) / 1000000 := by unfold rootHat; simp
    have h2 : (rootHat k).im = (sinI k : ℝ) / 1000000 := by unfold rootHat; simp
    rw [h1, h2]
    nlinarith
  exact norm_le_parts.le_of_sq_le_sq e (by norm_num)

theorem root_step (k : Nat) (hk : k < 128) : ‖rootHat k * rootHat 1 - rootHat (k + 1)‖ ≤ 185 / 10 ^ 8 := by
  obtain ⟨h1, h2, -⟩ := step_ok k hk
  have h1R : |1000000 * (cosI (k + 1) : ℝ) - (cosI k * cosI 1 - sinI k * sinI 1)| ≤ 1300000 := by exact_mod_cast h1
  have h2R : |1000000 * (sinI (k + 1) : ℝ) - (cosI k * sinI 1 + sinI k * cosI 1)| ≤ 1300000 := by exact_mod_cast h2
  rw [abs_le] at h1R h2R
  refine norm_le_parts _ (13 / 10 ^ 7) (13 / 10 ^ 7) _ ?_ ?_ (by norm_num) (by norm_num)
  · have : (rootHat k * rootHat 1 - rootHat (k + 1)).re = ((cosI k * cosI 1 - sinI k * sinI 1 : ℝ) - 1000000 * cosI (k + 1)) / 10 ^ 12 := by
      unfold rootHat; simp; ring
    rw [this, abs_le]
    constructor <;> linarith [h1R.1, h1R.2]
  · have : (rootHat k * rootHat 1 - rootHat (k + 1)).im = ((cosI k * sinI 1 + sinI k * cosI 1 : ℝ) - 1000000 * sinI (k + 1)) / 10 ^ 12 := by
      unfold rootHat; simp; ring
    rw [this, abs_le]
    constructor <;> linarith [h2R.1, h2R.2]

theorem root_close_aux (k : Nat) (hk : k ≤ 128) : ‖root k - rootHat k‖ ≤ k * (3 / 10 ^ 6) := by
  induction k with
  | zero =>
    have : rootHat 0 = 1 := by
      unfold rootHat
      rw [show cosI 0 = 1000000 by decide +kernel, show sinI 0 = 0 by decide +kernel]
      norm_num
    rw [root_zero, this, sub_self]; simp
  | succ k ih =>
    have ih := ih (by omega)
    have e : root (k + 1) - rootHat (k + 1) = (root k - rootHat k) * root 1 + rootHat k * (root 1 - rootHat 1) + (rootHat k * rootHat 1 - rootHat (k + 1)) := by
      rw [root_add]; ring
    rw [e]
    refine le_trans (norm_add_le _ _) ?_
    refine le_trans (add_le_add (norm_add_le _ _) (root_step k (by omega))) ?_
    rw [norm_mul, norm_mul, root_norm, mul_one]
    have h1 := root_one
    have h2 := rootHat_norm k (by omega)
    have h3 : ‖rootHat k‖ * ‖root 1 - rootHat 1‖ ≤ (1 + 1 / 10 ^ 6) * (11 / 10 ^ 7) := mul_le_mul h2 h1 (norm_nonneg _) (by norm_num)
    push_cast
    nlinarith

/-- **The table is right.** -/
theorem root_close (k : Nat) : ‖root k - rootHat k‖ ≤ 4 / 10 ^ 4 := by
  have e1 : rootHat k = rootHat (k % 128) := by
    unfold rootHat cosI sinI
    rw [Nat.mod_mod, Nat.add_mod k 96, Nat.add_mod (k % 128) 96, Nat.mod_mod]
  have e2 : root k = root (k % 128) := by
    have : ∀ q r : Nat, root (r + 128 * q) = root r := by
      intro q
      induction q with
      | zero => intro r; rfl
      | succ q ih => intro r; rw [show r + 128 * (q + 1) = (r + 128 * q) + 128 by ring, root_period, ih]
    conv_lhs => rw [← Nat.mod_add_div k 128]
    exact this _ _
  rw [e1, e2]
  have hk : k % 128 < 128 := Nat.mod_lt _ (by decide)
  refine le_trans (root_close_aux _ hk.le) ?_
  have : ((k % 128 : Nat) : ℝ) ≤ 128 := by exact_mod_cast hk.le
  linarith

end SunPhy.Roots
