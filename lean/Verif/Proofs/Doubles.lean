import Verif.Proofs.Float64
import Verif.Spec.Doubles
import Verif.Model.OfdmLog
import Mathlib.Analysis.SpecialFunctions.Log.Deriv
/-
`binary64` is the nearest double; roundings of numbers known up to a small interval; the logarithm of 2.
-/
namespace SunPhy.Doubles
open SunPhy Float64

theorem isDouble_binary64 (q : ℚ) : IsDouble (binary64 q) := by
  rcases le_or_gt q 0 with h | h
  · refine ⟨0, 0, by norm_num, ?_⟩
    unfold binary64
    rw [if_pos h]
    simp
  · obtain ⟨e, a, b, c⟩ := binary64_spec q h
    have he : (0 : ℚ) < 2 ^ e := by positivity
    have x1 : (2 : ℚ) ^ 52 ≤ q / 2 ^ e := by rw [le_div_iff₀ he]; exact a
    have x2 : q / 2 ^ e < 2 ^ 53 := by rw [div_lt_iff₀ he]; exact b
    have er := abs_le.1 (nearEven_err (q / 2 ^ e))
    generalize nearEven (q / 2 ^ e) = m at *
    have m1 : 0 ≤ m := by
      have : (0 : ℚ) ≤ m := by linarith [er.1]
      exact_mod_cast this
    have m2 : m ≤ 2 ^ 53 := by
      have : (m : ℚ) < 2 ^ 53 + 1 := by linarith [er.2]
      have : (m : ℚ) < ((2 ^ 53 + 1 : ℤ) : ℚ) := by norm_num at this ⊢; exact this
      have := Int.cast_lt.1 this
      omega
    rcases lt_or_eq_of_le m2 with m3 | m3
    · exact ⟨m, e, by rw [abs_of_nonneg m1]; exact m3, c⟩
    · refine ⟨2 ^ 52, e + 1, by norm_num, ?_⟩
      rw [c, m3, zpow_add₀ (by norm_num)]; push_cast; ring

/-- The nearest integer is nearest. -/
theorem nearEven_nearest (t : ℚ) (j : ℤ) : |(nearEven t : ℚ) - t| ≤ |(j : ℚ) - t| := by
  have he := nearEven_err t
  by_cases h : nearEven t = j
  · rw [h]
  · have h1 : (1 : ℚ) ≤ |(nearEven t : ℚ) - j| := by
      have : 1 ≤ |nearEven t - j| := Int.one_le_abs (sub_ne_zero.2 h)
      exact_mod_cast this
    have h2 : |(nearEven t : ℚ) - j| ≤ |(nearEven t : ℚ) - t| + |(j : ℚ) - t| := by
      rw [abs_sub_comm (j : ℚ) t]
      exact abs_sub_le _ _ _
    linarith

theorem binary64_nearest (q : ℚ) (hq : 0 < q) (z : ℚ) (hz : IsDouble z) : |binary64 q - q| ≤ |z - q| := by
  obtain ⟨e, a, b, c⟩ := binary64_spec q hq
  obtain ⟨m, f, hm, rfl⟩ := hz
  have he : (0 : ℚ) < 2 ^ e := by positivity
  have hqe : q = q / 2 ^ e * 2 ^ e := by field_simp
  have hint : ∀ j : ℤ, |binary64 q - q| ≤ |(j : ℚ) * 2 ^ e - q| := by
    intro j
    have e1 : binary64 q - q = ((nearEven (q / 2 ^ e) : ℚ) - q / 2 ^ e) * 2 ^ e := by rw [c, sub_mul, ← hqe]
    have e2 : (j : ℚ) * 2 ^ e - q = ((j : ℚ) - q / 2 ^ e) * 2 ^ e := by rw [sub_mul, ← hqe]
    rw [e1, e2, abs_mul, abs_mul]
    exact mul_le_mul_of_nonneg_right (nearEven_nearest _ _) (abs_nonneg _)
  rcases le_or_gt e f with hf | hf
  · obtain ⟨n, rfl⟩ : ∃ n : ℕ, f = e + n := ⟨(f - e).toNat, by omega⟩
    have := hint (m * 2 ^ n)
    rw [zpow_add₀ (by norm_num), zpow_natCast]
    push_cast at this
    rw [show (m : ℚ) * (2 ^ e * 2 ^ n) = m * 2 ^ n * 2 ^ e by ring]
    exact this
  · have hlt : (m : ℚ) * 2 ^ f ≤ 2 ^ 52 * 2 ^ e := by
      have h1 : (m : ℚ) ≤ 2 ^ 53 := by
        have := (abs_lt.1 hm).2
        exact_mod_cast this.le
      have h2 : (2 : ℚ) ^ f ≤ 2 ^ (e - 1) := zpow_le_zpow_right₀ (by norm_num) (by omega)
      calc (m : ℚ) * 2 ^ f ≤ 2 ^ 53 * 2 ^ (e - 1) := mul_le_mul h1 h2 (by positivity) (by positivity)
        _ = 2 ^ 52 * 2 ^ e := by rw [zpow_sub₀ (by norm_num)]; norm_num; ring
    have h3 := hint (2 ^ 52)
    push_cast at h3
    refine h3.trans ?_
    rw [abs_of_nonpos (by linarith), abs_of_nonpos (by linarith)]
    linarith

/-- A number known up to an interval without a rounding boundary is rounded as its ends are. -/
theorem nearest_eq {y lo hi : ℚ} {x : ℝ} (h : Nearest y x) (h0 : 0 < lo) (h1 : (lo : ℝ) < x) (h2 : x < hi) (he : binary64 lo = binary64 hi) : y = binary64 lo := by
  obtain ⟨hd, hn⟩ := h
  have hv := hn _ (isDouble_binary64 lo)
  have h0' : 0 < hi := by
    have : (lo : ℝ) < hi := h1.trans h2
    have : lo < hi := by exact_mod_cast this
    linarith
  have b1 := binary64_nearest lo h0 y hd
  have b2 := binary64_nearest hi h0' y hd
  rw [← he] at b2
  generalize binary64 lo = v at *
  have b1' : |(v : ℝ) - lo| ≤ |(y : ℝ) - lo| := by exact_mod_cast b1
  have b2' : |(v : ℝ) - hi| ≤ |(y : ℝ) - hi| := by exact_mod_cast b2
  rcases lt_trichotomy y v with hlt | heq | hgt
  · exfalso
    have hlt' : (y : ℝ) < v := by exact_mod_cast hlt
    rw [← sq_le_sq] at hv b1'
    nlinarith
  · exact heq
  · exfalso
    have hgt' : (v : ℝ) < y := by exact_mod_cast hgt
    rw [← sq_le_sq] at hv b2'
    nlinarith

/-! ### The logarithm of 2 -/

def lnLo : ℚ := 878668439483319573618263538048 / 2 ^ 100
def lnHi : ℚ := 878668439483319573618263538049 / 2 ^ 100

def lnSum (n : ℕ) : ℚ := ∑ i ∈ Finset.range n, (1 / 2) ^ (i + 1) / ((i : ℚ) + 1)

theorem lnSum_bounds : lnLo + 1 / 2 ^ 110 < lnSum 112 ∧ lnSum 112 + 1 / 2 ^ 110 < lnHi := by
  unfold lnSum lnLo lnHi
  decide +kernel

theorem ln_two : (lnLo : ℝ) < Real.log 2 ∧ Real.log 2 < lnHi := by
  have h := Real.abs_log_sub_add_sum_range_le (x := 1 / 2) (by rw [abs_of_pos] <;> norm_num) 112
  have e1 : Real.log (1 - 1 / 2) = -Real.log 2 := by rw [show (1 : ℝ) - 1 / 2 = 2⁻¹ by norm_num, Real.log_inv]
  have e2 : ((lnSum 112 : ℚ) : ℝ) = ∑ i ∈ Finset.range 112, (1 / 2 : ℝ) ^ (i + 1) / ((i : ℝ) + 1) := by unfold lnSum; push_cast; rfl
  rw [e1, ← e2, abs_of_pos (by norm_num : (0 : ℝ) < 1 / 2)] at h
  have h3 : ((1 / 2 : ℝ) ^ (112 + 1) / (1 - 1 / 2)) ≤ 1 / 2 ^ 110 := by norm_num
  have h4 := abs_le.1 (h.trans h3)
  obtain ⟨a, b⟩ := lnSum_bounds
  have a' : (lnLo : ℝ) + 1 / 2 ^ 110 < (lnSum 112 : ℚ) := by
    have := (Rat.cast_lt (K := ℝ)).2 a
    push_cast at this
    exact this
  have b' : ((lnSum 112 : ℚ) : ℝ) + 1 / 2 ^ 110 < (lnHi : ℚ) := by
    have := (Rat.cast_lt (K := ℝ)).2 b
    push_cast at this
    exact this
  constructor <;> linarith [h4.1, h4.2]

end SunPhy.Doubles
