import Verif.Model.PolyFloat
import Verif.Props.C109
/-
Facts about `binary64` / `float64`: the exponent, scaling by powers of two, doubles are rounded to themselves.
-/
namespace SunPhy.Float64
open SunPhy

/-- Round to nearest integer, ties to even. -/
def nearEven (x : ℚ) : ℤ :=
  if x - x.floor < 1 / 2 then x.floor else if 1 / 2 < x - x.floor then x.floor + 1 else if x.floor % 2 = 0 then x.floor else x.floor + 1

theorem nearEven_int (m : ℤ) : nearEven (m : ℚ) = m := by
  unfold nearEven
  rw [Rat.floor_intCast]
  simp

theorem nearEven_err (x : ℚ) : |(nearEven x : ℚ) - x| ≤ 1 / 2 := C44.nearest_err x _ rfl

/-- `binary64` with the right exponent. -/
theorem binary64_spec (q : ℚ) (hq : 0 < q) : ∃ e : ℤ, (2 : ℚ) ^ 52 * 2 ^ e ≤ q ∧ q < 2 ^ 53 * 2 ^ e ∧ binary64 q = (nearEven (q / 2 ^ e) : ℚ) * 2 ^ e := by
  unfold binary64
  rw [if_neg (by linarith)]
  simp only
  have hnum : 0 < q.num := Rat.num_pos.2 hq
  have hnn : q.num.toNat ≠ 0 := by omega
  obtain ⟨a1, a2⟩ := C44.log2_bounds hnn
  obtain ⟨b1, b2⟩ := C44.log2_bounds q.den_nz
  have hqd : q = (q.num.toNat : ℚ) / q.den := by
    conv_lhs => rw [← Rat.num_div_den q]
    congr 1
    exact_mod_cast (Int.toNat_of_nonneg hnum.le).symm
  generalize q.num.toNat.log2 = A at *
  generalize q.den.log2 = B at *
  have hden : (0 : ℚ) < q.den := by exact_mod_cast q.den_pos
  have hlow : (2 : ℚ) ^ ((A : ℤ) - B - 1) ≤ q := by
    rw [hqd, le_div_iff₀ hden]
    calc (2 : ℚ) ^ ((A : ℤ) - B - 1) * q.den ≤ 2 ^ ((A : ℤ) - B - 1) * 2 ^ ((B : ℤ) + 1) := by gcongr
      _ = 2 ^ (A : ℤ) := by rw [← zpow_add₀ (by norm_num)]; congr 1; ring
      _ ≤ _ := a1
  have hhigh : q < (2 : ℚ) ^ ((A : ℤ) - B + 1) := by
    rw [hqd, div_lt_iff₀ hden]
    calc ((q.num.toNat : ℚ)) < 2 ^ ((A : ℤ) + 1) := a2
      _ = 2 ^ ((A : ℤ) - B + 1) * 2 ^ (B : ℤ) := by rw [← zpow_add₀ (by norm_num)]; congr 1; ring
      _ ≤ _ := by gcongr
  refine ⟨_, ?_, ?_, rfl⟩
  · split
    · rename_i hc; exact hc
    · calc (2 : ℚ) ^ 52 * 2 ^ ((A : ℤ) - B - 52 - 1) = 2 ^ (52 : ℤ) * 2 ^ ((A : ℤ) - B - 52 - 1) := by norm_num
        _ = 2 ^ ((A : ℤ) - B - 1) := by rw [← zpow_add₀ (by norm_num)]; congr 1; ring
        _ ≤ q := hlow
  · split
    · calc q < _ := hhigh
        _ = 2 ^ (53 : ℤ) * 2 ^ ((A : ℤ) - B - 52) := by rw [← zpow_add₀ (by norm_num)]; congr 1; ring
        _ = _ := by norm_num
    · rename_i hc
      calc q < _ := not_le.mp hc
        _ = 2 ^ (52 : ℤ) * 2 ^ ((A : ℤ) - B - 52) := by norm_num
        _ = 2 ^ (53 : ℤ) * 2 ^ ((A : ℤ) - B - 52 - 1) := by rw [← zpow_add₀ (by norm_num), ← zpow_add₀ (by norm_num)]; congr 1; ring
        _ = _ := by norm_num

theorem exponent_unique {q : ℚ} {e e' : ℤ} (h1 : (2 : ℚ) ^ 52 * 2 ^ e ≤ q) (h2 : q < 2 ^ 53 * 2 ^ e') : e ≤ e' := by
  have h : (2 : ℚ) ^ (52 + e) < 2 ^ (53 + e') := by
    rw [zpow_add₀ (by norm_num), zpow_add₀ (by norm_num)]
    have := lt_of_le_of_lt h1 h2
    norm_num at this ⊢
    exact this
  have := (zpow_lt_zpow_iff_right₀ (by norm_num : (1 : ℚ) < 2)).1 h
  omega

theorem binary64_eq (q : ℚ) (e : ℤ) (h1 : (2 : ℚ) ^ 52 * 2 ^ e ≤ q) (h2 : q < 2 ^ 53 * 2 ^ e) : binary64 q = (nearEven (q / 2 ^ e) : ℚ) * 2 ^ e := by
  have hq : 0 < q := lt_of_lt_of_le (by positivity) h1
  obtain ⟨e', a, b, c⟩ := binary64_spec q hq
  have : e = e' := le_antisymm (exponent_unique h1 b) (exponent_unique a h2)
  rw [this, c]

/-- Scaling by a power of two commutes with rounding. -/
theorem binary64_scale (q : ℚ) (k : ℤ) : binary64 (q * 2 ^ k) = binary64 q * 2 ^ k := by
  rcases le_or_gt q 0 with h | h
  · have : q * 2 ^ k ≤ 0 := mul_nonpos_of_nonpos_of_nonneg h (by positivity)
    unfold binary64
    rw [if_pos h, if_pos this, zero_mul]
  · obtain ⟨e, a, b, c⟩ := binary64_spec q h
    have hk : (0 : ℚ) < 2 ^ k := by positivity
    have ek : (2 : ℚ) ^ (e + k) = 2 ^ e * 2 ^ k := zpow_add₀ (by norm_num) _ _
    rw [c, binary64_eq (q * 2 ^ k) (e + k) (by rw [ek, ← mul_assoc]; gcongr) (by rw [ek, ← mul_assoc]; gcongr), ek, mul_div_mul_right _ _ hk.ne', mul_assoc]

theorem float64_scale (q : ℚ) (k : ℤ) : float64 (q * 2 ^ k) = float64 q * 2 ^ k := by
  have hk : (0 : ℚ) < 2 ^ k := by positivity
  unfold float64
  by_cases h : q < 0
  · rw [if_pos h, if_pos (mul_neg_of_neg_of_pos h hk), ← neg_mul, binary64_scale, neg_mul]
  · rw [if_neg h, if_neg (by rw [not_lt] at *; positivity), binary64_scale]

theorem binary64_int (m : ℤ) (e : ℤ) (h1 : 2 ^ 52 ≤ m) (h2 : m < 2 ^ 53) : binary64 ((m : ℚ) * 2 ^ e) = m * 2 ^ e := by
  have he : (0 : ℚ) < 2 ^ e := by positivity
  have a : ((2 : ℚ)) ^ 52 ≤ m := by exact_mod_cast h1
  have b : (m : ℚ) < 2 ^ 53 := by exact_mod_cast h2
  rw [binary64_eq _ e (by gcongr) (by gcongr), mul_div_cancel_right₀ _ he.ne', nearEven_int]

/-- Doubles are rounded to themselves. -/
theorem binary64_idem (q : ℚ) : binary64 (binary64 q) = binary64 q := by
  rcases le_or_gt q 0 with h | h
  · have : binary64 q = 0 := by unfold binary64; rw [if_pos h]
    rw [this]; unfold binary64; rw [if_pos le_rfl]
  · obtain ⟨e, a, b, c⟩ := binary64_spec q h
    have he : (0 : ℚ) < 2 ^ e := by positivity
    have x1 : (2 : ℚ) ^ 52 ≤ q / 2 ^ e := by rw [le_div_iff₀ he]; exact a
    have x2 : q / 2 ^ e < 2 ^ 53 := by rw [div_lt_iff₀ he]; exact b
    have er := abs_le.1 (nearEven_err (q / 2 ^ e))
    generalize nearEven (q / 2 ^ e) = m at *
    rw [c]
    have m1 : 2 ^ 52 ≤ m := by
      have : (2 : ℚ) ^ 52 - 1 < m := by linarith [er.1]
      have : ((2 ^ 52 - 1 : ℤ) : ℚ) < m := by norm_num at this ⊢; exact this
      have := Int.cast_lt.1 this
      omega
    have m2 : m ≤ 2 ^ 53 := by
      have : (m : ℚ) < 2 ^ 53 + 1 := by linarith [er.2]
      have : (m : ℚ) < ((2 ^ 53 + 1 : ℤ) : ℚ) := by norm_num at this ⊢; exact this
      have := Int.cast_lt.1 this
      omega
    rcases lt_or_eq_of_le m2 with m3 | m3
    · exact binary64_int m e m1 m3
    · have : (m : ℚ) * 2 ^ e = ((2 ^ 52 : ℤ) : ℚ) * 2 ^ (e + 1) := by
        rw [m3, zpow_add₀ (by norm_num)]; push_cast; ring
      rw [this]
      exact binary64_int _ _ le_rfl (by norm_num)

theorem float64_neg (q : ℚ) : float64 (-q) = -float64 q := by
  unfold float64
  rcases lt_trichotomy q 0 with h | h | h
  · rw [if_pos h, if_neg (by linarith), neg_neg]
  · subst h; rfl
  · rw [if_pos (show -q < 0 by linarith), if_neg (show ¬ q < 0 by linarith), neg_neg]

theorem binary64_nonneg (q : ℚ) : 0 ≤ binary64 q := by
  rcases le_or_gt q 0 with h | h
  · unfold binary64; rw [if_pos h]
  · have := abs_le.1 (C44.binary64_rounds q h)
    have h2 : q / 2 ^ 53 < q := by rw [div_lt_iff₀ (by norm_num)]; linarith
    linarith [this.1]

theorem float64_idem (q : ℚ) : float64 (float64 q) = float64 q := by
  rcases lt_or_ge q 0 with h | h
  · have e : float64 q = -binary64 (-q) := by unfold float64; rw [if_pos h]
    rw [e, float64_neg]
    congr 1
    unfold float64
    rw [if_neg (not_lt.2 (binary64_nonneg _)), binary64_idem]
  · have e : float64 q = binary64 q := by unfold float64; rw [if_neg (not_lt.2 h)]
    rw [e]
    unfold float64
    rw [if_neg (not_lt.2 (binary64_nonneg _)), binary64_idem]

end SunPhy.Float64
