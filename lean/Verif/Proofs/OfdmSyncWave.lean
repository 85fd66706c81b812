import Verif.Proofs.OfdmSyncCheck2
import Mathlib.Algebra.BigOperators.Field
/-
The samples of the training fields against the integers.
-/
namespace SunPhy.SyncCheck
open SunPhy Spec Complex BigDot Roots

theorem root_mul128 (k j : Nat) : root (k + 128 * j) = root k := by
  induction j with
  | zero => rfl
  | succ j ih => rw [Nat.mul_succ, ← Nat.add_assoc, root_period, ih]

/-- A wave as a sum of 128th roots of unity. -/
theorem wave_root {N u : Nat} (hu : u * N = 128) (he : N % 2 = 0) (X : Int → ℂ) (n : Nat) :
    Ref.wave N X ((n : Int) - N) = (∑ i ∈ Finset.range N, X ((i : Int) - ((N / 2 : Nat) : Int)) * root (u * i * (n % N) + 64 * (n % N))) / (Real.sqrt N : ℂ) := by
  unfold Ref.wave
  congr 1
  refine Finset.sum_congr rfl fun i _ => ?_
  congr 1
  have hN0 : (N : ℂ) ≠ 0 := by
    intro h
    rw [Nat.cast_eq_zero] at h
    subst h; simp at hu
  obtain ⟨m, rfl⟩ : ∃ m, N = 2 * m := ⟨N / 2, by omega⟩
  have hd := Nat.div_add_mod n (2 * m)
  set a := n % (2 * m)
  set q := n / (2 * m)
  have huC : (u : ℂ) * (2 * m) = 128 := by exact_mod_cast hu
  have e1 : root (u * i * a + 64 * a) = root (u * i * n + 64 * n) := by
    rw [← root_mul128 (u * i * a + 64 * a) (i * q + m * q)]
    congr 1
    rw [← hd]
    have : u * i * (2 * m * q + a) = (u * (2 * m)) * (i * q) + u * i * a := by ring
    rw [this, hu]; ring
  rw [e1]
  unfold root
  rw [show (2 * m / 2 : Nat) = m by omega]
  rw [← Complex.exp_periodic.int_mul ((i : Int) - (m : Int) + n) (2 * (Real.pi : ℂ) * I * (((i : Int) - ((m : Nat) : Int) : Int) : ℂ) * (((n : Int) - ((2 * m : Nat) : Int) : Int) : ℂ) / ((2 * m : Nat) : ℂ))]
  congr 1
  have h128 : (128 : ℂ) ≠ 0 := by norm_num
  push_cast at hN0 ⊢
  have hu' : (u : ℂ) = 128 / (2 * m) := by rw [eq_div_iff hN0, huC]
  rw [hu']
  have hm0 : (m : ℂ) ≠ 0 := by intro h; rw [h] at hN0; simp at hN0
  field_simp
  ring

/-- The same with decimals. -/
theorem wave_hat (code : List Nat) (N u n : Nat) :
    ((waveI code N u 0 n : ℝ) / 1000000 : ℝ) + ((waveI code N u 96 n : ℝ) / 1000000 : ℝ) * I =
      ∑ i ∈ Finset.range N, (((code.getD i 0 : Int) - 1 : Int) : ℂ) * rootHat (u * i * n + 64 * n) := by
  unfold waveI rootHat cosI sinI
  simp only [Nat.add_zero]
  push_cast
  rw [Finset.sum_div, Finset.sum_div, Finset.sum_mul, ← Finset.sum_add_distrib]
  refine Finset.sum_congr rfl fun i _ => ?_
  ring

/-- Number of tones in use. -/
def count (code : List Nat) (N : Nat) : Nat := ((List.range N).map fun i => ((code.getD i 0 : Int) - 1).natAbs).sum

theorem count_eq (code : List Nat) (N : Nat) : count code N = ∑ i ∈ Finset.range N, ((code.getD i 0 : Int) - 1).natAbs := by
  unfold count
  induction N with
  | zero => rfl
  | succ N ih => rw [List.range_succ, List.map_append, List.sum_append, ih, Finset.sum_range_succ]; simp

theorem hat_close (code : List Nat) (N u n : Nat) :
    ‖(∑ i ∈ Finset.range N, (((code.getD i 0 : Int) - 1 : Int) : ℂ) * root (u * i * n + 64 * n)) -
      (((waveI code N u 0 n : ℝ) / 1000000 : ℝ) + ((waveI code N u 96 n : ℝ) / 1000000 : ℝ) * I)‖ ≤ count code N * (4 / 10 ^ 4) := by
  rw [wave_hat, ← Finset.sum_sub_distrib, count_eq, Nat.cast_sum, Finset.sum_mul]
  refine le_trans (norm_sum_le _ _) (Finset.sum_le_sum fun i _ => ?_)
  rw [← mul_sub, norm_mul]
  refine mul_le_mul (le_of_eq ?_) (root_close _) (norm_nonneg _) (Nat.cast_nonneg _)
  rw [Complex.norm_intCast, Nat.cast_natAbs, Int.cast_abs]

theorem wave_size (code : List Nat) (N u n : Nat) : ‖∑ i ∈ Finset.range N, (((code.getD i 0 : Int) - 1 : Int) : ℂ) * root (u * i * n + 64 * n)‖ ≤ count code N := by
  rw [count_eq, Nat.cast_sum]
  refine le_trans (norm_sum_le _ _) (Finset.sum_le_sum fun i _ => ?_)
  rw [norm_mul, root_norm, mul_one, Complex.norm_intCast, Nat.cast_natAbs, Int.cast_abs]

/-! ### Tones -/

theorem ltf_code (o : Nat) (h : o = 1 ∨ o = 2 ∨ o = 3 ∨ o = 4) (i : Nat) (hi : i < Ref.nfft o) :
    Ref.ltfTone o ((i : Int) - ((Ref.nfft o / 2 : Nat) : Int)) = ((((ltfCode o).getD i 0 : Int) - 1 : Int) : ℂ) := by
  have key : ∀ o ∈ [1, 2, 3, 4], ∀ i < Ref.nfft o, (((ltfCode o).getD i 0 : Int) - 1 : Int) =
      if isGuard (Ref.nfft o) (Ref.guardLow o) (Ref.guardHigh o) ((i : Int) - ((Ref.nfft o / 2 : Nat) : Int)) ∨ (i : Int) - ((Ref.nfft o / 2 : Nat) : Int) = 0 then 0
      else if (i : Int) - ((Ref.nfft o / 2 : Nat) : Int) ∈ Ref.ltfMinus o then -1 else 1 := by decide +kernel
  rw [key o (by simpa using h) i hi]
  unfold Ref.ltfTone
  split
  · simp
  · split <;> simp

/-- Amplitude of the short training tones. -/
noncomputable def kappa : Nat → ℝ
  | 1 => Real.sqrt (104 / 12) | 2 => Real.sqrt (52 / 12) | 3 => Real.sqrt (26 / 6) | _ => Real.sqrt (14 / 6)

theorem stf_code (o : Nat) (h : o = 1 ∨ o = 2 ∨ o = 3 ∨ o = 4) (i : Nat) (hi : i < Ref.nfft o) :
    Ref.stfTone o ((i : Int) - ((Ref.nfft o / 2 : Nat) : Int)) = (kappa o : ℂ) * ((((stfCode o).getD i 0 : Int) - 1 : Int) : ℂ) := by
  rcases h with rfl | rfl | rfl | rfl
  · have key : ∀ i < 128, (((stfCode 1).getD i 0 : Int) - 1 : Int) = if ((i : Int) - 64) ≠ 0 ∧ ((i : Int) - 64) % 8 = 0 ∧ ((i : Int) - 64).natAbs ≤ 48 then 1 else 0 := by decide +kernel
    rw [key i hi]
    change (if ((i : Int) - 64) ≠ 0 ∧ ((i : Int) - 64) % 8 = 0 ∧ ((i : Int) - 64).natAbs ≤ 48 then ((Real.sqrt (104 / 12) : ℝ) : ℂ) else 0) = _
    split <;> simp [kappa]
  · have key : ∀ i < 64, (((stfCode 2).getD i 0 : Int) - 1 : Int) = if ((i : Int) - 32) ∈ [-12, -8, -4, 4, 12, 16, 24] then 1
      else if ((i : Int) - 32) ∈ [-24, -20, -16, 8, 20] then -1 else 0 := by decide +kernel
    rw [key i hi]
    change (if ((i : Int) - 32) ∈ [-12, -8, -4, 4, 12, 16, 24] then ((Real.sqrt (52 / 12) : ℝ) : ℂ) else if ((i : Int) - 32) ∈ [-24, -20, -16, 8, 20] then -((Real.sqrt (52 / 12) : ℝ) : ℂ) else 0) = _
    by_cases h1 : ((i : Int) - 32) ∈ [-12, -8, -4, 4, 12, 16, 24]
    · rw [if_pos h1, if_pos h1]; simp [kappa]
    · rw [if_neg h1, if_neg h1]
      by_cases h2 : ((i : Int) - 32) ∈ [-24, -20, -16, 8, 20]
      · rw [if_pos h2, if_pos h2]; simp [kappa]
      · rw [if_neg h2, if_neg h2]; simp
  · have key : ∀ i < 32, (((stfCode 3).getD i 0 : Int) - 1 : Int) = if ((i : Int) - 16) ≠ 0 ∧ ((i : Int) - 16) % 4 = 0 ∧ ((i : Int) - 16).natAbs ≤ 12 then 1 else 0 := by decide +kernel
    rw [key i hi]
    change (if ((i : Int) - 16) ≠ 0 ∧ ((i : Int) - 16) % 4 = 0 ∧ ((i : Int) - 16).natAbs ≤ 12 then ((Real.sqrt (26 / 6) : ℝ) : ℂ) else 0) = _
    split <;> simp [kappa]
  · have key : ∀ i < 16, (((stfCode 4).getD i 0 : Int) - 1 : Int) = if ((i : Int) - 8) ≠ 0 ∧ ((i : Int) - 8) % 2 = 0 ∧ ((i : Int) - 8).natAbs ≤ 6 then 1 else 0 := by decide +kernel
    rw [key i hi]
    change (if ((i : Int) - 8) ≠ 0 ∧ ((i : Int) - 8) % 2 = 0 ∧ ((i : Int) - 8).natAbs ≤ 6 then ((Real.sqrt (14 / 6) : ℝ) : ℂ) else 0) = _
    split <;> simp [kappa]

/-- The rounded amplitude. -/
theorem amp_close (o : Nat) (h : o = 1 ∨ o = 2 ∨ o = 3 ∨ o = 4) : |5 / 4 * kappa o - (amp o : ℝ) / 1000| ≤ 1 / 2000 ∧ 5 / 4 * kappa o ≤ 37 / 10 := by
  have s : ∀ (x a b : ℝ), 0 ≤ a → 0 ≤ b → a ^ 2 ≤ x → x ≤ b ^ 2 → a ≤ Real.sqrt x ∧ Real.sqrt x ≤ b := fun x a b ha hb h1 h2 =>
    ⟨Real.le_sqrt_of_sq_le h1, (Real.sqrt_le_left hb).2 h2⟩
  rcases h with rfl | rfl | rfl | rfl
  · obtain ⟨a, b⟩ := s (104 / 12) (29439 / 10000) (29440 / 10000) (by norm_num) (by norm_num) (by norm_num) (by norm_num)
    change |5 / 4 * Real.sqrt (104 / 12) - ((3680 : Nat) : ℝ) / 1000| ≤ 1 / 2000 ∧ 5 / 4 * Real.sqrt (104 / 12) ≤ 37 / 10
    rw [abs_le]
    push_cast
    exact ⟨⟨by linarith, by linarith⟩, by linarith⟩
  · obtain ⟨a, b⟩ := s (52 / 12) (20816 / 10000) (20817 / 10000) (by norm_num) (by norm_num) (by norm_num) (by norm_num)
    change |5 / 4 * Real.sqrt (52 / 12) - ((2602 : Nat) : ℝ) / 1000| ≤ 1 / 2000 ∧ 5 / 4 * Real.sqrt (52 / 12) ≤ 37 / 10
    rw [abs_le]
    push_cast
    exact ⟨⟨by linarith, by linarith⟩, by linarith⟩
  · obtain ⟨a, b⟩ := s (26 / 6) (20816 / 10000) (20817 / 10000) (by norm_num) (by norm_num) (by norm_num) (by norm_num)
    change |5 / 4 * Real.sqrt (26 / 6) - ((2602 : Nat) : ℝ) / 1000| ≤ 1 / 2000 ∧ 5 / 4 * Real.sqrt (26 / 6) ≤ 37 / 10
    rw [abs_le]
    push_cast
    exact ⟨⟨by linarith, by linarith⟩, by linarith⟩
  · obtain ⟨a, b⟩ := s (14 / 6) (152752 / 100000) (152753 / 100000) (by norm_num) (by norm_num) (by norm_num) (by norm_num)
    change |5 / 4 * Real.sqrt (14 / 6) - ((1909 : Nat) : ℝ) / 1000| ≤ 1 / 2000 ∧ 5 / 4 * Real.sqrt (14 / 6) ≤ 37 / 10
    rw [abs_le]
    push_cast
    exact ⟨⟨by linarith, by linarith⟩, by linarith⟩

end SunPhy.SyncCheck
