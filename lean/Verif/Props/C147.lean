import Verif.Proofs.Doubles
import Verif.Props.C70
import Verif.Props.C94
import Mathlib.Analysis.SpecialFunctions.Pow.Real
import Mathlib.Analysis.Convex.SpecificFunctions.Basic
import Mathlib.Analysis.Complex.ExponentialBounds
/-
C147 — the power-of-two test of `Ofdm_modulator` in double precision.
-/
namespace SunPhy.C147
open SunPhy Doubles
noncomputable section

/-- A correctly rounded logarithm. -/
def CorrectLog (ln : ℚ → ℚ) : Prop := ∀ q : ℚ, 0 < q → Nearest (ln q) (Real.log q)

/-- A logarithm with a relative error of at most `2^-52` (one unit in the last place). -/
def AccurateLog (ln : ℚ → ℚ) : Prop := ∀ q : ℚ, 0 < q → Within (1 / 2 ^ 52) (ln q) (Real.log q)

/-! ### Nearest doubles exist -/

theorem isDouble_neg {y : ℚ} (h : IsDouble y) : IsDouble (-y) := by
  obtain ⟨m, e, hm, rfl⟩ := h
  exact ⟨-m, e, by rwa [abs_neg], by push_cast; ring⟩

theorem exists_nearest_pos (x : ℝ) (hx : 0 < x) : ∃ y, Nearest y x ∧ Within (1 / 2 ^ 53) y x := by
  obtain ⟨n, h1, h2⟩ := exists_mem_Ico_zpow (y := (2 : ℝ)) hx (by norm_num)
  obtain ⟨e, rfl⟩ : ∃ e : ℤ, n = e + 52 := ⟨n - 52, by omega⟩
  have he : (0 : ℝ) < 2 ^ e := by positivity
  have a : (2 : ℝ) ^ 52 * 2 ^ e ≤ x := by
    rw [zpow_add₀ (by norm_num)] at h1
    norm_num at h1 ⊢
    linarith
  have b : x < (2 : ℝ) ^ 53 * 2 ^ e := by
    rw [show e + 52 + 1 = e + 53 by ring, zpow_add₀ (by norm_num)] at h2
    norm_num at h2 ⊢
    linarith
  have hqe : x = x / 2 ^ e * 2 ^ e := by field_simp
  have hr := abs_sub_round (x / 2 ^ e)
  have t1 : (2 : ℝ) ^ 52 ≤ x / 2 ^ e := by rw [le_div_iff₀ he]; exact a
  have t2 : x / 2 ^ e < 2 ^ 53 := by rw [div_lt_iff₀ he]; exact b
  have hround : ∀ j : ℤ, |((round (x / 2 ^ e) : ℤ) : ℝ) - x / 2 ^ e| ≤ |(j : ℝ) - x / 2 ^ e| := by
    intro j
    rw [abs_sub_comm, abs_sub_comm (j : ℝ)]
    exact round_le _ _
  generalize round (x / 2 ^ e) = m at *
  refine ⟨(m : ℚ) * 2 ^ e, ⟨?_, ?_⟩, ?_⟩
  · rw [abs_le] at hr
    have m1 : 0 ≤ m := by
      have : (0 : ℝ) ≤ m := by linarith [hr.2]
      exact_mod_cast this
    have m2 : m ≤ 2 ^ 53 := by
      have : (m : ℝ) < 2 ^ 53 + 1 := by linarith [hr.1]
      have : (m : ℝ) < ((2 ^ 53 + 1 : ℤ) : ℝ) := by norm_num at this ⊢; exact this
      have := Int.cast_lt.1 this
      omega
    rcases lt_or_eq_of_le m2 with m3 | m3
    · exact ⟨m, e, by rw [abs_of_nonneg m1]; exact m3, rfl⟩
    · refine ⟨2 ^ 52, e + 1, by norm_num, ?_⟩
      rw [m3, zpow_add₀ (by norm_num)]; push_cast; ring
  · rintro z ⟨j, f, hj, rfl⟩
    have hint : ∀ j : ℤ, |(m : ℝ) * 2 ^ e - x| ≤ |(j : ℝ) * 2 ^ e - x| := by
      intro j
      have e1 : (m : ℝ) * 2 ^ e - x = ((m : ℝ) - x / 2 ^ e) * 2 ^ e := by rw [sub_mul, ← hqe]
      have e2 : (j : ℝ) * 2 ^ e - x = ((j : ℝ) - x / 2 ^ e) * 2 ^ e := by rw [sub_mul, ← hqe]
      rw [e1, e2, abs_mul, abs_mul]
      exact mul_le_mul_of_nonneg_right (hround _) (abs_nonneg _)
    push_cast
    rcases le_or_gt e f with hf | hf
    · obtain ⟨n, rfl⟩ : ∃ n : ℕ, f = e + n := ⟨(f - e).toNat, by omega⟩
      have := hint (j * 2 ^ n)
      rw [zpow_add₀ (by norm_num : (2 : ℝ) ≠ 0), zpow_natCast]
      push_cast at this
      rw [show (j : ℝ) * (2 ^ e * 2 ^ n) = j * 2 ^ n * 2 ^ e by ring]
      exact this
    · have hlt : (j : ℝ) * 2 ^ f ≤ 2 ^ 52 * 2 ^ e := by
        have h1 : (j : ℝ) ≤ 2 ^ 53 := by
          have := (abs_lt.1 hj).2
          exact_mod_cast this.le
        have h2 : (2 : ℝ) ^ f ≤ 2 ^ (e - 1) := zpow_le_zpow_right₀ (by norm_num) (by omega)
        calc (j : ℝ) * 2 ^ f ≤ 2 ^ 53 * 2 ^ (e - 1) := mul_le_mul h1 h2 (by positivity) (by positivity)
          _ = 2 ^ 52 * 2 ^ e := by rw [zpow_sub₀ (by norm_num)]; norm_num; ring
      have h3 := hint (2 ^ 52)
      push_cast at h3
      refine h3.trans ?_
      rw [abs_of_nonpos (by linarith), abs_of_nonpos (by linarith)]
      linarith
  · unfold Within
    push_cast
    rw [abs_of_pos hx]
    have e1 : (m : ℝ) * 2 ^ e - x = -((x / 2 ^ e - m) * 2 ^ e) := by rw [sub_mul, ← hqe]; ring
    rw [e1, abs_neg, abs_mul, abs_of_pos he]
    calc |x / 2 ^ e - m| * 2 ^ e ≤ 1 / 2 * 2 ^ e := by gcongr
      _ = 1 / 2 ^ 53 * (2 ^ 52 * 2 ^ e) := by ring
      _ ≤ _ := by gcongr

theorem exists_nearest (x : ℝ) : ∃ y, Nearest y x ∧ Within (1 / 2 ^ 53) y x := by
  rcases lt_trichotomy x 0 with h | rfl | h
  · obtain ⟨y, ⟨hd, hn⟩, hw⟩ := exists_nearest_pos (-x) (by linarith)
    have hs : ∀ z : ℚ, |(z : ℝ) - x| = |((-z : ℚ) : ℝ) - -x| := by
      intro z
      rw [← abs_neg]
      congr 1
      push_cast
      ring
    refine ⟨-y, ⟨isDouble_neg hd, fun z hz => ?_⟩, ?_⟩
    · rw [hs, hs, neg_neg]
      exact hn _ (isDouble_neg hz)
    · unfold Within at *
      rw [hs, neg_neg]
      rwa [abs_neg x] at hw
  · refine ⟨0, ⟨⟨0, 0, by norm_num, by simp⟩, fun z _ => ?_⟩, ?_⟩
    · simp
    · unfold Within; simp
  · exact exists_nearest_pos x h

/-- There is a correctly rounded logarithm. -/
theorem correct_log_exists : ∃ ln, CorrectLog ln := by
  choose f hf using fun q : ℚ => exists_nearest (Real.log q)
  exact ⟨f, fun q _ => (hf q).1⟩

/-- It is accurate. -/
theorem correct_accurate {ln : ℚ → ℚ} (h : CorrectLog ln) : AccurateLog ln := by
  intro q hq
  obtain ⟨y, ⟨hd, -⟩, hw⟩ := exists_nearest (Real.log q)
  have h1 := (h q hq).2 y hd
  unfold Within at *
  refine (h1.trans hw).trans ?_
  gcongr <;> norm_num

/-! ### Numbers that are no powers of two -/

theorem log_low (k : ℕ) (hk : k ≤ 43) (n : ℝ) (h : 2 ^ k + 1 ≤ n) : ((k : ℝ) + 1 / 2 ^ 43) * Real.log 2 ≤ Real.log n := by
  have hl : 0 < Real.log 2 := Real.log_pos (by norm_num)
  have hu1 : (1 : ℝ) / 2 ^ k ≤ 1 := by rw [div_le_one (by positivity)]; exact one_le_pow₀ (by norm_num)
  have hu : (1 : ℝ) / 2 ^ 43 ≤ 1 / 2 ^ k := by gcongr; norm_num
  have h1 : (1 / 2 ^ k : ℝ) * Real.log 2 ≤ Real.log (1 + 1 / 2 ^ k) := by
    rw [← Real.log_rpow (by norm_num)]
    apply Real.log_le_log (by positivity)
    have := rpow_one_add_le_one_add_mul_self (s := 1) (by norm_num) (p := 1 / 2 ^ k) (by positivity) hu1
    norm_num at this ⊢
    exact this
  have h2 : Real.log (2 ^ k * (1 + 1 / 2 ^ k)) ≤ Real.log n := by
    apply Real.log_le_log (by positivity)
    rw [mul_add, mul_one_div_cancel (by positivity)]
    linarith
  rw [Real.log_mul (by positivity) (by positivity), Real.log_pow] at h2
  have h3 := mul_le_mul_of_nonneg_right hu hl.le
  linarith

theorem log_high (k : ℕ) (hk : k ≤ 43) (n : ℝ) (h0 : 0 < n) (h : n ≤ 2 ^ (k + 1) - 1) : Real.log n ≤ ((k : ℝ) + 1 - 1 / 2 ^ 44) * Real.log 2 := by
  have hl : 0 < Real.log 2 := Real.log_pos (by norm_num)
  have hl1 : Real.log 2 ≤ 1 := by have := Real.log_two_lt_d9; linarith
  have hu1 : (1 : ℝ) / 2 ^ (k + 1) < 1 := by rw [div_lt_one (by positivity)]; exact one_lt_pow₀ (by norm_num) (by omega)
  have hu : (1 : ℝ) / 2 ^ 44 ≤ 1 / 2 ^ (k + 1) := by gcongr <;> [norm_num; omega]
  have h1 : Real.log (1 - 1 / 2 ^ (k + 1)) ≤ -(1 / 2 ^ (k + 1)) := by
    have := Real.log_le_sub_one_of_pos (x := 1 - 1 / 2 ^ (k + 1)) (by linarith)
    linarith
  have h2 : Real.log n ≤ Real.log (2 ^ (k + 1) * (1 - 1 / 2 ^ (k + 1))) := by
    apply Real.log_le_log h0
    rw [mul_sub, mul_one_div_cancel (by positivity)]
    linarith
  rw [Real.log_mul (by positivity) (by linarith), Real.log_pow] at h2
  push_cast at h2
  have h3 : (1 : ℝ) / 2 ^ 44 * Real.log 2 ≤ 1 / 2 ^ 44 := mul_le_of_le_one_right (by positivity) hl1
  linarith

theorem not_integer {b : ℚ} {k : ℕ} (h1 : (k : ℚ) < b) (h2 : b < k + 1) : (b.den == 1) = false := by
  rw [beq_eq_false_iff_ne]
  intro hd
  have e : ((b.num : ℤ) : ℚ) = b := by
    conv_rhs => rw [← Rat.num_div_den b, hd]
    simp
  rw [← e] at h1 h2
  have a1 : (k : ℤ) < b.num := by exact_mod_cast h1
  have a2 : b.num < (k : ℤ) + 1 := by exact_mod_cast h2
  omega

/-- Between two powers of two the computed quotient is not an integer. -/
theorem between {ln : ℚ → ℚ} (h : AccurateLog ln) (k n : ℕ) (hk : k ≤ 43) (h1 : 2 ^ k < n) (h2 : n < 2 ^ (k + 1)) : logIsInteger ln n = .ok false := by
  have hn44 : n < 2 ^ 44 := lt_of_lt_of_le h2 (Nat.pow_le_pow_right (by norm_num) (by omega))
  have hn0 : 0 < n := by omega
  unfold logIsInteger
  rw [if_neg (by omega)]
  have e : binary64 (((n : ℕ) : ℤ) : ℚ) = (n : ℚ) := by
    rw [Int.cast_natCast]
    exact C94.binary64_nat n (by omega)
  rw [e]
  have a1 := h (n : ℚ) (by exact_mod_cast hn0)
  have a2 := h 2 (by norm_num)
  have hl : 0 < Real.log 2 := Real.log_pos (by norm_num)
  have low := log_low k hk (n : ℝ) (by exact_mod_cast h1)
  have high := log_high k hk (n : ℝ) (by exact_mod_cast hn0) (by
    have : (n : ℝ) + 1 ≤ 2 ^ (k + 1) := by exact_mod_cast h2
    linarith)
  unfold Within at a1 a2
  have hk0 : (0 : ℝ) ≤ k := by positivity
  have hk43 : (k : ℝ) ≤ 43 := by exact_mod_cast hk
  have hx : 0 ≤ Real.log n := le_trans (by positivity) low
  rw [show (((n : ℕ) : ℚ) : ℝ) = (n : ℝ) by norm_cast, abs_of_nonneg hx] at a1
  rw [show ((2 : ℚ) : ℝ) = 2 by norm_cast, abs_of_pos hl] at a2
  obtain ⟨a11, a12⟩ := abs_le.1 a1
  obtain ⟨a21, a22⟩ := abs_le.1 a2
  generalize ln (n : ℚ) = A at *
  generalize ln 2 = B at *
  generalize Real.log (n : ℝ) = x at *
  generalize Real.log 2 = l at *
  have hB : (0 : ℝ) < B := by
    have : 0 < l * (1 - 1 / 2 ^ 52) := mul_pos hl (by norm_num)
    linarith
  have hB' : 0 < B := by exact_mod_cast hB
  -- the quotient
  have q1 : ((k : ℝ) + 1 / 2 ^ 44) * B < A := by
    have s1 : ((k : ℝ) + 1 / 2 ^ 44) * B ≤ ((k : ℝ) + 1 / 2 ^ 44) * (l * (1 + 1 / 2 ^ 52)) := by
      apply mul_le_mul_of_nonneg_left _ (by positivity)
      linarith
    have s2 : ((k : ℝ) + 1 / 2 ^ 43) * l * (1 - 1 / 2 ^ 52) ≤ x * (1 - 1 / 2 ^ 52) := mul_le_mul_of_nonneg_right low (by norm_num)
    have s3 : ((k : ℝ) + 1 / 2 ^ 44) * (1 + 1 / 2 ^ 52) < ((k : ℝ) + 1 / 2 ^ 43) * (1 - 1 / 2 ^ 52) := by
      norm_num
      linarith
    have s4 := mul_lt_mul_of_pos_right s3 hl
    linarith
  have q2 : (A : ℝ) < ((k : ℝ) + 1 - 1 / 2 ^ 45) * B := by
    have hp : (0 : ℝ) ≤ (k : ℝ) + 1 - 1 / 2 ^ 45 := by
      have : (1 : ℝ) / 2 ^ 45 ≤ 1 := by norm_num
      linarith
    have s1 : ((k : ℝ) + 1 - 1 / 2 ^ 45) * (l * (1 - 1 / 2 ^ 52)) ≤ ((k : ℝ) + 1 - 1 / 2 ^ 45) * B := by
      apply mul_le_mul_of_nonneg_left _ hp
      linarith
    have s2 : x * (1 + 1 / 2 ^ 52) ≤ ((k : ℝ) + 1 - 1 / 2 ^ 44) * l * (1 + 1 / 2 ^ 52) := mul_le_mul_of_nonneg_right high (by norm_num)
    have s3 : ((k : ℝ) + 1 - 1 / 2 ^ 44) * (1 + 1 / 2 ^ 52) < ((k : ℝ) + 1 - 1 / 2 ^ 45) * (1 - 1 / 2 ^ 52) := by
      norm_num
      linarith
    have s4 := mul_lt_mul_of_pos_right s3 hl
    linarith
  have q1' : (k : ℚ) + 1 / 2 ^ 44 < A / B := by
    rw [lt_div_iff₀ hB', ← Rat.cast_lt (K := ℝ)]
    push_cast
    exact q1
  have q2' : A / B < (k : ℚ) + 1 - 1 / 2 ^ 45 := by
    rw [div_lt_iff₀ hB', ← Rat.cast_lt (K := ℝ)]
    push_cast
    exact q2
  have hk0' : (0 : ℚ) ≤ k := by positivity
  have hk43' : (k : ℚ) ≤ 43 := by exact_mod_cast hk
  have hqpos : 0 < A / B := lt_trans (by positivity) q1'
  obtain ⟨r1, r2⟩ := abs_le.1 (C44.binary64_rounds _ hqpos)
  generalize A / B = q at *
  clear a1 a2 a11 a12 a21 a22 low high q1 q2 hB hB' hx hl hk43 hk0 e
  rw [not_integer (k := k)] <;> norm_num at q1' q2' r1 r2 <;> linarith

/-! ### Powers of two -/

/-- The powers of two below `2^64` that a correctly rounded logarithm makes the constructor refuse. -/
def refusedPowers : List Nat := [29, 31, 39, 47, 51, 55, 58, 59, 62]

theorem same_rounding : ∀ k ∈ List.range 64, binary64 ((k : ℚ) * lnLo) = binary64 ((k : ℚ) * lnHi) := by
  unfold lnLo lnHi
  decide +kernel

theorem power_table : ∀ k ∈ List.range 64, ((binary64 (binary64 ((k : ℚ) * lnLo) / binary64 ((1 : ℕ) * lnLo))).den == 1) = !decide (k ∈ refusedPowers) := by
  unfold lnLo refusedPowers
  decide +kernel

theorem binary64_pow (k : ℕ) : binary64 ((2 : ℚ) ^ k) = 2 ^ k := by
  have h := Float64.binary64_int (2 ^ 52) ((k : ℤ) - 52) le_rfl (by norm_num)
  have e : (((2 ^ 52 : ℤ)) : ℚ) * 2 ^ ((k : ℤ) - 52) = 2 ^ k := by
    rw [zpow_sub₀ (by norm_num), zpow_natCast]
    push_cast
    norm_num
    ring
  rwa [e] at h

theorem lnLo_pos : 0 < lnLo := by unfold lnLo; norm_num

theorem ln_pow {ln : ℚ → ℚ} (h : CorrectLog ln) (k : ℕ) (hk : k < 64) : ln (2 ^ k) = binary64 ((k : ℚ) * lnLo) := by
  have hN := h ((2 : ℚ) ^ k) (by positivity)
  have e : Real.log (((2 : ℚ) ^ k : ℚ) : ℝ) = k * Real.log 2 := by
    push_cast
    rw [Real.log_pow]
  rw [e] at hN
  obtain ⟨l1, l2⟩ := ln_two
  rcases Nat.eq_zero_or_pos k with rfl | h0
  · have := hN.2 0 ⟨0, 0, by norm_num, by simp⟩
    simp only [Nat.cast_zero, zero_mul, sub_zero, Rat.cast_zero, abs_zero] at this
    have h1 : ((ln (2 ^ 0) : ℚ) : ℝ) = 0 := abs_eq_zero.1 (le_antisymm this (abs_nonneg _))
    have h2 : ln (2 ^ 0) = 0 := by exact_mod_cast h1
    rw [h2, Nat.cast_zero, zero_mul]
    rfl
  · have hk0 : (0 : ℝ) < k := by exact_mod_cast h0
    have hk0' : (0 : ℚ) < k := by exact_mod_cast h0
    refine nearest_eq hN (mul_pos hk0' lnLo_pos) ?_ ?_ (same_rounding k (List.mem_range.2 hk))
    · push_cast
      exact mul_lt_mul_of_pos_left l1 hk0
    · push_cast
      exact mul_lt_mul_of_pos_left l2 hk0

theorem powers {ln : ℚ → ℚ} (h : CorrectLog ln) (k : ℕ) (hk : k < 64) : logIsInteger ln (2 ^ k) = .ok (!decide (k ∈ refusedPowers)) := by
  unfold logIsInteger
  rw [if_neg (by have : (0 : ℤ) < 2 ^ k := by positivity
                 omega)]
  push_cast
  have h1 := ln_pow h 1 (by norm_num)
  rw [pow_one] at h1
  rw [binary64_pow, ln_pow h k hk, h1, power_table k (List.mem_range.2 hk)]

/-- What the test says about a number below `2^44`. -/
theorem test_small {ln : ℚ → ℚ} (h : CorrectLog ln) (n : Int) (hn : n < 2 ^ 44) (h29 : n ≠ 2 ^ 29) (h31 : n ≠ 2 ^ 31) (h39 : n ≠ 2 ^ 39) :
    (do ofdmRequire (← logIsInteger ln n)) = ofdmRequire (isPowerOfTwo n) := by
  by_cases h0 : n ≤ 0
  · unfold logIsInteger isPowerOfTwo
    rw [if_pos h0, decide_eq_false (by omega)]
    rfl
  · obtain ⟨m, rfl⟩ : ∃ m : ℕ, n = m := ⟨n.toNat, by omega⟩
    have hm : m ≠ 0 := by omega
    have b1 := Nat.log2_self_le hm
    have b2 := Nat.lt_log2_self (n := m)
    have hk : m.log2 < 44 := by
      by_contra hc
      have : 2 ^ 44 ≤ 2 ^ m.log2 := Nat.pow_le_pow_right (by norm_num) (by omega)
      have : (m : ℤ) < 2 ^ 44 := hn
      omega
    unfold isPowerOfTwo
    rw [Int.toNat_natCast]
    rcases Nat.lt_or_eq_of_le b1 with hlt | heq
    · rw [between (correct_accurate h) _ m (by omega) hlt b2, decide_eq_false (by
        rintro ⟨-, e⟩
        have : 2 ^ m.log2 = m := by exact_mod_cast e
        omega)]
      rfl
    · have e : (m : ℤ) = 2 ^ m.log2 := by
        have := heq.symm
        exact_mod_cast this
      have hnot : m.log2 ∉ refusedPowers := by
        intro hmem
        unfold refusedPowers at hmem
        simp only [List.mem_cons, List.not_mem_nil, or_false] at hmem
        rcases hmem with e' | e' | e' | e' | e' | e' | e' | e' | e' <;> rw [e'] at e <;> first | omega | exact h29 e | exact h31 e | exact h39 e
      rw [decide_eq_true (show 0 < (m : ℤ) ∧ (2 : ℤ) ^ m.log2 = m from ⟨by omega, e.symm⟩)]
      rw [e, powers h _ (by omega), decide_eq_false hnot]
      rfl

variable {α : Type} (ln : ℚ → ℚ) (N mod pl pr fs : PyVal) (idx : IndicesArg) (vals : ValuesArg α) (ips seed : PyVal)

theorem init_of_test (n : Int) (hN : N.asInt? = some n) (ht : (do ofdmRequire (← logIsInteger ln n)) = ofdmRequire (isPowerOfTwo n)) :
    ofdmInitF ln N mod pl pr fs idx vals ips seed = ofdmInit N mod pl pr fs idx vals ips seed := by
  unfold ofdmInitF ofdmInit ofdmCheckInt
  rw [hN]
  simp only [bind, Except.bind] at ht ⊢
  rw [← ht]
  cases logIsInteger ln n <;> rfl

theorem init_of_false (n : Int) (hN : N.asInt? = some n) (ht : (do ofdmRequire (← logIsInteger ln n)) = .error .ValueError) :
    ofdmInitF ln N mod pl pr fs idx vals ips seed = .error .ValueError := by
  unfold ofdmInitF ofdmCheckInt
  rw [hN]
  simp only [bind, Except.bind] at ht ⊢
  cases e : logIsInteger ln n with
  | error x =>
    rw [e] at ht
    simp only at ht ⊢
    rw [Except.error.inj ht]
  | ok b =>
    rw [e] at ht
    simp only at ht ⊢
    rw [ht]

/-- **C147 (sizes below 2^44).**  With a correctly rounded logarithm the constructor answers as C70 says for every size below `2^44` except `2^29`, `2^31` and `2^39`. -/
theorem C147_small (h : CorrectLog ln) (hN : ∀ n, N.asInt? = some n → n < 2 ^ 44 ∧ n ≠ 2 ^ 29 ∧ n ≠ 2 ^ 31 ∧ n ≠ 2 ^ 39) :
    ofdmInitF ln N mod pl pr fs idx vals ips seed = ofdmInit N mod pl pr fs idx vals ips seed := by
  cases e : N.asInt? with
  | none =>
    unfold ofdmInitF ofdmInit ofdmCheckInt
    rw [e]
    rfl
  | some n =>
    obtain ⟨a, b, c, d⟩ := hN n e
    exact init_of_test ln N mod pl pr fs idx vals ips seed n e (test_small h n a b c d)

/-- **C147 (no power of two).**  Every size below `2^44` that is no power of two is refused, also by a logarithm that is wrong by a unit in the last place. -/
theorem C147_refused (h : AccurateLog ln) (n : Int) (hN : N.asInt? = some n) (hn : n < 2 ^ 44) (hp : ∀ k : ℕ, n ≠ 2 ^ k) :
    ofdmInitF ln N mod pl pr fs idx vals ips seed = .error .ValueError := by
  apply init_of_false ln N mod pl pr fs idx vals ips seed n hN
  by_cases h0 : n ≤ 0
  · unfold logIsInteger
    rw [if_pos h0]
    rfl
  · obtain ⟨m, rfl⟩ : ∃ m : ℕ, n = m := ⟨n.toNat, by omega⟩
    have hm : m ≠ 0 := by omega
    have b1 := Nat.log2_self_le hm
    have b2 := Nat.lt_log2_self (n := m)
    have hk : m.log2 < 44 := by
      by_contra hc
      have : 2 ^ 44 ≤ 2 ^ m.log2 := Nat.pow_le_pow_right (by norm_num) (by omega)
      omega
    have hne : 2 ^ m.log2 ≠ m := fun e => hp m.log2 (by exact_mod_cast e.symm)
    rw [between h _ m (by omega) (by omega) b2]
    rfl

/-- **C147 (powers of two).**  With a correctly rounded logarithm, `2^k` is refused for nine exponents below 64 and otherwise handled as C70 says. -/
theorem C147_powers (h : CorrectLog ln) (k : ℕ) (hk : k < 64) (hN : N.asInt? = some (2 ^ k)) :
    (k ∈ [29, 31, 39, 47, 51, 55, 58, 59, 62] → ofdmInitF ln N mod pl pr fs idx vals ips seed = .error .ValueError) ∧
    (k ∉ [29, 31, 39, 47, 51, 55, 58, 59, 62] → ofdmInitF ln N mod pl pr fs idx vals ips seed = ofdmInit N mod pl pr fs idx vals ips seed) := by
  have hpow : isPowerOfTwo (2 ^ k) = true := by
    unfold isPowerOfTwo
    rw [show ((2 : ℤ) ^ k).toNat = 2 ^ k by exact_mod_cast Int.toNat_natCast (2 ^ k), Nat.log2_two_pow]
    exact decide_eq_true ⟨by positivity, rfl⟩
  have ht := powers h k hk
  constructor
  · intro hm
    apply init_of_false ln N mod pl pr fs idx vals ips seed _ hN
    rw [ht, decide_eq_true (show k ∈ refusedPowers from hm)]
    rfl
  · intro hm
    apply init_of_test ln N mod pl pr fs idx vals ips seed _ hN
    rw [ht, decide_eq_false (show k ∉ refusedPowers from hm), hpow]
    rfl

/-! ### A size that is no power of two -/

theorem log_48 : (((48 : ℕ) : ℚ) * lnLo - 1 / 2 ^ 48 - 1 / 2 ^ 90 : ℚ) < Real.log (((2 ^ 48 - 1 : ℕ) : ℚ) : ℝ) ∧ Real.log (((2 ^ 48 - 1 : ℕ) : ℚ) : ℝ) < (((48 : ℕ) : ℚ) * lnHi - 1 / 2 ^ 48 : ℚ) := by
  obtain ⟨l1, l2⟩ := ln_two
  have e : Real.log (((2 ^ 48 - 1 : ℕ) : ℚ) : ℝ) = 48 * Real.log 2 + Real.log (1 - 1 / 2 ^ 48) := by
    have : (((2 ^ 48 - 1 : ℕ) : ℚ) : ℝ) = 2 ^ 48 * (1 - 1 / 2 ^ 48) := by norm_num
    rw [this, Real.log_mul (by norm_num) (by norm_num), Real.log_pow]
    norm_num
  have h1 : Real.log (1 - 1 / 2 ^ 48) ≤ -(1 / 2 ^ 48) := by
    have := Real.log_le_sub_one_of_pos (x := 1 - 1 / 2 ^ 48) (by norm_num)
    linarith
  have h2 : 1 - (1 - 1 / 2 ^ 48 : ℝ)⁻¹ ≤ Real.log (1 - 1 / 2 ^ 48) := Real.one_sub_inv_le_log_of_pos (by norm_num)
  have h3 : -(1 / 2 ^ 48 : ℝ) - 1 / 2 ^ 90 ≤ 1 - (1 - 1 / 2 ^ 48 : ℝ)⁻¹ := by norm_num
  rw [e]
  push_cast
  constructor <;> linarith

theorem table_48 : binary64 (((48 : ℕ) : ℚ) * lnLo - 1 / 2 ^ 48 - 1 / 2 ^ 90) = binary64 (((48 : ℕ) : ℚ) * lnHi - 1 / 2 ^ 48) ∧
    0 < ((48 : ℕ) : ℚ) * lnLo - 1 / 2 ^ 48 - 1 / 2 ^ 90 ∧
    (binary64 (binary64 (((48 : ℕ) : ℚ) * lnLo - 1 / 2 ^ 48 - 1 / 2 ^ 90) / binary64 ((1 : ℕ) * lnLo))).den = 1 := by
  unfold lnLo lnHi
  decide +kernel

/-- **C147 (accepted by mistake).**  With a correctly rounded logarithm the size `2^48 - 1` passes the test, so the test is not that for powers of two. -/
theorem C147_accepted (h : CorrectLog ln) : logIsInteger ln (2 ^ 48 - 1) = .ok true ∧ isPowerOfTwo (2 ^ 48 - 1) = false ∧
    ∃ s : OfdmStored α, ofdmInitF ln (.int (2 ^ 48 - 1)) (.str "BPSK") (.int 0) (.int 0) (.int 1) .none .none (.int 0) (.int 1) = .ok s ∧ s.nFFT = 2 ^ 48 - 1 := by
  have ht : logIsInteger ln (2 ^ 48 - 1) = .ok true := by
    unfold logIsInteger
    rw [if_neg (by norm_num)]
    have e : binary64 (((2 ^ 48 - 1 : ℤ)) : ℚ) = ((2 ^ 48 - 1 : ℕ) : ℚ) := by
      have := C94.binary64_nat (2 ^ 48 - 1) (by norm_num)
      rw [← this]
      norm_num
    obtain ⟨t1, t2, t3⟩ := table_48
    have h1 := ln_pow h 1 (by norm_num)
    rw [pow_one] at h1
    rw [e, h1, nearest_eq (h _ (by norm_num)) t2 log_48.1 log_48.2 t1, t3]
    rfl
  refine ⟨ht, by decide +kernel, ?_⟩
  unfold ofdmInitF
  rw [show ofdmCheckInt (.int (2 ^ 48 - 1)) = .ok (2 ^ 48 - 1) from rfl]
  simp only [bind, Except.bind]
  rw [ht]
  exact ⟨_, rfl, rfl⟩

/-! ### Not vacuous -/

example : ∃ ln : ℚ → ℚ, CorrectLog ln ∧ AccurateLog ln := correct_log_exists.imp fun _ h => ⟨h, correct_accurate h⟩
-- the sizes of MR-OFDM
example (ln : ℚ → ℚ) (h : CorrectLog ln) : ∃ s : OfdmStored ℚ, ofdmInitF ln (.int 128) (.str "BPSK") (.int 12) (.int 11) (.int 4) .none .none (.int 0) (.int 511) = .ok s := by
  rw [C147_small ln _ _ _ _ _ _ _ _ _ h (by
    intro n hn
    rw [← Option.some.inj hn]
    norm_num)]
  exact ⟨_, rfl⟩
-- 100 is refused, 2^29 too
example (ln : ℚ → ℚ) (h : CorrectLog ln) : ofdmInitF (α := ℚ) ln (.int 100) (.str "BPSK") (.int 12) (.int 11) (.int 4) .none .none (.int 0) (.int 511) = .error .ValueError := by
  refine C147_refused ln _ _ _ _ _ _ _ _ _ (correct_accurate h) 100 rfl (by norm_num) fun k e => ?_
  have e' : (100 : ℕ) = 2 ^ k := by exact_mod_cast e
  have : k < 7 := by
    by_contra hc
    have := Nat.pow_le_pow_right (n := 2) (by norm_num) (show 7 ≤ k by omega)
    omega
  interval_cases k <;> omega
example (ln : ℚ → ℚ) (h : CorrectLog ln) : ofdmInitF (α := ℚ) ln (.int (2 ^ 29)) (.str "BPSK") (.int 12) (.int 11) (.int 4) .none .none (.int 0) (.int 511) = .error .ValueError :=
  (C147_powers ln _ _ _ _ _ _ _ _ _ h 29 (by norm_num) rfl).1 (by decide)

end
end SunPhy.C147
