import Verif.Spec.OqpskPulse
import Verif.Model.MrOqpskSignal
import Mathlib.Analysis.SpecialFunctions.Trigonometric.Deriv
import Mathlib.Analysis.Calculus.Deriv.Slope
import Mathlib.Analysis.Calculus.Deriv.Pow
/-
C62 — MR-O-QPSK pulse shapes on the sampling grid.
-/
namespace SunPhy.C62
open SunPhy Spec Filter Topology

/-- The factor of the raised cosine that is divided by. -/
noncomputable def denominator (u : ℝ) : ℝ := 1 - (8 / 5 * u) ^ 2

/-- **C62 (half sine).**  `half_sine` vanishes outside `[0, 2Tc]`, is positive inside and at most 1, and has no jump at the ends. -/
theorem C62_half_sine (t Tc : ℝ) (hT : 0 < Tc) :
    (t ≤ 0 ∨ 2 * Tc ≤ t → halfSine t Tc = 0) ∧ (0 < t → t < 2 * Tc → 0 < halfSine t Tc) ∧ |halfSine t Tc| ≤ 1 := by
  refine ⟨?_, ?_, ?_⟩
  · intro h
    unfold halfSine
    split
    · rename_i hc
      rcases h with h | h
      · rw [le_antisymm h hc.1]; simp
      · rw [le_antisymm hc.2 h, mul_div_assoc, div_self (by positivity)]; simp
    · rfl
  · intro h1 h2
    unfold halfSine
    rw [if_pos ⟨h1.le, h2.le⟩]
    apply Real.sin_pos_of_pos_of_lt_pi
    · positivity
    · rw [div_lt_iff₀ (by positivity)]
      exact mul_lt_mul_of_pos_left h2 Real.pi_pos
  · unfold halfSine
    split
    · exact Real.abs_sin_le_one _
    · simp

theorem grid (sps j : Nat) (hs : 1 ≤ sps) (u : ℝ) : -2 + 4 * (j : ℝ) / sps = u ↔ 4 * (j : ℝ) = (u + 2) * sps := by
  have h : (sps : ℝ) ≠ 0 := by exact_mod_cast (show sps ≠ 0 by omega)
  constructor
  · intro e; rw [← e]; field_simp; ring
  · intro e; rw [e]; field_simp; ring

theorem denominator_zero (u : ℝ) : denominator u = 0 ↔ u = 5 / 8 ∨ u = -(5 / 8) := by
  unfold denominator
  constructor
  · intro h
    have : (u - 5 / 8) * (u + 5 / 8) = 0 := by nlinarith
    rcases mul_eq_zero.1 this with h | h
    · left; linarith
    · right; linarith
  · rintro (rfl | rfl) <;> norm_num

/-- **C62 (singular samples).**  Sample `j` of the raised cosine divides by zero exactly for `32·j = 11·sps` or `32·j = 21·sps`; such a
sample exists exactly when 32 divides the samples per symbol. -/
theorem C62_singular (sps : Nat) (hs : 1 ≤ sps) :
    (∀ j : Nat, denominator (-2 + 4 * (j : ℝ) / sps) = 0 ↔ 32 * j = 11 * sps ∨ 32 * j = 21 * sps) ∧
    ((∃ j < sps, denominator (-2 + 4 * (j : ℝ) / sps) = 0) ↔ 32 ∣ sps) := by
  have h : ∀ j : Nat, denominator (-2 + 4 * (j : ℝ) / sps) = 0 ↔ 32 * j = 11 * sps ∨ 32 * j = 21 * sps := by
    intro j
    rw [denominator_zero, grid sps j hs, grid sps j hs, or_comm]
    apply or_congr
    · constructor
      · intro e; have : (32 * (j : ℝ)) = 11 * sps := by linarith
        exact_mod_cast this
      · intro e; have : (32 * (j : ℝ)) = 11 * sps := by exact_mod_cast e
        linarith
    · constructor
      · intro e; have : (32 * (j : ℝ)) = 21 * sps := by linarith
        exact_mod_cast this
      · intro e; have : (32 * (j : ℝ)) = 21 * sps := by exact_mod_cast e
        linarith
  refine ⟨h, ?_⟩
  constructor
  · rintro ⟨j, -, hj⟩
    rcases (h j).1 hj with e | e <;> omega
  · rintro ⟨k, rfl⟩
    exact ⟨11 * k, by omega, (h _).2 (Or.inl (by omega))⟩

/-- **C62 (partial: finite samples).**  When 32 does not divide the samples per symbol, no sample of the pulse divides by zero and
`pulseSample` is the textbook value. -/
theorem C62_finite_partial (sps : Nat) (hs : 1 ≤ sps) (h : ¬ 32 ∣ sps) (j : Nat) (hj : j < sps) : denominator (-2 + 4 * (j : ℝ) / sps) ≠ 0 :=
  fun hz => h (((C62_singular sps hs).2).1 ⟨j, hj, hz⟩)

/-- **C62 (refutation).**  For 32, 64, … samples per symbol the raised cosine divides by zero. -/
theorem C62_false (k : Nat) (hk : 1 ≤ k) : ∃ j < 32 * k, denominator (-2 + 4 * (j : ℝ) / (32 * k : ℕ)) = 0 :=
  ((C62_singular (32 * k) (by omega)).2).2 ⟨k, rfl⟩

/-- **C62 (removable).**  The singularity is removable: near `u = 5/8` the pulse tends to `sin(5π/8)/(5π/8) · π/4`. -/
theorem C62_limit : Tendsto raisedCosinePulse (𝓝[≠] (5 / 8)) (𝓝 (Real.sin (Real.pi * (5 / 8)) / (Real.pi * (5 / 8)) * (Real.pi / 4))) := by
  have hcos : HasDerivAt (fun u : ℝ => Real.cos (4 / 5 * Real.pi * u)) (-Real.sin (4 / 5 * Real.pi * (5 / 8)) * (4 / 5 * Real.pi)) (5 / 8) := by
    have h1 : HasDerivAt (fun u : ℝ => 4 / 5 * Real.pi * u) (4 / 5 * Real.pi) (5 / 8) := by
      simpa using (hasDerivAt_id (5 / 8 : ℝ)).const_mul (4 / 5 * Real.pi)
    exact h1.cos
  have hden : HasDerivAt denominator (-(16 / 5)) (5 / 8) := by
    unfold denominator
    have h0 : HasDerivAt (fun u : ℝ => 8 / 5 * u) (8 / 5) (5 / 8 : ℝ) := by
      simpa using (hasDerivAt_id (5 / 8 : ℝ)).const_mul (8 / 5)
    have h2 := (h0.pow 2).const_sub 1
    have e : (-(16 / 5) : ℝ) = -(((2 : ℕ) : ℝ) * (8 / 5 * (5 / 8)) ^ (2 - 1) * (8 / 5)) := by norm_num
    rw [e]
    exact h2
  have half : 4 / 5 * Real.pi * (5 / 8) = Real.pi / 2 := by ring
  rw [half, Real.sin_pi_div_two] at hcos
  have c0 : Real.cos (4 / 5 * Real.pi * (5 / 8)) = 0 := by rw [half, Real.cos_pi_div_two]
  have d0 : denominator (5 / 8) = 0 := (denominator_zero _).2 (Or.inl rfl)
  have s1 := hcos.tendsto_slope
  have s2 := hden.tendsto_slope
  have ratio := s1.div s2 (by norm_num)
  have sinc : Tendsto (fun u : ℝ => Real.sin (Real.pi * u) / (Real.pi * u)) (𝓝[≠] (5 / 8)) (𝓝 (Real.sin (Real.pi * (5 / 8)) / (Real.pi * (5 / 8)))) := by
    apply Tendsto.mono_left _ nhdsWithin_le_nhds
    apply ContinuousAt.tendsto
    apply ContinuousAt.div
    · fun_prop
    · fun_prop
    · have := Real.pi_pos; positivity
  have prod := sinc.mul ratio
  have e : (-1 * (4 / 5 * Real.pi)) / (-(16 / 5)) = Real.pi / 4 := by ring
  rw [e] at prod
  refine prod.congr' ?_
  have ev : ∀ᶠ u in 𝓝[≠] (5 / 8 : ℝ), u ≠ 5 / 8 := eventually_mem_nhdsWithin
  have ev2 : ∀ᶠ u in 𝓝[≠] (5 / 8 : ℝ), u ≠ 0 := by
    apply Filter.Eventually.filter_mono nhdsWithin_le_nhds
    exact isOpen_ne.mem_nhds (by norm_num)
  filter_upwards [ev, ev2] with u hu h0
  unfold raisedCosinePulse
  rw [if_neg h0]
  simp only [slope_def_field, c0, d0, sub_zero, Pi.div_apply]
  rw [div_div_div_cancel_right₀ (sub_ne_zero.2 hu)]
  rfl

/-- **C62 (non-zero samples).**  The pulse has a non-zero sample exactly from 3 samples per symbol (half sine), or 2 (raised cosine). -/
theorem C62_nonzero (b : Band) (sps : Nat) :
    (∃ j < sps, pulseSample b sps j ≠ 0) ↔ (if b = .b915 ∨ b = .b2450 then 3 ≤ sps else 2 ≤ sps) := by
  have half : (∃ j < sps, halfSinePulse (-2 + 4 * (j : ℝ) / sps) ≠ 0) ↔ 3 ≤ sps := by
    constructor
    · rintro ⟨j, hj, hne⟩
      by_contra hs
      have : sps = 1 ∨ sps = 2 := by omega
      apply hne
      unfold halfSinePulse
      rcases this with rfl | rfl
      · obtain rfl : j = 0 := by omega
        norm_num
      · have : j = 0 ∨ j = 1 := by omega
        rcases this with rfl | rfl <;> norm_num
    · intro hs
      refine ⟨sps - 1, by omega, ?_⟩
      have h3 : (3 : ℝ) ≤ sps := by exact_mod_cast hs
      have e : -2 + 4 * ((sps - 1 : ℕ) : ℝ) / sps = 2 - 4 / sps := by
        rw [Nat.cast_sub (by omega)]; field_simp; push_cast; ring
      rw [e]
      have h4 : 4 / (sps : ℝ) ≤ 4 / 3 := div_le_div_of_nonneg_left (by norm_num) (by norm_num) h3
      have h5 : 0 < 4 / (sps : ℝ) := by positivity
      unfold halfSinePulse
      rw [if_pos ⟨by linarith, by linarith⟩]
      apply ne_of_gt
      apply Real.sin_pos_of_pos_of_lt_pi
      · have := Real.pi_pos
        have : 0 < 2 - 4 / (sps : ℝ) := by linarith
        positivity
      · have := Real.pi_pos
        nlinarith
  have rc : (∃ j < sps, raisedCosinePulse (-2 + 4 * (j : ℝ) / sps) ≠ 0) ↔ 2 ≤ sps := by
    constructor
    · rintro ⟨j, hj, hne⟩
      by_contra hs
      obtain rfl : sps = 1 := by omega
      obtain rfl : j = 0 := by omega
      apply hne
      unfold raisedCosinePulse
      norm_num
      rw [mul_comm, Real.sin_two_mul]; simp
    · intro hs
      rcases Nat.even_or_odd' sps with ⟨k, rfl | rfl⟩
      · refine ⟨k, by omega, ?_⟩
        have hk : (k : ℝ) ≠ 0 := by exact_mod_cast (show k ≠ 0 by omega)
        have e : -2 + 4 * (k : ℝ) / (2 * k : ℕ) = 0 := by push_cast; field_simp; ring
        rw [e]
        unfold raisedCosinePulse
        simp
      · refine ⟨k + 1, by omega, ?_⟩
        have hk : (1 : ℝ) ≤ k := by exact_mod_cast (show 1 ≤ k by omega)
        have e : -2 + 4 * ((k + 1 : ℕ) : ℝ) / (2 * k + 1 : ℕ) = 2 / (2 * k + 1) := by push_cast; field_simp; ring
        rw [e]
        set u : ℝ := 2 / (2 * (k : ℝ) + 1) with hu
        have u0 : 0 < u := by positivity
        have u1 : u ≤ 2 / 3 := by rw [hu]; exact div_le_div_of_nonneg_left (by norm_num) (by norm_num) (by linarith)
        have u58 : u ≠ 5 / 8 := by
          rw [hu]; intro h
          rw [div_eq_div_iff (by positivity) (by norm_num)] at h
          have : (16 : ℝ) = 10 * k + 5 := by linarith
          have : 16 = 10 * k + 5 := by exact_mod_cast this
          omega
        have hpi := Real.pi_pos
        unfold raisedCosinePulse
        rw [if_neg u0.ne']
        have s1 : Real.sin (Real.pi * u) ≠ 0 := (Real.sin_pos_of_pos_of_lt_pi (by positivity) (by nlinarith)).ne'
        have c1 : Real.cos (4 / 5 * Real.pi * u) ≠ 0 := by
          intro h
          have h' : Real.cos (4 / 5 * Real.pi * u) = Real.cos (Real.pi / 2) := by rw [h, Real.cos_pi_div_two]
          have := Real.injOn_cos ⟨by positivity, by nlinarith⟩ ⟨by positivity, by linarith⟩ h'
          apply u58
          have : Real.pi * (4 / 5 * u) = Real.pi * (1 / 2) := by linarith
          have := mul_left_cancel₀ hpi.ne' this
          linarith
        have d1 : 1 - (8 / 5 * u) ^ 2 ≠ 0 := by
          intro h
          rcases (denominator_zero u).1 h with h | h
          · exact u58 h
          · linarith
        exact mul_ne_zero (div_ne_zero s1 (by positivity)) (div_ne_zero c1 d1)
  cases b <;> simp only [pulseSample, bandPulse] <;> first | (rw [half]; simp) | (rw [rc]; simp)

example : ¬ 32 ∣ 10 ∧ (1 : ℕ) ≤ 10 := by decide

end SunPhy.C62
