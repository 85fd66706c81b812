import Verif.Proofs.OfdmSyncBound
/-
Where the received signal resembles the long training field and where it does not.
-/
namespace SunPhy.SyncCheck
open SunPhy Spec Complex
noncomputable section

section
variable {E : Type} [NormedAddCommGroup E] [InnerProductSpace ℂ E]

theorem le_of_sq (a b : ℝ) (hb : 0 ≤ b) (h : a ^ 2 ≤ b ^ 2) : a ≤ b := by
  by_contra hc; push Not at hc; nlinarith

theorem far (T x t d : E) (h1 : 7 * ‖inner ℂ T x‖ ^ 2 ≤ ‖x‖ ^ 2 * ‖T‖ ^ 2) (h2 : 50 * ‖d‖ ^ 2 ≤ ‖x‖ ^ 2) (h3 : 1000 * ‖t‖ ^ 2 ≤ ‖T‖ ^ 2) :
    ‖inner ℂ (T + t) (x + d)‖ ^ 2 ≤ 1 / 2 * (‖T + t‖ ^ 2 * ‖x + d‖ ^ 2) := by
  have e1 : inner ℂ (T + t) (x + d) = inner ℂ T x + inner ℂ T d + inner ℂ t (x + d) := by rw [inner_add_left, inner_add_right]
  have c1 : ‖inner ℂ T d‖ ≤ ‖T‖ * ‖d‖ := norm_inner_le_norm _ _
  have c2 : ‖inner ℂ t (x + d)‖ ≤ ‖t‖ * ‖x + d‖ := norm_inner_le_norm _ _
  have c3 : ‖inner ℂ (T + t) (x + d)‖ ≤ ‖inner ℂ T x‖ + ‖T‖ * ‖d‖ + ‖t‖ * ‖x + d‖ := by
    rw [e1]
    exact le_trans (norm_add_le _ _) (add_le_add (le_trans (norm_add_le _ _) (add_le_add le_rfl c1)) c2)
  have t0 := norm_nonneg T; have x0 := norm_nonneg x
  have d1 : ‖d‖ ≤ 1415 / 10000 * ‖x‖ := le_of_sq _ _ (by positivity) (by nlinarith)
  have d2 : ‖t‖ ≤ 317 / 10000 * ‖T‖ := le_of_sq _ _ (by positivity) (by nlinarith)
  have d3 : ‖inner ℂ T x‖ ≤ 378 / 1000 * (‖x‖ * ‖T‖) := le_of_sq _ _ (by positivity) (by nlinarith [mul_nonneg x0 t0, sq_nonneg (‖x‖ * ‖T‖)])
  have f1 : ‖x‖ ≤ ‖x + d‖ + ‖d‖ := by
    calc ‖x‖ = ‖(x + d) - d‖ := by rw [add_sub_cancel_right]
      _ ≤ _ := norm_sub_le _ _
  have f2 : ‖T‖ ≤ ‖T + t‖ + ‖t‖ := by
    calc ‖T‖ = ‖(T + t) - t‖ := by rw [add_sub_cancel_right]
      _ ≤ _ := norm_sub_le _ _
  have g1 : ‖x‖ ≤ 1165 / 1000 * ‖x + d‖ := by linarith
  have g2 : ‖T‖ ≤ 1033 / 1000 * ‖T + t‖ := by linarith
  have g3 : ‖d‖ ≤ 165 / 1000 * ‖x + d‖ := by linarith
  have g4 : ‖t‖ ≤ 33 / 1000 * ‖T + t‖ := by linarith
  have a0 := norm_nonneg (T + t); have b0 := norm_nonneg (x + d)
  have k1 : ‖x‖ * ‖T‖ ≤ 1165 / 1000 * ‖x + d‖ * (1033 / 1000 * ‖T + t‖) := mul_le_mul g1 g2 t0 (by positivity)
  have k2 : ‖T‖ * ‖d‖ ≤ 1033 / 1000 * ‖T + t‖ * (165 / 1000 * ‖x + d‖) := mul_le_mul g2 g3 (norm_nonneg _) (by positivity)
  have k3 : ‖t‖ * ‖x + d‖ ≤ 33 / 1000 * ‖T + t‖ * ‖x + d‖ := mul_le_mul_of_nonneg_right g4 b0
  have m : ‖inner ℂ (T + t) (x + d)‖ ≤ 7 / 10 * (‖T + t‖ * ‖x + d‖) := by
    have p0 := mul_nonneg a0 b0
    nlinarith
  have := pow_le_pow_left₀ (norm_nonneg _) m 2
  nlinarith [sq_nonneg (‖T + t‖ * ‖x + d‖)]

theorem near (T d : E) (h0 : 0 < ‖T‖) (h : 50 * ‖d‖ ^ 2 ≤ ‖T‖ ^ 2) : 1 / 2 * (‖T‖ ^ 2 * ‖T + d‖ ^ 2) < ‖inner ℂ T (T + d)‖ ^ 2 := by
  have d1 : ‖d‖ ≤ 1415 / 10000 * ‖T‖ := le_of_sq _ _ (by positivity) (by nlinarith)
  have f1 : ‖T + d‖ ≤ 11415 / 10000 * ‖T‖ := le_trans (norm_add_le _ _) (by linarith)
  have e1 : ‖T‖ ^ 2 - ‖T‖ * ‖d‖ ≤ ‖inner ℂ T (T + d)‖ := by
    rw [inner_add_right, inner_self_eq_norm_sq_to_K]
    have c1 : ‖inner ℂ T d‖ ≤ ‖T‖ * ‖d‖ := norm_inner_le_norm _ _
    have : ‖((‖T‖ : ℂ) ^ 2)‖ ≤ ‖(‖T‖ : ℂ) ^ 2 + inner ℂ T d‖ + ‖inner ℂ T d‖ := by
      calc ‖((‖T‖ : ℂ) ^ 2)‖ = ‖((‖T‖ : ℂ) ^ 2 + inner ℂ T d) - inner ℂ T d‖ := by rw [add_sub_cancel_right]
        _ ≤ _ := norm_sub_le _ _
    rw [norm_pow, Complex.norm_real, norm_norm] at this
    have e : ‖((‖T‖ : ℝ) : ℂ) ^ 2 + inner ℂ T d‖ = ‖(RCLike.ofReal ‖T‖ : ℂ) ^ 2 + inner ℂ T d‖ := rfl
    linarith
  have e2 : 8585 / 10000 * ‖T‖ ^ 2 ≤ ‖inner ℂ T (T + d)‖ := by nlinarith
  have e3 := pow_le_pow_left₀ (by positivity) e2 2
  have e4 := pow_le_pow_left₀ (norm_nonneg _) f1 2
  have : 0 < ‖T‖ ^ 2 * ‖T‖ ^ 2 := by positivity
  nlinarith [sq_nonneg ‖T‖]

end

/-- The template as a vector. -/
def tvec (o : Nat) : EuclideanSpace ℂ (Fin (3 * Ref.nfft o / 2)) := vec _ fun k => trainC o (6 * Ref.nfft o + k)

theorem template_train (o : Nat) (h : o = 1 ∨ o = 2 ∨ o = 3 ∨ o = 4) (k : Nat) (hk : k < 3 * Ref.nfft o / 2) :
    trainC o (6 * Ref.nfft o + k) = (Real.sqrt (Ref.nfft o) : ℂ) * Rx.template o k := by
  unfold trainC Rx.template
  rw [if_neg (by omega)]
  have hl : (Ref.stf o).length = 5 * Ref.nfft o := by simp [Ref.stf]
  congr 1
  rw [List.getD_eq_getElem?_getD, List.getElem?_append_right (by omega), hl]
  unfold Ref.ltf
  simp only
  rw [List.getElem?_map, List.getElem?_range (by omega), Option.map_some, Option.getD_some]
  congr 1
  omega

/-- Resemblance does not depend on the scale. -/
theorem resembles_iff (o : Nat) (h : o = 1 ∨ o = 2 ∨ o = 3 ∨ o = 4) (c : ℂ) (hc : c ≠ 0) (r : List ℂ) (i : Nat) (y : Nat → ℂ)
    (hy : ∀ k < 3 * Ref.nfft o / 2, r.getD (i + k) 0 = c * (y k / Real.sqrt (Ref.nfft o))) :
    Rx.Resembles o r i ↔ 1 / 2 * (‖tvec o‖ ^ 2 * ‖vec (3 * Ref.nfft o / 2) y‖ ^ 2) < ‖inner ℂ (tvec o) (vec (3 * Ref.nfft o / 2) y)‖ ^ 2 := by
  obtain ⟨-, -, h3, -⟩ := facts o h
  have hN : (0 : ℝ) < Ref.nfft o := by exact_mod_cast h3
  have hs := sqrt_ne h3
  have hs2 : Real.sqrt (Ref.nfft o) ^ 2 = Ref.nfft o := Real.sq_sqrt hN.le
  have e1 : ‖tvec o‖ ^ 2 = Ref.nfft o * Rx.templateEnergy o := by
    unfold tvec Rx.templateEnergy Rx.templateLength
    rw [vec_norm, Finset.mul_sum]
    refine Finset.sum_congr rfl fun k hk => ?_
    rw [template_train o h k (Finset.mem_range.1 hk), norm_mul, mul_pow, Complex.norm_real, Real.norm_eq_abs, sq_abs, hs2]
  have e2 : ‖c‖ ^ 2 * ‖vec (3 * Ref.nfft o / 2) y‖ ^ 2 = Ref.nfft o * Rx.power o r i := by
    unfold Rx.power Rx.templateLength
    rw [vec_norm, Finset.mul_sum, Finset.mul_sum]
    refine Finset.sum_congr rfl fun k hk => ?_
    rw [hy k (Finset.mem_range.1 hk), norm_mul, norm_div, mul_pow, div_pow, Complex.norm_real, Real.norm_eq_abs, sq_abs, hs2]
    field_simp
  have e3 : c * inner ℂ (tvec o) (vec (3 * Ref.nfft o / 2) y) = (Ref.nfft o : ℂ) * Rx.correlation o r i := by
    unfold tvec Rx.correlation Rx.templateLength
    rw [vec_inner, Finset.mul_sum, Finset.mul_sum]
    refine Finset.sum_congr rfl fun k hk => ?_
    rw [hy k (Finset.mem_range.1 hk), template_train o h k (Finset.mem_range.1 hk), map_mul, Complex.conj_ofReal]
    have : (Ref.nfft o : ℂ) = (Real.sqrt (Ref.nfft o) : ℂ) ^ 2 := by rw [← Complex.ofReal_pow, hs2]; simp
    rw [this]
    field_simp
  have e4 : ‖c‖ ^ 2 * ‖inner ℂ (tvec o) (vec (3 * Ref.nfft o / 2) y)‖ ^ 2 = (Ref.nfft o : ℝ) ^ 2 * ‖Rx.correlation o r i‖ ^ 2 := by
    rw [← mul_pow, ← norm_mul, e3, norm_mul, Complex.norm_natCast, mul_pow]
  have hcp : 0 < ‖c‖ ^ 2 := by have := norm_pos_iff.2 hc; positivity
  have hN2 : (0 : ℝ) < (Ref.nfft o : ℝ) ^ 2 := by positivity
  unfold Rx.Resembles
  rw [← mul_lt_mul_iff_right₀ hN2, ← e4, ← mul_lt_mul_iff_right₀ hcp (b := 1 / 2 * _)]
  have : (Ref.nfft o : ℝ) ^ 2 * (1 / 2 * (Rx.templateEnergy o * Rx.power o r i)) = ‖c‖ ^ 2 * (1 / 2 * (‖tvec o‖ ^ 2 * ‖vec (3 * Ref.nfft o / 2) y‖ ^ 2)) := by
    linear_combination (-1 / 2 * ‖c‖ ^ 2 * ‖vec (3 * Ref.nfft o / 2) y‖ ^ 2) * e1 - 1 / 2 * Ref.nfft o * Rx.templateEnergy o * e2
  rw [this]

/-- A window of the training fields with noise. -/
theorem window_vec (o : Nat) (h : o = 1 ∨ o = 2 ∨ o = 3 ∨ o = 4) (c : ℂ) (hc : c ≠ 0) (e : Nat → ℂ) (he : ∑ k ∈ Finset.range (3 * Ref.nfft o / 2), ‖e k‖ ^ 2 ≤ ‖c‖ ^ 2 / 8) :
    ‖vec (3 * Ref.nfft o / 2) fun k => (Real.sqrt (Ref.nfft o) : ℂ) / c * e k‖ ^ 2 ≤ Ref.nfft o / 8 := by
  obtain ⟨-, -, h3, -⟩ := facts o h
  have hs2 : Real.sqrt (Ref.nfft o) ^ 2 = Ref.nfft o := Real.sq_sqrt (Nat.cast_nonneg _)
  have hcp : 0 < ‖c‖ ^ 2 := by have := norm_pos_iff.2 hc; positivity
  rw [vec_norm]
  have : ∀ k ∈ Finset.range (3 * Ref.nfft o / 2), ‖(Real.sqrt (Ref.nfft o) : ℂ) / c * e k‖ ^ 2 = Ref.nfft o / ‖c‖ ^ 2 * ‖e k‖ ^ 2 := fun k _ => by
    rw [norm_mul, norm_div, mul_pow, div_pow, Complex.norm_real, Real.norm_eq_abs, sq_abs, hs2]
  rw [Finset.sum_congr rfl this, ← Finset.mul_sum]
  calc (Ref.nfft o : ℝ) / ‖c‖ ^ 2 * _ ≤ Ref.nfft o / ‖c‖ ^ 2 * (‖c‖ ^ 2 / 8) := mul_le_mul_of_nonneg_left he (by positivity)
    _ = _ := by field_simp

theorem hat_vec (o : Nat) (h : o = 1 ∨ o = 2 ∨ o = 3 ∨ o = 4) (s : Nat) (hs : s ≤ 6 * Ref.nfft o) :
    ‖vec (3 * Ref.nfft o / 2) fun k => trainC o (s + k) - trainHat o (s + k)‖ ^ 2 ≤ 3 * Ref.nfft o / 800 := by
  obtain ⟨-, h2, h3, -⟩ := facts o h
  rw [vec_norm]
  refine le_trans (Finset.sum_le_card_nsmul _ _ (1 / 400) fun k hk => ?_) ?_
  · have hk := Finset.mem_range.1 hk
    have := pow_le_pow_left₀ (norm_nonneg _) (train_close o h (s + k) (by omega)) 2
    norm_num at this ⊢
    exact this
  · rw [Finset.card_range, nsmul_eq_mul]
    have : ((3 * Ref.nfft o / 2 : Nat) : ℝ) ≤ 3 * Ref.nfft o / 2 := by
      have : ((3 * Ref.nfft o / 2 * 2 : Nat) : ℝ) ≤ ((3 * Ref.nfft o : Nat) : ℝ) := by exact_mod_cast Nat.div_mul_le_self _ _
      push_cast at this
      linarith
    linarith

theorem tones_ge (o : Nat) (h : o = 1 ∨ o = 2 ∨ o = 3 ∨ o = 4) : (14 : ℝ) ≤ tones o := by
  have : 14 ≤ tones o := by rcases h with rfl | rfl | rfl | rfl <;> decide
  exact_mod_cast this

theorem add_sq_le {E : Type} [NormedAddCommGroup E] (a b : E) : ‖a + b‖ ^ 2 ≤ 11 * ‖a‖ ^ 2 + 11 / 10 * ‖b‖ ^ 2 := by
  have := norm_add_le a b
  have := pow_le_pow_left₀ (norm_nonneg _) this 2
  nlinarith [sq_nonneg (10 * ‖a‖ - ‖b‖)]

/-- Before the long training field there is no resemblance. -/
theorem not_resembles (o : Nat) (h : o = 1 ∨ o = 2 ∨ o = 3 ∨ o = 4) (c : ℂ) (hc : c ≠ 0) (r : List ℂ) (i s : Nat) (hs0 : 0 < s) (hs : s < 6 * Ref.nfft o) (e : Nat → ℂ)
    (he : ∑ k ∈ Finset.range (3 * Ref.nfft o / 2), ‖e k‖ ^ 2 ≤ ‖c‖ ^ 2 / 8)
    (hr : ∀ k < 3 * Ref.nfft o / 2, r.getD (i + k) 0 = c * (trainC o (s + k) / Real.sqrt (Ref.nfft o)) + e k) : ¬ Rx.Resembles o r i := by
  obtain ⟨-, -, h3, -⟩ := facts o h
  have hsq := sqrt_ne h3
  have hN : (0 : ℝ) < Ref.nfft o := by exact_mod_cast h3
  rw [resembles_iff o h c hc r i (fun k => trainC o (s + k) + (Real.sqrt (Ref.nfft o) : ℂ) / c * e k) (fun k hk => by rw [hr k hk]; field_simp), not_lt]
  obtain ⟨a1, a2⟩ := hat_check o h s hs0 hs.le
  obtain ⟨b1, -⟩ := hat_check o h (6 * Ref.nfft o) (by omega) le_rfl
  have a2 := a2 hs
  have n1 := window_vec o h c hc e he
  have n2 := hat_vec o h s hs.le
  have n3 := hat_vec o h (6 * Ref.nfft o) le_rfl
  have n4 := add_sq_le (vec (3 * Ref.nfft o / 2) fun k => trainC o (s + k) - trainHat o (s + k)) (vec (3 * Ref.nfft o / 2) fun k => (Real.sqrt (Ref.nfft o) : ℂ) / c * e k)
  have tg := mul_le_mul_of_nonneg_right (tones_ge o h) hN.le
  have key := far (vec (3 * Ref.nfft o / 2) fun k => trainHat o (6 * Ref.nfft o + k)) (vec (3 * Ref.nfft o / 2) fun k => trainHat o (s + k))
    (vec (3 * Ref.nfft o / 2) fun k => trainC o (6 * Ref.nfft o + k) - trainHat o (6 * Ref.nfft o + k))
    ((vec (3 * Ref.nfft o / 2) fun k => trainC o (s + k) - trainHat o (s + k)) + (vec (3 * Ref.nfft o / 2) fun k => (Real.sqrt (Ref.nfft o) : ℂ) / c * e k))
    a2 (by linarith) (by linarith)
  have v1 : (vec (3 * Ref.nfft o / 2) fun k => trainHat o (6 * Ref.nfft o + k)) + (vec (3 * Ref.nfft o / 2) fun k => trainC o (6 * Ref.nfft o + k) - trainHat o (6 * Ref.nfft o + k)) = tvec o := by
    rw [vec_add]; unfold tvec; congr 1; funext k; ring
  have v2 : (vec (3 * Ref.nfft o / 2) fun k => trainHat o (s + k)) +
      ((vec (3 * Ref.nfft o / 2) fun k => trainC o (s + k) - trainHat o (s + k)) + (vec (3 * Ref.nfft o / 2) fun k => (Real.sqrt (Ref.nfft o) : ℂ) / c * e k)) =
      vec (3 * Ref.nfft o / 2) fun k => trainC o (s + k) + (Real.sqrt (Ref.nfft o) : ℂ) / c * e k := by
    rw [vec_add, vec_add]; congr 1; funext k; ring
  rw [v1, v2] at key
  exact key

/-- At the long training field there is. -/
theorem resembles (o : Nat) (h : o = 1 ∨ o = 2 ∨ o = 3 ∨ o = 4) (c : ℂ) (hc : c ≠ 0) (r : List ℂ) (i : Nat) (e : Nat → ℂ)
    (he : ∑ k ∈ Finset.range (3 * Ref.nfft o / 2), ‖e k‖ ^ 2 ≤ ‖c‖ ^ 2 / 8)
    (hr : ∀ k < 3 * Ref.nfft o / 2, r.getD (i + k) 0 = c * (trainC o (6 * Ref.nfft o + k) / Real.sqrt (Ref.nfft o)) + e k) : Rx.Resembles o r i := by
  obtain ⟨-, -, h3, -⟩ := facts o h
  have hsq := sqrt_ne h3
  have hN : (0 : ℝ) < Ref.nfft o := by exact_mod_cast h3
  rw [resembles_iff o h c hc r i (fun k => trainC o (6 * Ref.nfft o + k) + (Real.sqrt (Ref.nfft o) : ℂ) / c * e k) (fun k hk => by rw [hr k hk]; field_simp)]
  obtain ⟨b1, -⟩ := hat_check o h (6 * Ref.nfft o) (by omega) le_rfl
  have n1 := window_vec o h c hc e he
  have n3 := hat_vec o h (6 * Ref.nfft o) le_rfl
  have tg := mul_le_mul_of_nonneg_right (tones_ge o h) hN.le
  have v1 : tvec o + (vec (3 * Ref.nfft o / 2) fun k => trainHat o (6 * Ref.nfft o + k) - trainC o (6 * Ref.nfft o + k)) = vec (3 * Ref.nfft o / 2) fun k => trainHat o (6 * Ref.nfft o + k) := by
    unfold tvec; rw [vec_add]; congr 1; funext k; ring
  have n4 : ‖vec (3 * Ref.nfft o / 2) fun k => trainHat o (6 * Ref.nfft o + k) - trainC o (6 * Ref.nfft o + k)‖ ^ 2 ≤ 3 * Ref.nfft o / 800 := by
    rw [vec_norm] at n3 ⊢
    refine le_trans (le_of_eq (Finset.sum_congr rfl fun k _ => ?_)) n3
    rw [norm_sub_rev]
  have n5 := add_sq_le (vec (3 * Ref.nfft o / 2) fun k => trainHat o (6 * Ref.nfft o + k) - trainC o (6 * Ref.nfft o + k)) (tvec o)
  rw [add_comm, v1] at n5
  have hT : 9 * (Ref.nfft o : ℝ) ≤ ‖tvec o‖ ^ 2 := by linarith
  have key := near (tvec o) (vec (3 * Ref.nfft o / 2) fun k => (Real.sqrt (Ref.nfft o) : ℂ) / c * e k) (by
    rcases (norm_nonneg (tvec o)).lt_or_eq with h | h
    · exact h
    · rw [← h] at hT; norm_num at hT; linarith) (by linarith)
  have v2 : tvec o + (vec (3 * Ref.nfft o / 2) fun k => (Real.sqrt (Ref.nfft o) : ℂ) / c * e k) =
      vec (3 * Ref.nfft o / 2) fun k => trainC o (6 * Ref.nfft o + k) + (Real.sqrt (Ref.nfft o) : ℂ) / c * e k := by
    unfold tvec; rw [vec_add]
  rw [v2] at key
  exact key

/-- In silence, or when only the last third of the window is not silent, there is no resemblance. -/
theorem not_resembles_silent (o : Nat) (h : o = 1 ∨ o = 2 ∨ o = 3 ∨ o = 4) (r : List ℂ) (i : Nat) (hr : ∀ k < Ref.nfft o, r.getD (i + k) 0 = 0) : ¬ Rx.Resembles o r i := by
  obtain ⟨h1, h2, h3, -⟩ := facts o h
  unfold Rx.Resembles Rx.correlation Rx.power Rx.templateEnergy Rx.templateLength
  rw [not_lt]
  have hM : 3 * Ref.nfft o / 2 = Ref.nfft o + Ref.nfft o / 2 := by omega
  have hper : ∀ k, Rx.template o (Ref.nfft o + k) = Rx.template o k := by
    intro k
    unfold Rx.template
    have e1 := wave_root h1 (by omega) (Ref.ltfTone o) (Ref.nfft o + k + Ref.nfft o - Ref.nfft o / 2)
    have e2 := wave_root h1 (by omega) (Ref.ltfTone o) (k + Ref.nfft o - Ref.nfft o / 2)
    rw [show Ref.nfft o + k + Ref.nfft o - Ref.nfft o / 2 = k + Ref.nfft o - Ref.nfft o / 2 + Ref.nfft o by omega, Nat.add_mod_right, ← e2] at e1
    rw [show (((Ref.nfft o + k : Nat) : Int) - ((Ref.nfft o / 2 : Nat) : Int)) = ((k + Ref.nfft o - Ref.nfft o / 2 + Ref.nfft o : Nat) : Int) - Ref.nfft o by omega, e1]
    congr 1
    omega
  have z1 : ∑ k ∈ Finset.range (Ref.nfft o), r.getD (i + k) 0 * (starRingEnd ℂ) (Rx.template o k) = 0 :=
    Finset.sum_eq_zero fun k hk => by rw [hr k (Finset.mem_range.1 hk), zero_mul]
  have z2 : ∑ k ∈ Finset.range (Ref.nfft o), ‖r.getD (i + k) 0‖ ^ 2 = 0 := Finset.sum_eq_zero fun k hk => by rw [hr k (Finset.mem_range.1 hk), norm_zero]; norm_num
  rw [hM, Finset.sum_range_add, Finset.sum_range_add, Finset.sum_range_add, z1, z2, zero_add, zero_add]
  simp only [hper]
  have hge : ∑ k ∈ Finset.range (Ref.nfft o / 2), ‖Rx.template o k‖ ^ 2 ≤ ∑ k ∈ Finset.range (Ref.nfft o), ‖Rx.template o k‖ ^ 2 :=
    Finset.sum_le_sum_of_subset_of_nonneg (Finset.range_mono (by omega)) fun _ _ _ => sq_nonneg _
  have cs : ‖inner ℂ (vec (Ref.nfft o / 2) (Rx.template o)) (vec (Ref.nfft o / 2) fun k => r.getD (i + (Ref.nfft o + k)) 0)‖ ^ 2 ≤
      ‖vec (Ref.nfft o / 2) (Rx.template o)‖ ^ 2 * ‖vec (Ref.nfft o / 2) fun k => r.getD (i + (Ref.nfft o + k)) 0‖ ^ 2 := by
    rw [← mul_pow]
    exact pow_le_pow_left₀ (norm_nonneg _) (norm_inner_le_norm _ _) 2
  rw [vec_inner, vec_norm, vec_norm] at cs
  have p0 : 0 ≤ ∑ k ∈ Finset.range (Ref.nfft o / 2), ‖r.getD (i + (Ref.nfft o + k)) 0‖ ^ 2 := Finset.sum_nonneg fun _ _ => sq_nonneg _
  refine le_trans cs ?_
  nlinarith

end
end SunPhy.SyncCheck
