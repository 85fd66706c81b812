import Verif.Proofs.OfdmSyncWave
import Verif.Spec.OfdmSync
import Mathlib.Analysis.InnerProductSpace.PiL2
/-
How the training fields correlate with the long training field.
-/
namespace SunPhy.SyncCheck
open SunPhy Spec Complex BigDot Roots
noncomputable section

/-- The training fields after `N` zeros, times the root of `N`. -/
def trainC (o s : Nat) : ℂ := if s < Ref.nfft o then 0 else (Real.sqrt (Ref.nfft o) : ℂ) * (Ref.stf o ++ Ref.ltf o).getD (s - Ref.nfft o) 0

/-- The same in decimals. -/
def part9 (o q s : Nat) : Int := trainI (Ref.nfft o) (rate o) (amp o) (stfCode o) (ltfCode o) q s
def trainHat (o s : Nat) : ℂ := ((part9 o 0 s : ℝ) / 1000000000 : ℝ) + ((part9 o 96 s : ℝ) / 1000000000 : ℝ) * I

theorem facts (o : Nat) (h : o = 1 ∨ o = 2 ∨ o = 3 ∨ o = 4) : rate o * Ref.nfft o = 128 ∧ Ref.nfft o % 16 = 0 ∧ 0 < Ref.nfft o ∧ Ref.nfft o ≤ 128 ∧
    count (stfCode o) (Ref.nfft o) ≤ 12 ∧ count (ltfCode o) (Ref.nfft o) ≤ 104 ∧ amp o * Ref.nfft o * 1000000 ≤ H ∧ (∀ x ∈ stfCode o, x ≤ 2) ∧ (∀ x ∈ ltfCode o, x ≤ 2) := by
  rcases h with rfl | rfl | rfl | rfl <;> decide +kernel

theorem sqrt_ne {N : Nat} (h : 0 < N) : (Real.sqrt N : ℂ) ≠ 0 := by
  rw [Ne, Complex.ofReal_eq_zero, Real.sqrt_eq_zero (Nat.cast_nonneg _), Nat.cast_eq_zero]; omega

theorem ltf_sample (o : Nat) (h : o = 1 ∨ o = 2 ∨ o = 3 ∨ o = 4) (n : Nat) :
    (Real.sqrt (Ref.nfft o) : ℂ) * Ref.wave (Ref.nfft o) (Ref.ltfTone o) ((n : Int) - Ref.nfft o) =
      ∑ i ∈ Finset.range (Ref.nfft o), ((((ltfCode o).getD i 0 : Int) - 1 : Int) : ℂ) * root (rate o * i * (n % Ref.nfft o) + 64 * (n % Ref.nfft o)) := by
  obtain ⟨h1, h2, h3, -⟩ := facts o h
  rw [wave_root h1 (by omega), mul_div_cancel₀ _ (sqrt_ne h3)]
  exact Finset.sum_congr rfl fun i hi => by rw [ltf_code o h i (Finset.mem_range.1 hi)]

theorem stf_sample (o : Nat) (h : o = 1 ∨ o = 2 ∨ o = 3 ∨ o = 4) (n : Nat) :
    (Real.sqrt (Ref.nfft o) : ℂ) * Ref.wave (Ref.nfft o) (Ref.stfTone o) ((n : Int) - Ref.nfft o) =
      kappa o * ∑ i ∈ Finset.range (Ref.nfft o), ((((stfCode o).getD i 0 : Int) - 1 : Int) : ℂ) * root (rate o * i * (n % Ref.nfft o) + 64 * (n % Ref.nfft o)) := by
  obtain ⟨h1, h2, h3, -⟩ := facts o h
  rw [wave_root h1 (by omega), mul_div_cancel₀ _ (sqrt_ne h3), Finset.mul_sum]
  exact Finset.sum_congr rfl fun i hi => by rw [stf_code o h i (Finset.mem_range.1 hi), mul_assoc]

theorem stf_close (o : Nat) (h : o = 1 ∨ o = 2 ∨ o = 3 ∨ o = 4) (n : Nat) :
    ‖5 / 4 * ((Real.sqrt (Ref.nfft o) : ℂ) * Ref.wave (Ref.nfft o) (Ref.stfTone o) ((n : Int) - Ref.nfft o)) -
      (amp o : ℂ) * ((((waveI (stfCode o) (Ref.nfft o) (rate o) 0 (n % Ref.nfft o) : ℝ) / 1000000000 : ℝ) : ℂ) +
        ((waveI (stfCode o) (Ref.nfft o) (rate o) 96 (n % Ref.nfft o) : ℝ) / 1000000000 : ℝ) * I)‖ ≤ 1 / 20 := by
  rw [stf_sample o h]
  obtain ⟨-, -, -, -, c12, -⟩ := facts o h
  obtain ⟨a1, a2⟩ := amp_close o h
  have b1 := hat_close (stfCode o) (Ref.nfft o) (rate o) (n % Ref.nfft o)
  have b2 := wave_size (stfCode o) (Ref.nfft o) (rate o) (n % Ref.nfft o)
  set S := ∑ i ∈ Finset.range (Ref.nfft o), ((((stfCode o).getD i 0 : Int) - 1 : Int) : ℂ) * root (rate o * i * (n % Ref.nfft o) + 64 * (n % Ref.nfft o))
  set x := waveI (stfCode o) (Ref.nfft o) (rate o) 0 (n % Ref.nfft o)
  set y := waveI (stfCode o) (Ref.nfft o) (rate o) 96 (n % Ref.nfft o)
  have hc : (count (stfCode o) (Ref.nfft o) : ℝ) ≤ 12 := by exact_mod_cast c12
  set W : ℂ := ((x : ℝ) / 1000000 : ℝ) + ((y : ℝ) / 1000000 : ℝ) * I with hW
  have e : (amp o : ℂ) * ((((x : ℝ) / 1000000000 : ℝ) : ℂ) + ((y : ℝ) / 1000000000 : ℝ) * I) = (((amp o : ℝ) / 1000 : ℝ) : ℂ) * W := by
    rw [hW]; push_cast; ring
  rw [e]
  have e2 : 5 / 4 * ((kappa o : ℂ) * S) - (((amp o : ℝ) / 1000 : ℝ) : ℂ) * W =
      ((5 / 4 * kappa o - (amp o : ℝ) / 1000 : ℝ) : ℂ) * S + (((amp o : ℝ) / 1000 : ℝ) : ℂ) * (S - W) := by push_cast; ring
  rw [e2]
  have a3 : (amp o : ℝ) / 1000 ≤ 38 / 10 := by have := abs_le.1 a1; linarith
  have a0 : 0 ≤ (amp o : ℝ) / 1000 := by positivity
  refine le_trans (norm_add_le _ _) ?_
  rw [norm_mul, norm_mul, Complex.norm_real, Complex.norm_real, Real.norm_eq_abs, Real.norm_eq_abs, abs_of_nonneg a0]
  have t1 : |5 / 4 * kappa o - (amp o : ℝ) / 1000| * ‖S‖ ≤ 1 / 2000 * 12 := mul_le_mul a1 (b2.trans hc) (norm_nonneg _) (by norm_num)
  have t2 : (amp o : ℝ) / 1000 * ‖S - W‖ ≤ 38 / 10 * (12 * (4 / 10 ^ 4)) := mul_le_mul a3 (b1.trans (by nlinarith)) (norm_nonneg _) (by norm_num)
  norm_num at t1 t2 ⊢
  linarith

theorem ltf_close (o : Nat) (h : o = 1 ∨ o = 2 ∨ o = 3 ∨ o = 4) (n : Nat) :
    ‖(Real.sqrt (Ref.nfft o) : ℂ) * Ref.wave (Ref.nfft o) (Ref.ltfTone o) ((n : Int) - Ref.nfft o) -
      1000 * ((((waveI (ltfCode o) (Ref.nfft o) (rate o) 0 (n % Ref.nfft o) : ℝ) / 1000000000 : ℝ) : ℂ) +
        ((waveI (ltfCode o) (Ref.nfft o) (rate o) 96 (n % Ref.nfft o) : ℝ) / 1000000000 : ℝ) * I)‖ ≤ 1 / 20 := by
  rw [ltf_sample o h]
  obtain ⟨-, -, -, -, -, c104, -⟩ := facts o h
  have b1 := hat_close (ltfCode o) (Ref.nfft o) (rate o) (n % Ref.nfft o)
  have hc : (count (ltfCode o) (Ref.nfft o) : ℝ) ≤ 104 := by exact_mod_cast c104
  have e : (1000 : ℂ) * ((((waveI (ltfCode o) (Ref.nfft o) (rate o) 0 (n % Ref.nfft o) : ℝ) / 1000000000 : ℝ) : ℂ) +
        ((waveI (ltfCode o) (Ref.nfft o) (rate o) 96 (n % Ref.nfft o) : ℝ) / 1000000000 : ℝ) * I) =
      (((waveI (ltfCode o) (Ref.nfft o) (rate o) 0 (n % Ref.nfft o) : ℝ) / 1000000 : ℝ) : ℂ) +
        ((waveI (ltfCode o) (Ref.nfft o) (rate o) 96 (n % Ref.nfft o) : ℝ) / 1000000 : ℝ) * I := by push_cast; ring
  rw [e]
  refine b1.trans ?_
  norm_num
  linarith

theorem train_close (o : Nat) (h : o = 1 ∨ o = 2 ∨ o = 3 ∨ o = 4) (s : Nat) (hs : s < 6 * Ref.nfft o + 3 * Ref.nfft o / 2) : ‖trainC o s - trainHat o s‖ ≤ 1 / 20 := by
  obtain ⟨h1, h2, h3, -⟩ := facts o h
  unfold trainC trainHat part9
  by_cases c1 : s < Ref.nfft o
  · have ti : ∀ q, trainI (Ref.nfft o) (rate o) (amp o) (stfCode o) (ltfCode o) q s = 0 := fun q => by unfold trainI; rw [if_pos c1]
    rw [if_pos c1, ti, ti]; simp
  rw [if_neg c1]
  have hl : (Ref.stf o).length = 5 * Ref.nfft o := by simp [Ref.stf]
  by_cases c2 : s < 6 * Ref.nfft o
  · have e : (Ref.stf o ++ Ref.ltf o).getD (s - Ref.nfft o) 0 =
        5 / 4 * (if 5 * Ref.nfft o - Ref.nfft o / 2 ≤ s - Ref.nfft o then -1 else 1) *
          Ref.wave (Ref.nfft o) (Ref.stfTone o) ((((s - Ref.nfft o) % (5 * Ref.nfft o / 4) + 3 * Ref.nfft o / 4 : Nat) : Int) - Ref.nfft o) := by
      rw [List.getD_eq_getElem?_getD, List.getElem?_append_left (by omega)]
      unfold Ref.stf
      simp only
      rw [List.getElem?_map, List.getElem?_range (by omega), Option.map_some, Option.getD_some]
      congr 2
      omega
    rw [e]
    have k := stf_close o h ((s - Ref.nfft o) % (5 * Ref.nfft o / 4) + 3 * Ref.nfft o / 4)
    by_cases c3 : 5 * Ref.nfft o - Ref.nfft o / 2 ≤ s - Ref.nfft o
    · have ti : ∀ q, trainI (Ref.nfft o) (rate o) (amp o) (stfCode o) (ltfCode o) q s =
          -(amp o * waveI (stfCode o) (Ref.nfft o) (rate o) q (((s - Ref.nfft o) % (5 * Ref.nfft o / 4) + 3 * Ref.nfft o / 4) % Ref.nfft o)) :=
        fun q => by unfold trainI; rw [if_neg c1, if_pos c2, if_pos c3]
      rw [ti, ti, if_pos c3, ← norm_neg]
      refine le_trans (le_of_eq ?_) k
      congr 1
      push_cast; ring
    · have ti : ∀ q, trainI (Ref.nfft o) (rate o) (amp o) (stfCode o) (ltfCode o) q s =
          amp o * waveI (stfCode o) (Ref.nfft o) (rate o) q (((s - Ref.nfft o) % (5 * Ref.nfft o / 4) + 3 * Ref.nfft o / 4) % Ref.nfft o) :=
        fun q => by unfold trainI; rw [if_neg c1, if_pos c2, if_neg c3]
      rw [ti, ti, if_neg c3]
      refine le_trans (le_of_eq ?_) k
      congr 1
      push_cast; ring
  · have e : (Ref.stf o ++ Ref.ltf o).getD (s - Ref.nfft o) 0 =
          Ref.wave (Ref.nfft o) (Ref.ltfTone o) (((s - 6 * Ref.nfft o + Ref.nfft o / 2 : Nat) : Int) - Ref.nfft o) := by
      rw [List.getD_eq_getElem?_getD, List.getElem?_append_right (by omega), hl]
      unfold Ref.ltf
      simp only
      rw [List.getElem?_map, List.getElem?_range (by omega), Option.map_some, Option.getD_some]
      congr 1
      omega
    rw [e]
    have k := ltf_close o h (s - 6 * Ref.nfft o + Ref.nfft o / 2)
    have ti : ∀ q, trainI (Ref.nfft o) (rate o) (amp o) (stfCode o) (ltfCode o) q s =
        1000 * waveI (ltfCode o) (Ref.nfft o) (rate o) q ((s - 6 * Ref.nfft o + Ref.nfft o / 2) % Ref.nfft o) :=
      fun q => by unfold trainI; rw [if_neg c1, if_neg c2]
    rw [ti, ti]
    refine le_trans (le_of_eq ?_) k
    congr 1
    push_cast; ring

/-! ### Windows as vectors -/

/-- The first `M` values of a function. -/
def vec (M : Nat) (f : Nat → ℂ) : EuclideanSpace ℂ (Fin M) := WithLp.toLp 2 fun k => f k

theorem vec_norm (M : Nat) (f : Nat → ℂ) : ‖vec M f‖ ^ 2 = ∑ k ∈ Finset.range M, ‖f k‖ ^ 2 := by
  rw [EuclideanSpace.norm_sq_eq, ← Fin.sum_univ_eq_sum_range (fun k => ‖f k‖ ^ 2)]
  rfl

theorem vec_inner (M : Nat) (f g : Nat → ℂ) : inner ℂ (vec M f) (vec M g) = ∑ k ∈ Finset.range M, g k * (starRingEnd ℂ) (f k) := by
  rw [PiLp.inner_apply, ← Fin.sum_univ_eq_sum_range (fun k => g k * (starRingEnd ℂ) (f k))]
  rfl

theorem vec_add (M : Nat) (f g : Nat → ℂ) : vec M f + vec M g = vec M fun k => f k + g k := rfl

/-- Least energy of a window, up to a factor of `3N/4`. -/
def tones : Nat → Nat | 1 => 104 | 2 => 52 | 3 => 26 | _ => 14

theorem hat_energy (o M s : Nat) : ‖vec M fun k => trainHat o (s + k)‖ ^ 2 = (energyI M (part9 o 0) (part9 o 96) s : ℝ) / 1000000000 ^ 2 := by
  rw [vec_norm, energyI]
  push_cast
  rw [Finset.sum_div]
  refine Finset.sum_congr rfl fun k _ => ?_
  unfold trainHat
  rw [Complex.sq_norm, Complex.normSq_add_mul_I]
  ring

theorem hat_inner (o M s t : Nat) : ‖inner ℂ (vec M fun k => trainHat o (t + k)) (vec M fun k => trainHat o (s + k))‖ ^ 2 =
    ((corrRe M (part9 o 0) (part9 o 96) s t : ℝ) ^ 2 + (corrIm M (part9 o 0) (part9 o 96) s t : ℝ) ^ 2) / (1000000000 ^ 2) ^ 2 := by
  have e : inner ℂ (vec M fun k => trainHat o (t + k)) (vec M fun k => trainHat o (s + k)) =
      (((corrRe M (part9 o 0) (part9 o 96) s t : ℝ) / 1000000000 ^ 2 : ℝ) : ℂ) + (((corrIm M (part9 o 0) (part9 o 96) s t : ℝ) / 1000000000 ^ 2 : ℝ) : ℂ) * I := by
    rw [vec_inner, corrRe, corrIm]
    push_cast
    rw [Finset.sum_div, Finset.sum_div, Finset.sum_mul, ← Finset.sum_add_distrib]
    refine Finset.sum_congr rfl fun k _ => ?_
    unfold trainHat
    rw [map_add, map_mul, Complex.conj_ofReal, Complex.conj_ofReal, Complex.conj_I]
    generalize part9 o 0 (s + k) = a
    generalize part9 o 96 (s + k) = b
    generalize part9 o 0 (t + k) = c
    generalize part9 o 96 (t + k) = d
    push_cast
    linear_combination (-(b : ℂ) * d / 1000000000 ^ 2) * I_sq
  rw [e, Complex.sq_norm, Complex.normSq_add_mul_I]
  ring

theorem hat_check (o : Nat) (h : o = 1 ∨ o = 2 ∨ o = 3 ∨ o = 4) (s : Nat) (hs0 : 0 < s) (hs6 : s ≤ 6 * Ref.nfft o) :
    3 / 4 * (tones o * Ref.nfft o : ℝ) ≤ ‖vec (3 * Ref.nfft o / 2) fun k => trainHat o (s + k)‖ ^ 2 ∧
    (s < 6 * Ref.nfft o → 7 * ‖inner ℂ (vec (3 * Ref.nfft o / 2) fun k => trainHat o (6 * Ref.nfft o + k)) (vec (3 * Ref.nfft o / 2) fun k => trainHat o (s + k))‖ ^ 2 ≤
      ‖vec (3 * Ref.nfft o / 2) fun k => trainHat o (s + k)‖ ^ 2 * ‖vec (3 * Ref.nfft o / 2) fun k => trainHat o (6 * Ref.nfft o + k)‖ ^ 2) := by
  obtain ⟨h1, h2, h3, h4, -, -, h7, h8, h9⟩ := facts o h
  have hc : check (Ref.nfft o) (rate o) (amp o) (tones o) (stfCode o) (ltfCode o) = true := by
    rcases h with rfl | rfl | rfl | rfl
    · exact check1
    · exact check2
    · exact check3
    · exact check4
  obtain ⟨a, b⟩ := check_int _ _ _ _ _ _ h3 h4 (by omega) h7 h8 h9 hc s hs0 hs6
  rw [hat_energy, hat_energy, hat_inner]
  constructor
  · have a : (3 * (tones o * Ref.nfft o * 1000000000000000000) : ℝ) ≤ 4 * (energyI (3 * Ref.nfft o / 2) (part9 o 0) (part9 o 96) s : ℝ) := by exact_mod_cast a
    rw [le_div_iff₀ (by norm_num)]
    norm_num at a ⊢
    linarith
  · intro hs
    have b := b.resolve_left (by omega)
    have b : (7 * ((corrRe (3 * Ref.nfft o / 2) (part9 o 0) (part9 o 96) s (6 * Ref.nfft o) : ℝ) ^ 2 + (corrIm (3 * Ref.nfft o / 2) (part9 o 0) (part9 o 96) s (6 * Ref.nfft o) : ℝ) ^ 2) : ℝ) ≤
      (energyI (3 * Ref.nfft o / 2) (part9 o 0) (part9 o 96) s : ℝ) * (energyI (3 * Ref.nfft o / 2) (part9 o 0) (part9 o 96) (6 * Ref.nfft o) : ℝ) := by exact_mod_cast b
    rw [← mul_div_assoc, div_mul_div_comm, ← sq]
    exact div_le_div_of_nonneg_right b (by positivity)

end
end SunPhy.SyncCheck
