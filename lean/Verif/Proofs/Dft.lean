import Verif.Model.Signal
import Verif.Spec.Dft
import Mathlib.Algebra.Field.GeomSum
import Mathlib.Algebra.BigOperators.Field
/-
Inversion of the unitary inverse DFT and Parseval's identity.
-/
namespace SunPhy
open Complex Spec

theorem orthogonality {N : Nat} {k l : Nat} (hk : k < N) (hl : l < N) :
    ∑ n ∈ Finset.range N, exp (2 * Real.pi * I * l * n / N) * exp (-(2 * Real.pi * I * k * n / N)) = if l = k then (N : ℂ) else 0 := by
  have hN : (N : ℂ) ≠ 0 := by exact_mod_cast (by omega : N ≠ 0)
  have ht : ∀ n : Nat, exp (2 * Real.pi * I * l * n / N) * exp (-(2 * Real.pi * I * k * n / N)) =
      exp (2 * Real.pi * I * ((l : ℂ) - k) / N) ^ n := by
    intro n
    rw [← exp_add, ← exp_nat_mul]
    congr 1
    ring
  simp only [ht]
  by_cases h : l = k
  · subst h; simp
  · rw [if_neg h]
    have hw : exp (2 * Real.pi * I * ((l : ℂ) - k) / N) ≠ 1 := by
      intro he
      rw [exp_eq_one_iff] at he
      obtain ⟨m, hm⟩ := he
      have h2 : ((l : ℂ) - k) = m * N := by
        have hpi : (2 * (Real.pi : ℂ) * I) ≠ 0 := two_pi_I_ne_zero
        field_simp at hm
        linear_combination hm
      have h3 : ((l : Int) - k) = m * N := by exact_mod_cast h2
      have hlt : |(l : Int) - k| < N := by rw [abs_lt]; omega
      rw [h3, abs_mul] at hlt
      have hm0 : m = 0 := by
        by_contra hne
        have : 1 ≤ |m| := Int.one_le_abs hne
        have hN2 : |(N : Int)| = N := abs_of_nonneg (by omega)
        rw [hN2] at hlt
        nlinarith
      rw [hm0] at h3
      omega
    rw [geom_sum_eq hw]
    have : exp (2 * Real.pi * I * ((l : ℂ) - k) / N) ^ N = 1 := by
      rw [← exp_nat_mul]
      rw [show (N : ℂ) * (2 * Real.pi * I * ((l : ℂ) - k) / N) = ((l - k : Int) : ℂ) * (2 * Real.pi * I) by
        push_cast; field_simp]
      exact exp_int_mul_two_pi_mul_I _
    rw [this]; simp

theorem sqrt_sq (N : Nat) : ((Real.sqrt N : ℝ) : ℂ) * ((Real.sqrt N : ℝ) : ℂ) = (N : ℂ) := by
  rw [← ofReal_mul, Real.mul_self_sqrt (by positivity)]
  simp

theorem ifftOrtho_length (x : List ℂ) : (ifftOrtho x).length = x.length := by simp [ifftOrtho]

theorem ifftOrtho_getD (x : List ℂ) (n : Nat) (h : n < x.length) : (ifftOrtho x).getD n 0 =
    (∑ k ∈ Finset.range x.length, x.getD k 0 * exp (2 * Real.pi * I * k * n / x.length)) / (Real.sqrt x.length : ℂ) := by
  unfold ifftOrtho
  rw [List.getD_eq_getElem?_getD, List.getElem?_map, List.getElem?_range h]
  rfl

theorem dft_ifft (x : List ℂ) : dftOrtho (ifftOrtho x) = x := by
  apply List.ext_getElem?
  intro k
  by_cases hk : k < x.length
  · unfold dftOrtho
    rw [ifftOrtho_length, List.getElem?_map, List.getElem?_range hk, List.getElem?_eq_getElem hk]
    simp only [Option.map_some, Option.some.injEq]
    have hN : (x.length : ℂ) ≠ 0 := by exact_mod_cast (by omega : x.length ≠ 0)
    have hs : ((Real.sqrt x.length : ℝ) : ℂ) ≠ 0 := by
      intro h0
      have := sqrt_sq x.length
      rw [h0, zero_mul] at this
      exact hN this.symm
    have e1 : ∑ n ∈ Finset.range x.length, (ifftOrtho x).getD n 0 * exp (-(2 * Real.pi * I * k * n / x.length)) =
        (∑ l ∈ Finset.range x.length, x.getD l 0 * (if l = k then (x.length : ℂ) else 0)) / (Real.sqrt x.length : ℂ) := by
      have e0 : ∀ n ∈ Finset.range x.length, (ifftOrtho x).getD n 0 * exp (-(2 * Real.pi * I * k * n / x.length)) =
          (∑ l ∈ Finset.range x.length, x.getD l 0 *
            (exp (2 * Real.pi * I * l * n / x.length) * exp (-(2 * Real.pi * I * k * n / x.length)))) / (Real.sqrt x.length : ℂ) := by
        intro n hn
        rw [ifftOrtho_getD x n (Finset.mem_range.1 hn), div_mul_eq_mul_div, Finset.sum_mul]
        congr 1
        apply Finset.sum_congr rfl
        intro l _
        ring
      rw [Finset.sum_congr rfl e0, ← Finset.sum_div, Finset.sum_comm]
      congr 1
      apply Finset.sum_congr rfl
      intro l hl
      rw [← Finset.mul_sum, orthogonality hk (Finset.mem_range.1 hl)]
    rw [e1]
    simp only [mul_ite, mul_zero]
    rw [Finset.sum_ite_eq' (Finset.range x.length) k, if_pos (Finset.mem_range.2 hk), div_div, sqrt_sq, mul_div_assoc, div_self hN, mul_one,
      List.getD_eq_getElem?_getD, List.getElem?_eq_getElem hk]
    rfl
  · rw [List.getElem?_eq_none (by simp [dftOrtho, ifftOrtho_length]; omega), List.getElem?_eq_none (by omega)]

theorem ifftshift_eq (x : List ℂ) : ifftshift x = x.drop (x.length / 2) ++ x.take (x.length / 2) := by
  unfold ifftshift
  apply List.ext_getElem?
  intro i
  rw [List.getElem?_map]
  by_cases hi : i < x.length
  · rw [List.getElem?_range hi]
    simp only [Option.map_some]
    by_cases h2 : i < x.length - x.length / 2
    · rw [List.getElem?_append_left (by rw [List.length_drop]; exact h2), List.getElem?_drop, Nat.mod_eq_of_lt (by omega),
        List.getD_eq_getElem?_getD, Nat.add_comm, List.getElem?_eq_getElem (by omega)]
      rfl
    · rw [List.getElem?_append_right (by rw [List.length_drop]; omega), List.length_drop, List.getElem?_take, if_pos (by omega),
        List.getD_eq_getElem?_getD]
      have : (i + x.length / 2) % x.length = i - (x.length - x.length / 2) := by
        rw [Nat.mod_eq_sub_mod (by omega), Nat.mod_eq_of_lt (by omega)]
        omega
      rw [this, List.getElem?_eq_getElem (by omega)]
      rfl
  · rw [List.getElem?_eq_none (by simp; omega), List.getElem?_eq_none (by simp; omega)]
    rfl

theorem fftshift_ifftshift (x : List ℂ) : fftshift (ifftshift x) = x := by
  have hl : (ifftshift x).length = x.length := by simp [ifftshift]
  unfold fftshift
  rw [hl, ifftshift_eq, List.drop_left' (by simp), List.take_left' (by simp), List.take_append_drop]

theorem dft_ofdmIfft (x : List ℂ) : fftshift (dftOrtho (ofdmIfft x)) = x := by
  unfold ofdmIfft
  rw [dft_ifft, fftshift_ifftshift]

theorem energy_eq (x : List ℂ) : energy x = ∑ k ∈ Finset.range x.length, ‖x.getD k 0‖ ^ 2 := by
  unfold energy
  induction x with
  | nil => rfl
  | cons a x ih =>
    rw [List.map_cons, List.sum_cons, ih, List.length_cons, Finset.sum_range_succ']
    rw [add_comm]
    rfl

theorem conj_exp_term (k n N : Nat) : (starRingEnd ℂ) (exp (2 * Real.pi * I * k * n / N)) = exp (-(2 * Real.pi * I * k * n / N)) := by
  rw [← exp_conj]
  congr 1
  simp only [map_div₀, map_mul, conj_ofReal, conj_I, map_natCast, map_ofNat]
  ring

theorem energy_ifftOrtho (x : List ℂ) : energy (ifftOrtho x) = energy x := by
  rw [energy_eq, energy_eq, ifftOrtho_length]
  by_cases h0 : x.length = 0
  · rw [h0]; simp
  have hN : (x.length : ℂ) ≠ 0 := by exact_mod_cast h0
  have key : ∑ n ∈ Finset.range x.length, (ifftOrtho x).getD n 0 * (starRingEnd ℂ) ((ifftOrtho x).getD n 0) =
      ∑ k ∈ Finset.range x.length, x.getD k 0 * (starRingEnd ℂ) (x.getD k 0) := by
    have e1 : ∀ n ∈ Finset.range x.length, (ifftOrtho x).getD n 0 * (starRingEnd ℂ) ((ifftOrtho x).getD n 0) =
        (∑ k ∈ Finset.range x.length, ∑ l ∈ Finset.range x.length, x.getD l 0 * (starRingEnd ℂ) (x.getD k 0) *
          (exp (2 * Real.pi * I * l * n / x.length) * exp (-(2 * Real.pi * I * k * n / x.length)))) / x.length := by
      intro n hn
      rw [ifftOrtho_getD x n (Finset.mem_range.1 hn), map_div₀, conj_ofReal, div_mul_div_comm, sqrt_sq, map_sum, Finset.sum_mul_sum,
        Finset.sum_comm]
      congr 1
      apply Finset.sum_congr rfl
      intro k _
      apply Finset.sum_congr rfl
      intro l _
      rw [map_mul, conj_exp_term]
      ring
    rw [Finset.sum_congr rfl e1, ← Finset.sum_div, Finset.sum_comm]
    rw [div_eq_iff hN, Finset.sum_mul]
    apply Finset.sum_congr rfl
    intro k hk
    rw [Finset.sum_comm]
    have : ∀ l ∈ Finset.range x.length, ∑ n ∈ Finset.range x.length, x.getD l 0 * (starRingEnd ℂ) (x.getD k 0) *
          (exp (2 * Real.pi * I * l * n / x.length) * exp (-(2 * Real.pi * I * k * n / x.length))) =
        if l = k then x.getD l 0 * (starRingEnd ℂ) (x.getD k 0) * (x.length : ℂ) else 0 := by
      intro l hl
      rw [← Finset.mul_sum, orthogonality (Finset.mem_range.1 hk) (Finset.mem_range.1 hl)]
      split <;> simp
    rw [Finset.sum_congr rfl this, Finset.sum_ite_eq' (Finset.range x.length) k, if_pos hk]
  have cast : ∀ f : ℕ → ℂ, ∀ s : Finset ℕ, (((∑ n ∈ s, ‖f n‖ ^ 2 : ℝ)) : ℂ) = ∑ n ∈ s, f n * (starRingEnd ℂ) (f n) := by
    intro f s
    push_cast
    apply Finset.sum_congr rfl
    intro n _
    rw [mul_conj, normSq_eq_norm_sq]
    push_cast
    rfl
  have := cast (fun n => (ifftOrtho x).getD n 0) (Finset.range x.length)
  rw [key, ← cast (fun n => x.getD n 0)] at this
  exact_mod_cast this

theorem energy_append (a b : List ℂ) : energy (a ++ b) = energy a + energy b := by
  simp [energy]

theorem energy_ifftshift (x : List ℂ) : energy (ifftshift x) = energy x := by
  rw [ifftshift_eq, energy_append, add_comm, ← energy_append, List.take_append_drop]

theorem energy_ofdmIfft (x : List ℂ) : energy (ofdmIfft x) = energy x := by
  unfold ofdmIfft
  rw [energy_ifftOrtho, energy_ifftshift]

end SunPhy
