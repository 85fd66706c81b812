import Verif.Model.Pn9
import Mathlib.Logic.Function.Iterate
import Mathlib.Data.List.Basic
/-
Lemmas about `Model/Pn9.lean`.
-/
namespace SunPhy

/-- Bit returned by `Pn9.next` as a function of the new register value. -/
def pn9Out (v : Nat) : Nat := (v &&& 0x100) >>> 8

theorem Pn9.nextN_fst (p : Pn9) (n : Nat) :
    (p.nextN n).1 = (List.range n).map fun k => pn9Out (pn9Step^[k + 1] p.value) := by
  induction n generalizing p with
  | zero => rfl
  | succ n ih =>
    simp only [Pn9.nextN, Pn9.next]
    rw [List.range_succ_eq_map, List.map_cons, List.map_map, ih]
    rfl

theorem Pn9.nextN_snd (p : Pn9) (n : Nat) : (p.nextN n).2 = { p with value := pn9Step^[n] p.value } := by
  induction n generalizing p with
  | zero => rfl
  | succ n ih =>
    simp only [Pn9.nextN, Pn9.next]
    rw [ih]
    rfl

theorem pn9Step_lt (v : Nat) : pn9Step v < 512 := by
  unfold pn9Step
  apply Nat.or_lt_two_pow (n := 9)
  · exact Nat.lt_of_le_of_lt Nat.and_le_right (by decide)
  · rw [Nat.shiftLeft_eq]
    have : ((v &&& 0x032) >>> 0x05) ^^^ (v &&& 0x001) < 2 ^ 1 := by
      apply Nat.xor_lt_two_pow
      · rw [Nat.shiftRight_eq_div_pow]
        have : v &&& 0x032 ≤ 0x032 := Nat.and_le_right
        omega
      · have : v &&& 1 ≤ 1 := Nat.and_le_right
        omega
    omega

theorem pn9Step_mod (v : Nat) : pn9Step v = pn9Step (v % 512) := by
  unfold pn9Step
  have a : v &&& 0x032 = v % 512 &&& 0x032 := by
    apply Nat.eq_of_testBit_eq; intro i
    rw [show (512 : Nat) = 2 ^ 9 from rfl, Nat.testBit_and, Nat.testBit_and, Nat.testBit_mod_two_pow]
    by_cases h : i < 9
    · simp [h]
    · rw [Nat.testBit_lt_two_pow (x := 0x32) (Nat.lt_of_lt_of_le (by decide : 0x32 < 2 ^ 9) (Nat.pow_le_pow_right (by decide) (by omega)))]; simp
  have b : v &&& 0x001 = v % 512 &&& 0x001 := by
    rw [Nat.and_one_is_mod, Nat.and_one_is_mod]; omega
  have c : v >>> 1 &&& 0xFF = (v % 512) >>> 1 &&& 0xFF := by
    rw [show 0xFF = 2 ^ 8 - 1 from rfl, Nat.and_two_pow_sub_one_eq_mod, Nat.and_two_pow_sub_one_eq_mod,
      Nat.shiftRight_eq_div_pow, Nat.shiftRight_eq_div_pow]
    omega
  rw [a, b, c]

/-- Kernel computation over the whole (finite) state space: orbit of state 1. -/
def pn9Orbit : Nat → Nat → List Nat
  | 0, _ => []
  | n + 1, v => v :: pn9Orbit n (pn9Step v)

theorem pn9Orbit_eq (n v : Nat) : pn9Orbit n v = (List.range n).map fun k => pn9Step^[k] v := by
  induction n generalizing v with
  | zero => rfl
  | succ n ih => rw [pn9Orbit, ih, List.range_succ_eq_map, List.map_cons, List.map_map]; rfl

/-- Every non-zero 9-bit state occurs in the orbit of 1, and no state occurs twice. -/
theorem pn9Orbit_all : (∀ v < 512, v ≠ 0 → v ∈ pn9Orbit 511 1) ∧ (∀ v ∈ (pn9Orbit 511 1).tail, v ≠ 1) ∧
    pn9Step^[511] 1 = 1 ∧ (∀ v < 512, v ≠ 0 → pn9Step v ≠ 0) := by decide +kernel

theorem pn9_orbit_mem {v : Nat} (h : v < 512) (h0 : v ≠ 0) : ∃ k, k < 511 ∧ pn9Step^[k] 1 = v := by
  have := pn9Orbit_all.1 v h h0
  rw [pn9Orbit_eq] at this
  simpa using this

theorem pn9_period {v : Nat} (h : v < 512) (h0 : v ≠ 0) : pn9Step^[511] v = v := by
  obtain ⟨k, _, rfl⟩ := pn9_orbit_mem h h0
  rw [← Function.iterate_add_apply, Nat.add_comm, Function.iterate_add_apply, pn9Orbit_all.2.2.1]

theorem pn9_period_mul (m v : Nat) (h : v < 512) (h0 : v ≠ 0) : pn9Step^[511 * m] v = v := by
  induction m with
  | zero => rfl
  | succ m ih => rw [Nat.mul_add, Function.iterate_add_apply, Nat.mul_one, pn9_period h h0, ih]

theorem pn9_iter_lt {v : Nat} (h : v < 512) (n : Nat) : pn9Step^[n] v < 512 := by
  cases n with
  | zero => exact h
  | succ n => rw [Function.iterate_succ_apply']; exact pn9Step_lt _

theorem pn9_iter_ne_zero {v : Nat} (h : v < 512) (h0 : v ≠ 0) (n : Nat) : pn9Step^[n] v ≠ 0 := by
  induction n with
  | zero => exact h0
  | succ n ih => rw [Function.iterate_succ_apply']; exact pn9Orbit_all.2.2.2 _ (pn9_iter_lt h n) ih

/-- No shorter period. -/
theorem pn9_least {v p : Nat} (h : v < 512) (h0 : v ≠ 0) (hp : 0 < p) (hp2 : p < 511) : pn9Step^[p] v ≠ v := by
  intro he
  obtain ⟨k, hk, rfl⟩ := pn9_orbit_mem h h0
  have h1 : pn9Step^[p] 1 = 1 := by
    have e2 := congrArg (pn9Step^[511 - k]) he
    rw [← Function.iterate_add_apply, ← Function.iterate_add_apply, ← Function.iterate_add_apply] at e2
    rw [show 511 - k + k = 511 by omega, show 511 - k + p + k = p + 511 by omega,
      Function.iterate_add_apply, pn9Orbit_all.2.2.1] at e2
    exact e2
  have hm : pn9Step^[p] 1 ∈ (pn9Orbit 511 1).tail := by
    rw [pn9Orbit_eq, show (511 : Nat) = 510 + 1 from rfl, List.range_succ_eq_map]
    simp only [List.map_cons, List.map_map, List.tail_cons, List.mem_map, List.mem_range]
    exact ⟨p - 1, by omega, by simp [Function.comp, show p - 1 + 1 = p by omega]⟩
  exact pn9Orbit_all.2.1 _ hm h1

/-- The output bits shift into the register from the top: nine outputs are the register. -/
theorem pn9_nine : ∀ v < 512, pn9Step^[9] v =
    pn9Out (pn9Step^[1] v) + 2 * pn9Out (pn9Step^[2] v) + 4 * pn9Out (pn9Step^[3] v) + 8 * pn9Out (pn9Step^[4] v) +
    16 * pn9Out (pn9Step^[5] v) + 32 * pn9Out (pn9Step^[6] v) + 64 * pn9Out (pn9Step^[7] v) +
    128 * pn9Out (pn9Step^[8] v) + 256 * pn9Out (pn9Step^[9] v) := by decide +kernel

theorem pn9_rec : ∀ v < 512, pn9Out (pn9Step^[10] v) = (pn9Out (pn9Step^[6] v) + pn9Out (pn9Step^[1] v)) % 2 := by
  decide +kernel

theorem pn9Out_le (v : Nat) : pn9Out v ≤ 1 := by
  unfold pn9Out
  rw [Nat.shiftRight_eq_div_pow]
  have : v &&& 0x100 ≤ 0x100 := Nat.and_le_right
  omega

theorem pn9_ones_base : ((List.range 511).map fun k => pn9Out (pn9Step^[k + 1] 1)).count 1 = 256 := by decide +kernel

/-- Windows of a 511-periodic sequence have the same number of ones. -/
theorem window_count (f : Nat → Nat) (N : Nat) (hN : 0 < N) (hf : ∀ k, f (k + N) = f k) (a : Nat) :
    ((List.range N).map fun k => f (k + a)).count 1 = ((List.range N).map f).count 1 := by
  induction a with
  | zero => rfl
  | succ a ih =>
    rw [← ih]
    obtain ⟨M, rfl⟩ : ∃ M, N = M + 1 := ⟨N - 1, by omega⟩
    conv_lhs => rw [List.range_succ, List.map_append, List.count_append]
    conv_rhs => rw [List.range_succ_eq_map, List.map_cons, List.map_map, List.count_cons]
    have e1 : (List.range M).map (fun k => f (k + (a + 1))) = (List.range M).map ((fun k => f (k + a)) ∘ Nat.succ) := by
      apply List.map_congr_left; intro k _; simp only [Function.comp]; congr 1; omega
    rw [e1]
    have e2 : f (M + (a + 1)) = f (0 + a) := by rw [show M + (a + 1) = (0 + a) + (M + 1) by omega, hf]
    simp [List.count_cons, e2]

end SunPhy
