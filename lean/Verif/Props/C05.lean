import Verif.Proofs.Pn9Lemmas
import Verif.Model.Pn9Int
/-
C05 — the PN9 generator has maximal period from every usable seed.
Seeds are non-negative integers of any size (the code masks the register to 9 bits at the first step); `C05_integer_seed` reduces
negative seeds to them.
-/
namespace SunPhy.C05
open SunPhy

/-- The `k`-th (0-based) bit produced by a fresh `Pn9(seed)`: entry `k` of `nextN(k+1)`. -/
def output (seed k : Nat) : Option Nat := ((Pn9.new seed).nextN (k + 1)).1[k]?

theorem output_eq (seed k : Nat) : output seed k = some (pn9Out (pn9Step^[k + 1] seed)) := by
  unfold output
  rw [Pn9.nextN_fst]
  simp [Pn9.new]

theorem iter_mod (seed n : Nat) : pn9Step^[n + 1] seed = pn9Step^[n + 1] (seed % 512) := by
  rw [Function.iterate_succ_apply, Function.iterate_succ_apply, pn9Step_mod]

/-- Reading `nextN(n)` in one go gives the first `n` outputs: the definition of `output` does not depend on the way the
generator is read. -/
theorem C05_output_of_nextN (seed n k : Nat) (h : k < n) : ((Pn9.new seed).nextN n).1[k]? = output seed k := by
  rw [output_eq, Pn9.nextN_fst]
  simp [Pn9.new, h]

/-- **C05 (period).**  For every seed that is non-zero modulo 512 the output has least period exactly 511. -/
theorem C05_period (seed : Nat) (h : seed % 512 ≠ 0) :
    (∀ k, output seed (k + 511) = output seed k) ∧
    (∀ p, 0 < p → p < 511 → ∃ k, output seed (k + p) ≠ output seed k) := by
  have hlt : seed % 512 < 512 := Nat.mod_lt _ (by decide)
  constructor
  · intro k
    rw [output_eq, output_eq, iter_mod, iter_mod seed k, show k + 511 + 1 = (k + 1) + 511 by omega,
      Function.iterate_add_apply, pn9_period hlt h]
  · intro p hp hp2
    by_contra hn
    push Not at hn
    have hb : ∀ k, pn9Out (pn9Step^[p + (k + 1)] (seed % 512)) = pn9Out (pn9Step^[k + 1] (seed % 512)) := by
      intro k
      have := hn k
      rw [output_eq, output_eq, Option.some.injEq, iter_mod, iter_mod seed k] at this
      rwa [show p + (k + 1) = k + p + 1 by omega]
    have e1 := pn9_nine (seed % 512) hlt
    have e2 := pn9_nine (pn9Step^[p] (seed % 512)) (pn9_iter_lt hlt p)
    simp only [← Function.iterate_add_apply, Nat.add_comm _ p] at e2
    rw [hb 0, hb 1, hb 2, hb 3, hb 4, hb 5, hb 6, hb 7, hb 8, ← e1] at e2
    rw [Function.iterate_add_apply] at e2
    exact pn9_least (pn9_iter_lt hlt 9) (pn9_iter_ne_zero hlt h 9) hp hp2 e2

/-- **C05 (balance).**  Any 511 consecutive outputs (after any number `a` of steps) contain exactly 256 ones. -/
theorem C05_ones (seed a : Nat) (h : seed % 512 ≠ 0) :
    ((((Pn9.new seed).nextN a).2.nextN 511).1).count 1 = 256 := by
  have hlt : seed % 512 < 512 := Nat.mod_lt _ (by decide)
  rw [Pn9.nextN_snd, Pn9.nextN_fst]
  simp only [Pn9.new]
  have hf : ∀ (v : Nat), v < 512 → v ≠ 0 → ∀ k, pn9Out (pn9Step^[k + 511 + 1] v) = pn9Out (pn9Step^[k + 1] v) := by
    intro v hv h0 k
    rw [show k + 511 + 1 = (k + 1) + 511 by omega, Function.iterate_add_apply, pn9_period hv h0]
  obtain ⟨j, _, hj⟩ := pn9_orbit_mem hlt h
  have e : (List.range 511).map (fun k => pn9Out (pn9Step^[k + 1] (pn9Step^[a] seed))) =
      (List.range 511).map (fun k => pn9Out (pn9Step^[(k + (a + j)) + 1] 1)) := by
    apply List.map_congr_left
    intro k _
    rw [← Function.iterate_add_apply, show k + 1 + a = (k + a) + 1 by omega, iter_mod, ← hj, ← Function.iterate_add_apply]
    congr 2; omega
  rw [e, window_count (fun k => pn9Out (pn9Step^[k + 1] 1)) 511 (by decide) (hf 1 (by decide) (by decide)), pn9_ones_base]

/-- **C05 (never stuck).**  From a usable seed the register is never 0. -/
theorem C05_never_zero (seed n : Nat) (h : seed % 512 ≠ 0) : ((Pn9.new seed).nextN n).2.getCurrentValue ≠ 0 := by
  rw [Pn9.nextN_snd]
  simp only [Pn9.getCurrentValue, Pn9.new]
  cases n with
  | zero => intro h0; apply h; simp only [Function.iterate_zero, id] at h0; omega
  | succ n => rw [iter_mod]; exact pn9_iter_ne_zero (Nat.mod_lt _ (by decide)) h _

/-- **C05 (seed 0).**  A seed that is 0 modulo 512, in particular 0, produces only zeros. -/
theorem C05_zero_seed (seed n : Nat) (h : seed % 512 = 0) : ((Pn9.new seed).nextN n).1 = List.replicate n 0 := by
  rw [Pn9.nextN_fst, List.eq_replicate_iff]
  simp only [List.length_map, List.length_range, List.mem_map, true_and]
  rintro b ⟨k, _, rfl⟩
  simp only [Pn9.new]
  rw [iter_mod, h]
  have : pn9Step^[k + 1] 0 = 0 := by
    generalize k + 1 = m
    induction m with
    | zero => rfl
    | succ m ih => rw [Function.iterate_succ_apply', ih]; rfl
  rw [this]; rfl

/-- **C05 (recurrence).**  `y[n+9] = y[n+5] xor y[n]` for every seed. -/
theorem C05_recurrence (seed n : Nat) :
    ∃ a b c, output seed (n + 9) = some a ∧ output seed (n + 5) = some b ∧ output seed n = some c ∧
      b ≤ 1 ∧ c ≤ 1 ∧ a = (b + c) % 2 := by
  refine ⟨_, _, _, output_eq _ _, output_eq _ _, output_eq _ _, pn9Out_le _, pn9Out_le _, ?_⟩
  have hlt : seed % 512 < 512 := Nat.mod_lt _ (by decide)
  rw [iter_mod, iter_mod seed (n + 5), iter_mod seed n]
  have := pn9_rec (pn9Step^[n] (seed % 512)) (pn9_iter_lt hlt n)
  rw [← Function.iterate_add_apply, ← Function.iterate_add_apply, ← Function.iterate_add_apply] at this
  rw [show n + 9 + 1 = 10 + n by omega, show n + 5 + 1 = 6 + n by omega, show n + 1 = 1 + n by omega]
  exact this

example : 511 % 512 ≠ 0 ∧ (0x200 + 3) % 512 ≠ 0 := by decide
example : output 0x1FF 0 = some 0 ∧ output 0x1FF 4 = some 1 := by decide

theorem ldiff_low (k : Nat) (c n : Nat) (hc : c < 2 ^ k) : Nat.ldiff c n = Nat.ldiff c (n % 2 ^ k) := by
  apply Nat.eq_of_testBit_eq
  intro i
  rw [Nat.testBit_ldiff, Nat.testBit_ldiff, Nat.testBit_mod_two_pow]
  by_cases h : i < k
  · simp [h]
  · rw [Nat.testBit_lt_two_pow (lt_of_lt_of_le hc (Nat.pow_le_pow_right (by decide) (by omega)))]; simp

theorem land_neg (n c : Nat) : Int.land (Int.negSucc n) (c : Int) = (Nat.ldiff c n : Nat) := rfl

theorem pn9StepI_eq (v : Int) : pn9StepI v = (pn9Step (v % 512).toNat : Nat) := by
  cases v with
  | ofNat n =>
    have e : ((Int.ofNat n) % 512).toNat = n % 512 := by simp; omega
    rw [e, ← pn9Step_mod]
    rfl
  | negSucc n =>
    have e : ((Int.negSucc n) % 512).toNat = 511 - n % 512 := by omega
    rw [e]
    have h : pn9StepI (Int.negSucc n) = ((Nat.ldiff 0xFF (n >>> 1)) ||| (((Nat.ldiff 0x32 n >>> 5) ^^^ Nat.ldiff 1 n) <<< 8) : Nat) := rfl
    rw [h, ldiff_low 8 0xFF _ (by decide), ldiff_low 9 0x32 _ (by decide), ldiff_low 9 1 _ (by decide)]
    have h2 : (n >>> 1) % 2 ^ 8 = (n % 2 ^ 9) >>> 1 := by simp only [Nat.shiftRight_eq_div_pow]; omega
    rw [h2]
    have hl : n % 2 ^ 9 < 512 := Nat.mod_lt _ (by decide)
    have e2 : n % 512 = n % 2 ^ 9 := rfl
    rw [e2]
    refine congrArg Int.ofNat ?_
    generalize n % 2 ^ 9 = r at hl
    clear h e h2 e2
    revert r
    decide +kernel

/-- **C05 (integer seeds).**  A generator built with any Python integer, negative ones included, gives the sequence of the generator seeded
with its residue modulo 512 (between 0 and 511). -/
theorem C05_integer_seed (seed : Int) (n : Nat) :
    (pn9NextNI seed n).1 = ((Pn9.new (seed % 512).toNat).nextN n).1.map Int.ofNat := by
  have nat : ∀ (n : Nat) (p : Pn9), (pn9NextNI p.value n).1 = (p.nextN n).1.map Int.ofNat := by
    intro n
    induction n with
    | zero => intro p; rfl
    | succ n ih =>
      intro p
      simp only [pn9NextNI, Pn9.nextN, List.map_cons]
      congr 1
      have e : (pn9NextI p.value).2 = ((p.next).2.value : Nat) := rfl
      rw [e, ih]
  cases n with
  | zero => rfl
  | succ n =>
    have e : pn9NextI seed = pn9NextI ((seed % 512).toNat : Nat) := by
      have : pn9StepI seed = pn9StepI ((seed % 512).toNat : Nat) := by
        rw [pn9StepI_eq, pn9StepI_eq]
        congr 2
        omega
      unfold pn9NextI
      rw [this]
    have := nat (n + 1) (Pn9.new (seed % 512).toNat)
    rw [← this]
    simp only [pn9NextNI]
    rw [e]
    rfl

example : (pn9NextNI (-1) 6).1 = [0, 0, 0, 0, 1, 1] := by rw [C05_integer_seed]; decide

end SunPhy.C05
