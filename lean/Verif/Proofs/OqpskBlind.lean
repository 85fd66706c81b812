import Verif.Proofs.OqpskSync
import Verif.Spec.OqpskGain
import Mathlib.Tactic.Linarith
/-
Correlations of the delimiter of MR-O-QPSK with the chips before it, silence included: all positions, by the kernel.
-/
namespace SunPhy.OqBlind
open SunPhy Spec OqSync Complex

/-! ### Counting -/

/-- Bound for the correlation of `n` chips (of a window of `W`): `600·(Re² + Im²) + 39·n² ≤ 90·W·n` for `Re = n - 2·h₁`, `Im = n - 2·h₂`. -/
def small (W n h₁ h₂ : Nat) : Bool := Nat.ble (1239 * (n * n) + 2400 * (h₁ * h₁ + h₂ * h₂)) (90 * (W * n) + 2400 * (n * (h₁ + h₂)))

/-- `n` positions, two chips apart, from `x` on, the first of them with `p` chips that are not silent. -/
def check2 (M W d e : Nat) : Nat → Nat → Nat → Bool
  | 0, _, _ => true
  | n + 1, p, x =>
    small W (min p W) (slices M 9 (((x % 2 ^ W) ^^^ d) / 2 ^ (W - min p W))) (slices M 9 (((x % 2 ^ W) ^^^ e) / 2 ^ (W - min p W))) && check2 M W d e n (p + 2) (x / 4)

theorem check2_ok (M W d e : Nat) : ∀ n p x, check2 M W d e n p x = true → ∀ t < n,
    small W (min (p + 2 * t) W) (slices M 9 (((x / 2 ^ (2 * t) % 2 ^ W) ^^^ d) / 2 ^ (W - min (p + 2 * t) W))) (slices M 9 (((x / 2 ^ (2 * t) % 2 ^ W) ^^^ e) / 2 ^ (W - min (p + 2 * t) W))) = true := by
  intro n
  induction n with
  | zero => intro p x _ t ht; omega
  | succ n ih =>
    intro p x h t ht
    rw [check2, Bool.and_eq_true] at h
    rcases t with _ | t
    · rw [Nat.mul_zero, Nat.pow_zero, Nat.div_one, Nat.add_zero]; exact h.1
    · have := ih (p + 2) (x / 4) h.2 t (by omega)
      rw [Nat.div_div_eq_div_mul, show 4 * 2 ^ (2 * t) = 2 ^ (2 * (t + 1)) by rw [Nat.mul_add, Nat.pow_add]; omega, show p + 2 + 2 * t = p + 2 * (t + 1) by omega] at this
      exact this

/-- Chip `k` of the delimiter turned by a quarter: the real part is minus the imaginary part, the imaginary part is the real part. -/
def turnedChip (g : Nat → Bool) (k : Nat) : Bool := bif Nat.beq (k % 2) 0 then !g (k + 1) else g (k - 1)

/-- The same as a number. -/
def turned (W d : Nat) : Nat :=
  let m := (2 ^ W - 1) / 3
  (((d / 2) &&& m) ^^^ m) ||| ((d &&& m) * 2)

set_option maxRecDepth 100000
theorem corr32 : check2 (mask 57) 512 sfd32 (turned 512 sfd32) 768 0 stream32 = true := by decide +kernel
theorem corr32a : check2 (mask 57) 512 sfd32a (turned 512 sfd32a) 768 0 stream32a = true := by decide +kernel
theorem corr64 : check2 (mask 114) 1024 sfd64 (turned 1024 sfd64) 2304 0 stream64 = true := by decide +kernel
theorem corr128 : check2 (mask 228) 2048 sfd128 (turned 2048 sfd128) 4608 0 stream128 = true := by decide +kernel

theorem corr_band (b : Band) : check2 (mask (sliceCount (shrChipsPerBit b))) (16 * shrChipsPerBit b) (sfd b) (turned (16 * shrChipsPerBit b) (sfd b))
    ((preambleBits b + 16) * shrChipsPerBit b / 2) 0 (stream b) = true := by
  cases b with
  | b470 => exact corr32
  | b868 => exact corr32
  | b950 => exact corr32
  | b920 => exact corr32a
  | b780 => exact corr64
  | b915 => exact corr64
  | b917 => exact corr64
  | b2450 => exact corr128

theorem turned32 : same (fun k => (turned 512 sfd32).testBit k) (turnedChip fun k => sfd32.testBit k) 512 = true := by decide +kernel
theorem turned32a : same (fun k => (turned 512 sfd32a).testBit k) (turnedChip fun k => sfd32a.testBit k) 512 = true := by decide +kernel
theorem turned64 : same (fun k => (turned 1024 sfd64).testBit k) (turnedChip fun k => sfd64.testBit k) 1024 = true := by decide +kernel
theorem turned128 : same (fun k => (turned 2048 sfd128).testBit k) (turnedChip fun k => sfd128.testBit k) 2048 = true := by decide +kernel

theorem turned_ok (b : Band) : same (fun k => (turned (16 * shrChipsPerBit b) (sfd b)).testBit k) (turnedChip fun k => (sfd b).testBit k) (16 * shrChipsPerBit b) = true := by
  cases b with
  | b470 => exact turned32
  | b868 => exact turned32
  | b950 => exact turned32
  | b920 => exact turned32a
  | b780 => exact turned64
  | b915 => exact turned64
  | b917 => exact turned64
  | b2450 => exact turned128

theorem turned_lt (b : Band) : turned (16 * shrChipsPerBit b) (sfd b) < 2 ^ (16 * shrChipsPerBit b) := by cases b <;> decide +kernel

/-- The count of a window without its first `W - n` chips. -/
theorem count_tail (m W d x p n : Nat) (hm : m < 511) (hW : W ≤ 9 * m) (hd : d < 2 ^ W) (hn : n ≤ W) :
    slices (mask m) 9 (((x / 2 ^ p % 2 ^ W) ^^^ d) / 2 ^ (W - n)) = ∑ i ∈ Finset.range n, (xor (x.testBit (p + (W - n) + i)) (d.testBit (W - n + i))).toNat := by
  have hy : ((x / 2 ^ p % 2 ^ W) ^^^ d) < 2 ^ W := Nat.xor_lt_two_pow (Nat.mod_lt _ (by positivity)) hd
  rw [ones_slices m hm W hW _ (lt_of_le_of_lt (Nat.div_le_self _ _) hy)]
  unfold ones
  symm
  have hsub : Finset.range n ⊆ Finset.range W := by intro i; simp; omega
  rw [← Finset.sum_subset hsub (f := fun i => ((((x / 2 ^ p % 2 ^ W) ^^^ d) / 2 ^ (W - n)).testBit i).toNat)]
  · refine Finset.sum_congr rfl fun i hi => ?_
    have hi := Finset.mem_range.1 hi
    rw [Nat.testBit_div_two_pow, Nat.testBit_xor, Nat.testBit_mod_two_pow, Nat.testBit_div_two_pow, decide_eq_true (by omega : i + (W - n) < W), Bool.true_and,
      show i + (W - n) + p = p + (W - n) + i by omega, show i + (W - n) = W - n + i by omega]
  · intro i _ hi
    rw [Finset.mem_range, Nat.not_lt] at hi
    rw [Nat.testBit_div_two_pow, Nat.testBit_lt_two_pow (lt_of_lt_of_le hy (Nat.pow_le_pow_right (by omega) (by omega)))]
    rfl

/-! ### Complex correlations -/

noncomputable section

/-- Symbol `k` of a stream of chips. -/
def sym (f : Nat → Bool) (k : Nat) : ℂ := chipValue (f (2 * k)) + I * chipValue (f (2 * k + 1))

theorem signs_sum (n : Nat) (f g : Nat → Bool) : ∑ i ∈ Finset.range n, RxQ.sign (f i) * RxQ.sign (g i) = n - 2 * ((∑ i ∈ Finset.range n, (xor (f i) (g i)).toNat : Nat) : ℝ) := by
  induction n with
  | zero => simp
  | succ n ih =>
    rw [Finset.sum_range_succ, Finset.sum_range_succ, ih]
    generalize f n = u
    generalize g n = v
    cases u <;> cases v <;> simp [RxQ.sign] <;> ring

theorem sym_mul (a b c d : Bool) : (chipValue a + I * chipValue b) * starRingEnd ℂ (chipValue c + I * chipValue d) =
    ((RxQ.sign a * RxQ.sign c + RxQ.sign b * RxQ.sign d : ℝ) : ℂ) + I * ((RxQ.sign a * RxQ.sign (!d) + RxQ.sign b * RxQ.sign c : ℝ) : ℂ) := by
  cases a <;> cases b <;> cases c <;> cases d <;> simp [chipValue, RxQ.sign] <;> ring_nf <;> simp <;> ring

theorem corr_chips (m : Nat) (f g : Nat → Bool) : ∑ k ∈ Finset.range m, sym f k * starRingEnd ℂ (sym g k) =
    ((∑ i ∈ Finset.range (2 * m), RxQ.sign (f i) * RxQ.sign (g i) : ℝ) : ℂ) + I * ((∑ i ∈ Finset.range (2 * m), RxQ.sign (f i) * RxQ.sign (turnedChip g i) : ℝ) : ℂ) := by
  induction m with
  | zero => simp
  | succ m ih =>
    rw [Finset.sum_range_succ, ih, show 2 * (m + 1) = 2 * m + 1 + 1 by omega, Finset.sum_range_succ, Finset.sum_range_succ, Finset.sum_range_succ, Finset.sum_range_succ]
    have e0 : turnedChip g (2 * m) = !g (2 * m + 1) := by unfold turnedChip; rw [show 2 * m % 2 = 0 by omega]; rfl
    have e1 : turnedChip g (2 * m + 1) = g (2 * m) := by unfold turnedChip; rw [show (2 * m + 1) % 2 = 1 by omega]; rfl
    rw [e0, e1]
    unfold sym
    rw [sym_mul]
    push_cast
    ring

/-- **The bound.**  At symbol `t` of silence and SHR the `m` symbols that are not silent have little in common with the last `m` of the delimiter. -/
theorem small_corr (b : Band) (t m : Nat) (ht : t < (preambleBits b + 16) * shrChipsPerBit b / 2) (hm : m = min t (8 * shrChipsPerBit b)) :
    600 * ‖∑ k ∈ Finset.range m, sym (fun i => (stream b).testBit i) (t + (8 * shrChipsPerBit b - m) + k) *
      starRingEnd ℂ (sym (fun i => (sfd b).testBit i) (8 * shrChipsPerBit b - m + k))‖ ^ 2 + 156 * (m : ℝ) ^ 2 ≤ 360 * (8 * shrChipsPerBit b : ℕ) * m := by
  obtain ⟨hN, -, hd, -⟩ := sizes b
  set K := 8 * shrChipsPerBit b with hK
  have hW : 16 * shrChipsPerBit b = 2 * K := by omega
  have hsl : sliceCount (shrChipsPerBit b) < 511 ∧ 16 * shrChipsPerBit b ≤ 9 * sliceCount (shrChipsPerBit b) := by
    rcases hN with e | e | e <;> rw [e] <;> decide
  have hc := check2_ok _ _ _ _ _ _ _ (corr_band b) t ht
  have hmK : m ≤ K := by omega
  rw [Nat.zero_add, show min (2 * t) (16 * shrChipsPerBit b) = 2 * m by omega] at hc
  rw [count_tail _ _ _ _ _ _ hsl.1 hsl.2 hd (by omega), count_tail _ _ _ _ _ _ hsl.1 hsl.2 (turned_lt b) (by omega)] at hc
  set F : Nat → Bool := fun i => (stream b).testBit (2 * t + (16 * shrChipsPerBit b - 2 * m) + i) with hF
  set G : Nat → Bool := fun i => (sfd b).testBit (16 * shrChipsPerBit b - 2 * m + i) with hG
  have e2 : ∑ i ∈ Finset.range (2 * m), (xor ((stream b).testBit (2 * t + (16 * shrChipsPerBit b - 2 * m) + i)) ((turned (16 * shrChipsPerBit b) (sfd b)).testBit (16 * shrChipsPerBit b - 2 * m + i))).toNat =
      ∑ i ∈ Finset.range (2 * m), (xor (F i) (turnedChip G i)).toNat := by
    refine Finset.sum_congr rfl fun i hi => ?_
    have hi := Finset.mem_range.1 hi
    have : (turned (16 * shrChipsPerBit b) (sfd b)).testBit (16 * shrChipsPerBit b - 2 * m + i) = turnedChip (fun k => (sfd b).testBit k) (16 * shrChipsPerBit b - 2 * m + i) :=
      same_ok _ _ _ (turned_ok b) _ (by omega)
    rw [this]
    congr 2
    unfold turnedChip
    rw [show (16 * shrChipsPerBit b - 2 * m + i) % 2 = i % 2 by omega]
    rcases Nat.mod_two_eq_zero_or_one i with h | h
    · rw [h]; rfl
    · rw [h]
      show (sfd b).testBit (16 * shrChipsPerBit b - 2 * m + i - 1) = G (i - 1)
      simp only [hG]
      congr 1; omega
  rw [e2] at hc
  have e3 : ∑ k ∈ Finset.range m, sym (fun i => (stream b).testBit i) (t + (K - m) + k) * starRingEnd ℂ (sym (fun i => (sfd b).testBit i) (K - m + k)) =
      ∑ k ∈ Finset.range m, sym F k * starRingEnd ℂ (sym G k) := by
    refine Finset.sum_congr rfl fun k _ => ?_
    unfold sym
    simp only [hF, hG]
    rw [show 2 * (t + (K - m) + k) = 2 * t + (16 * shrChipsPerBit b - 2 * m) + 2 * k by omega, show 2 * (K - m + k) = 16 * shrChipsPerBit b - 2 * m + 2 * k by omega]
    rfl
  rw [e3, corr_chips, signs_sum, signs_sum]
  change small _ _ (∑ i ∈ Finset.range (2 * m), (xor (F i) (G i)).toNat) _ = true at hc
  generalize ∑ i ∈ Finset.range (2 * m), (xor (F i) (G i)).toNat = h₁ at *
  generalize ∑ i ∈ Finset.range (2 * m), (xor (F i) (turnedChip G i)).toNat = h₂ at *
  have hc := Nat.le_of_ble_eq_true hc
  rw [hW] at hc
  have hr : (1239 * ((2 * m : ℝ) * (2 * m)) + 2400 * ((h₁ : ℝ) * h₁ + h₂ * h₂)) ≤ 90 * (2 * K * (2 * m)) + 2400 * (2 * m * (h₁ + h₂)) := by exact_mod_cast hc
  rw [← Complex.normSq_eq_norm_sq, mul_comm I, Complex.normSq_add_mul_I]
  push_cast
  nlinarith

end
end SunPhy.OqBlind
