import Verif.Proofs.BigDot
import Verif.Proofs.OfdmSyncTable
import Verif.Spec.OfdmReference
/-
The training fields in integers, and how they correlate with the long training field: evaluated by the kernel on numbers that hold all the samples at once.
-/
namespace SunPhy.SyncCheck
open SunPhy BigDot

/-! ### Evaluation -/

/-- Evaluates `n` before `k` uses it. -/
noncomputable def force {α : Type} (n : Nat) (k : Nat → α) : α := Nat.rec (k 0) (fun m _ => k (m + 1)) n

theorem force_eq {α : Type} (n : Nat) (k : Nat → α) : force n k = k n := by cases n <;> rfl

/-- `f 0 + … + f (n-1)`. -/
noncomputable def total (f : Nat → Nat) (n : Nat) : Nat := Nat.rec 0 (fun i s => s + f i) n

theorem total_eq (f : Nat → Nat) (n : Nat) : total f n = ∑ i ∈ Finset.range n, f i := by
  induction n with
  | zero => rfl
  | succ n ih => rw [Finset.sum_range_succ, ← ih]; rfl

/-- All the values of a function in one number … -/
noncomputable def pack (B : Nat) (f : Nat → Nat) (n : Nat) : Nat := Nat.rec 0 (fun i s => s + B ^ i * f i) n

theorem pack_eq (B : Nat) (f : Nat → Nat) (n : Nat) : pack B f n = val B ((List.range n).map f) := by
  induction n with
  | zero => rfl
  | succ n ih =>
    rw [List.range_succ, List.map_append, val_append, List.length_map, List.length_range, ← ih]
    change pack B f n + B ^ n * f n = _
    simp [val]

/-- … and in reverse. -/
noncomputable def packRev (B : Nat) (f : Nat → Nat) (n : Nat) : Nat := Nat.rec 0 (fun i s => f i + B * s) n

theorem packRev_eq (B : Nat) (f : Nat → Nat) (n : Nat) : packRev B f n = val B ((List.range n).map f).reverse := by
  induction n with
  | zero => rfl
  | succ n ih =>
    rw [List.range_succ, List.map_append, List.reverse_append, List.map_singleton, List.reverse_singleton, List.singleton_append, val, ← ih]
    rfl

/-- One of them. -/
def digit (B v i : Nat) : Nat := v / B ^ i % B

theorem digit_pack {B : Nat} (f : Nat → Nat) (n : Nat) (h : ∀ i < n, f i < B) (i : Nat) (hi : i < n) : digit B (pack B f n) i = f i := by
  unfold digit
  rw [pack_eq, val_digit, List.getD_eq_getElem?_getD, List.getElem?_map, List.getElem?_range hi]
  · rfl
  · intro x hx
    obtain ⟨k, hk, rfl⟩ := List.mem_map.1 hx
    exact h k (List.mem_range.1 hk)

/-- Holds for `0, …, n-1`. -/
noncomputable def every (f : Nat → Bool) (n : Nat) : Bool := Nat.rec true (fun i b => and (f i) b) n

theorem every_eq (f : Nat → Bool) (n : Nat) (h : every f n = true) : ∀ i < n, f i = true := by
  induction n with
  | zero => intro i hi; omega
  | succ n ih =>
    have h : and (f n) (every f n) = true := h
    rw [Bool.and_eq_true] at h
    intro i hi
    rcases Nat.lt_or_ge i n with h1 | h1
    · exact ih h.2 i h1
    · rw [show i = n by omega]; exact h.1

/-! ### Training tones: 0 for `-1`, 1 for `0`, 2 for `+1` -/

def ltfCode : Nat → List Nat
  | 1 => [1, 1, 1, 1, 1, 1, 1, 1, 1, 1, 1, 1, 0, 2, 2, 0, 0, 0, 0, 2, 2, 0, 0, 2, 2, 2, 0, 0, 2, 2, 0, 0, 0, 0, 0, 2, 2, 0, 0, 0, 0, 0, 2, 2, 0, 2, 0, 0, 2, 0, 2, 2, 2, 2, 0, 0, 2, 2, 0, 2, 2, 0, 2, 2, 1, 2, 0, 2, 0, 2, 2, 0, 0, 2, 0, 2, 2, 2, 2, 0, 2, 2, 2, 2, 2, 0, 2, 0, 2, 0, 2, 0, 2, 2, 0, 2, 0, 0, 0, 2, 2, 2, 2, 2, 2, 0, 0, 0, 0, 0, 0, 2, 0, 2, 2, 0, 2, 1, 1, 1, 1, 1, 1, 1, 1, 1, 1, 1]
  | 2 => [1, 1, 1, 1, 1, 1, 0, 0, 0, 0, 2, 2, 2, 0, 2, 0, 2, 0, 2, 2, 0, 0, 0, 2, 2, 0, 2, 2, 2, 0, 0, 0, 1, 2, 0, 2, 2, 0, 2, 0, 0, 2, 0, 2, 2, 0, 0, 2, 2, 0, 0, 0, 0, 0, 2, 0, 0, 0, 2, 1, 1, 1, 1, 1]
  | 3 => [1, 1, 1, 2, 0, 2, 0, 2, 2, 2, 2, 2, 2, 2, 2, 0, 1, 0, 0, 2, 0, 2, 2, 0, 0, 2, 2, 0, 0, 2, 1, 1]
  | _ => [1, 2, 0, 2, 2, 0, 2, 2, 1, 0, 2, 2, 2, 0, 0, 0]

def stfCode : Nat → List Nat
  | 1 => [1, 1, 1, 1, 1, 1, 1, 1, 1, 1, 1, 1, 1, 1, 1, 1, 2, 1, 1, 1, 1, 1, 1, 1, 2, 1, 1, 1, 1, 1, 1, 1, 2, 1, 1, 1, 1, 1, 1, 1, 2, 1, 1, 1, 1, 1, 1, 1, 2, 1, 1, 1, 1, 1, 1, 1, 2, 1, 1, 1, 1, 1, 1, 1, 1, 1, 1, 1, 1, 1, 1, 1, 2, 1, 1, 1, 1, 1, 1, 1, 2, 1, 1, 1, 1, 1, 1, 1, 2, 1, 1, 1, 1, 1, 1, 1, 2, 1, 1, 1, 1, 1, 1, 1, 2, 1, 1, 1, 1, 1, 1, 1, 2, 1, 1, 1, 1, 1, 1, 1, 1, 1, 1, 1, 1, 1, 1, 1]
  | 2 => [1, 1, 1, 1, 1, 1, 1, 1, 0, 1, 1, 1, 0, 1, 1, 1, 0, 1, 1, 1, 2, 1, 1, 1, 2, 1, 1, 1, 2, 1, 1, 1, 1, 1, 1, 1, 2, 1, 1, 1, 0, 1, 1, 1, 2, 1, 1, 1, 2, 1, 1, 1, 0, 1, 1, 1, 2, 1, 1, 1, 1, 1, 1, 1]
  | 3 => [1, 1, 1, 1, 2, 1, 1, 1, 2, 1, 1, 1, 2, 1, 1, 1, 1, 1, 1, 1, 2, 1, 1, 1, 2, 1, 1, 1, 2, 1, 1, 1]
  | _ => [1, 1, 2, 1, 2, 1, 2, 1, 1, 1, 2, 1, 2, 1, 2, 1]

/-- `1250 √κ²`, rounded: amplitude of the short training tones in thousandths. -/
def amp : Nat → Nat | 1 => 3680 | 2 => 2602 | 3 => 2602 | _ => 1909

/-- `128 / N`. -/
def rate : Nat → Nat | 1 => 1 | 2 => 2 | 3 => 4 | _ => 8

/-- The table of the cosine as a number. -/
noncomputable def table : Nat := val (2 ^ 21) Roots.cosTab

/-- `10^6 + c · t'` for the tone with code `c + 1` and `t' = t - 10^6`. -/
def term (c t : Nat) : Nat := if c = 0 then 2000000 - t else if c = 1 then 1000000 else t

/-- `10^6 N + ∑ c cos`: part of a wave (`q = 0` the real, `q = 96` the imaginary part), from the packed codes and the packed table. -/
noncomputable def part (T C N u q n : Nat) : Nat := total (fun i => term (digit 4 C i) (digit (2 ^ 21) T ((u * i * n + 64 * n + q) % 128))) N

/-- Offset that makes the samples positive. -/
def H : Nat := 2 ^ 39

/-- Sample `s` of the training fields after `N` zeros, from the packed waves. -/
def sample (N K WS WL s : Nat) : Nat :=
  if s < N then H
  else if s < 6 * N then
    if 5 * N - N / 2 ≤ s - N then H + K * N * 1000000 - K * digit (2 ^ 30) WS (((s - N) % (5 * N / 4) + 3 * N / 4) % N)
    else K * digit (2 ^ 30) WS (((s - N) % (5 * N / 4) + 3 * N / 4) % N) + (H - K * N * 1000000)
  else 1000 * digit (2 ^ 30) WL ((s - 6 * N + N / 2) % N) + (H - 1000 * N * 1000000)

/-- Base of the packed samples. -/
def base : Nat := 2 ^ 96

/-- Sum of the products of a window with the packed reverse of another. -/
def window (F T M s : Nat) : Nat := F / base ^ s * T / base ^ (M - 1) % base

/-- Square of the difference. -/
def sqDiff (a b : Nat) : Nat := (a - b) * (a - b) + (b - a) * (b - a)

/-- Energy from sum of squares and sum. -/
def energy (M e l : Nat) : Nat := e + 2 * M * H * H - 2 * H * l

/-- The check at `s`: the energy of the window is not small and, before the long training field, the window does not correlate with it. -/
noncomputable def checkAt (N M A FR FI F2 TR TI one sa sc et : Nat) (s : Nat) : Bool :=
  force (window FR one M s) fun la => force (window FI one M s) fun lc => force (energy M (window F2 one M s) (la + lc)) fun e =>
    and (Nat.ble (3 * A * N * 1000000000000000000) (4 * e)) (or (Nat.beq s (6 * N))
      (force (window FR TR M s) fun rr => force (window FI TI M s) fun ii => force (window FI TR M s) fun ir => force (window FR TI M s) fun ri =>
        Nat.ble (7 * (sqDiff (rr + ii + 2 * M * H * H) (H * (la + lc + sa + sc)) + sqDiff (ir + H * (la + sc)) (ri + H * (lc + sa)))) (e * et)))

/-- Packed waves. -/
noncomputable def waves (code : List Nat) (N u q : Nat) : Nat := force table fun T => force (val 4 code) fun C => pack (2 ^ 30) (part T C N u q) N

/-- The complete check. -/
noncomputable def check (N u K A : Nat) (ls ll : List Nat) : Bool :=
  force (waves ls N u 0) fun SR => force (waves ls N u 96) fun SI => force (waves ll N u 0) fun LR => force (waves ll N u 96) fun LI =>
  let M := 3 * N / 2
  force (pack base (sample N K SR LR) (6 * N + M)) fun FR => force (pack base (sample N K SI LI) (6 * N + M)) fun FI =>
  force (pack base (fun s => sample N K SR LR s * sample N K SR LR s + sample N K SI LI s * sample N K SI LI s) (6 * N + M)) fun F2 =>
  force (packRev base (fun k => sample N K SR LR (6 * N + k)) M) fun TR => force (packRev base (fun k => sample N K SI LI (6 * N + k)) M) fun TI =>
  force (packRev base (fun _ => 1) M) fun one =>
  force (window FR one M (6 * N)) fun sa => force (window FI one M (6 * N)) fun sc => force (energy M (window F2 one M (6 * N)) (sa + sc)) fun et =>
  every (fun i => checkAt N M A FR FI F2 TR TI one sa sc et (i + 1)) (6 * N)

theorem check1 : check 128 1 3680 104 (stfCode 1) (ltfCode 1) = true := by decide +kernel
theorem check2 : check 64 2 2602 52 (stfCode 2) (ltfCode 2) = true := by decide +kernel
theorem check3 : check 32 4 2602 26 (stfCode 3) (ltfCode 3) = true := by decide +kernel
theorem check4 : check 16 8 1909 14 (stfCode 4) (ltfCode 4) = true := by decide +kernel

end SunPhy.SyncCheck
