import Verif.Model.Signal
import Mathlib.Analysis.SpecialFunctions.Complex.Circle
/-
What a spectrum analyser shows of a window of an MR-OFDM signal.
-/
namespace SunPhy.Sa
open Complex
noncomputable section

/-- Component at `t` cycles per `N` samples of the `N` samples from `w` on (without normalisation). -/
def spectrum (N : Nat) (iq : List ℂ) (w : Nat) (t : Int) : ℂ := ∑ k ∈ Finset.range N, iq.getD (w + k) 0 * exp (-(2 * Real.pi * I * t * k / N))

/-- Transform length of the four options. -/
def size : Nat → Nat | 1 => 128 | 2 => 64 | 3 => 32 | _ => 16

/-- The outermost tones in use. -/
def edge : Nat → Nat | 1 => 52 | 2 => 26 | 3 => 13 | _ => 7

/-- The tones in use: neither the middle nor beyond the edge. -/
def InUse (option : Nat) (t : Int) : Prop := t ≠ 0 ∧ t.natAbs ≤ edge option

/-- The tones of the short training symbols, and their power. -/
def Short : Nat → Int → Prop
  | 1, t => t ≠ 0 ∧ t % 8 = 0 ∧ t.natAbs ≤ 48
  | 2, t => t ≠ 0 ∧ t % 4 = 0 ∧ t.natAbs ≤ 24
  | 3, t => t ≠ 0 ∧ t % 4 = 0 ∧ t.natAbs ≤ 12
  | _, t => t ≠ 0 ∧ t % 2 = 0 ∧ t.natAbs ≤ 6
def shortPower : Nat → ℝ | 1 => 104 / 12 | 2 => 52 / 12 | 3 => 26 / 6 | _ => 14 / 6

end
end SunPhy.Sa
