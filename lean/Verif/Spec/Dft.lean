import Mathlib.Analysis.SpecialFunctions.Complex.Circle
import Mathlib.Analysis.SpecialFunctions.Trigonometric.Basic
/-
The receiver's side of the OFDM transform: unitary DFT followed by moving DC to the centre.
-/
namespace SunPhy.Spec
open Complex
noncomputable section

/-- Unitary DFT: `X[k] = N^(-1/2) * Σ_n y[n] e^(-2πi k n / N)`. -/
def dftOrtho (y : List ℂ) : List ℂ :=
  (List.range y.length).map fun (k : Nat) =>
    (∑ n ∈ Finset.range y.length, y.getD n 0 * exp (-(2 * Real.pi * I * k * n / y.length))) / (Real.sqrt y.length : ℂ)

/-- `fftshift`: frequency 0 is moved to index `N/2`. -/
def fftshift (x : List ℂ) : List ℂ := x.drop (x.length - x.length / 2) ++ x.take (x.length - x.length / 2)

/-- Sum of squared magnitudes. -/
def energy (x : List ℂ) : ℝ := (x.map fun v => ‖v‖ ^ 2).sum

end
end SunPhy.Spec
