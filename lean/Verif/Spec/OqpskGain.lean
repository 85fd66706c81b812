import Verif.Spec.OqpskSync
/-
An MR-O-QPSK receiver that knows neither when the frame starts nor strength and phase of the signal: it correlates with the start of frame delimiter, compares the
result with the power received, and takes the complex factor of the signal from the correlation.
-/
namespace SunPhy.RxQ
open SunPhy Spec Complex
noncomputable section

/-- Symbol intervals of the preamble and of the delimiter (two chips each). -/
def preambleSymbols (b : Band) : Nat := preambleBits b * shrChipsPerBit b / 2
def delimiterSymbols (b : Band) : Nat := 8 * shrChipsPerBit b

/-- Symbol `k` of the delimiter. -/
def delimiterSymbol (b : Band) (k : Nat) : ℂ := chipValue ((delimiter b).getD (2 * k) false) + I * chipValue ((delimiter b).getD (2 * k + 1) false)

/-- Soft value of the symbol in interval `i`. -/
def softSymbol (b : Band) (sps : Nat) (r : List ℂ) (i : Nat) : ℂ := ∑ j ∈ Finset.range sps, r.getD (i * sps + j) 0 * (pulseSample b sps j : ℝ)

/-- Correlation with the delimiter from interval `i` on. -/
def correlation (b : Band) (sps : Nat) (r : List ℂ) (i : Nat) : ℂ :=
  ∑ k ∈ Finset.range (delimiterSymbols b), softSymbol b sps r (i + k) * starRingEnd ℂ (delimiterSymbol b k)

/-- Power received in the same intervals. -/
def power (b : Band) (sps : Nat) (r : List ℂ) (i : Nat) : ℝ := ∑ k ∈ Finset.range (delimiterSymbols b), ‖softSymbol b sps r (i + k)‖ ^ 2

/-- First interval where the squared correlation is more than a third of what it can be for the power received. -/
def detect (b : Band) (sps : Nat) (r : List ℂ) : Option Nat :=
  (List.range r.length).find? fun i => decide (1 / 3 * (2 * delimiterSymbols b) * power b sps r i < ‖correlation b sps r i‖ ^ 2)

/-- The complex factor of the signal, if the delimiter is at interval `i`. -/
def factor (b : Band) (sps : Nat) (r : List ℂ) (i : Nat) : ℂ := correlation b sps r i / (2 * delimiterSymbols b * pulseEnergy b sps : ℝ)

/-- Find the delimiter, divide by the factor, align with the start of the frame, receive. -/
def receiveBlind (b : Band) (sps : Nat) (r : List ℂ) : Option (Bool × Nat × Nat × List (Option Bool)) :=
  match detect b sps r with
  | none => none
  | some i =>
    let x := r.map fun z => z / factor b sps r i
    let P := preambleSymbols b
    if i < P then receive b sps (List.replicate ((P - i) * sps) 0 ++ x) else receive b sps (x.drop ((i - P) * sps))

end
end SunPhy.RxQ
