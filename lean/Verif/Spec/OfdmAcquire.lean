import Verif.Spec.OfdmSync
/-
An MR-OFDM receiver that knows neither when the frame starts nor the difference between its oscillator and the transmitter's: it starts to listen during the short training
field, measures the difference by comparing two neighbouring short training symbols, removes it, and looks for the long training field (`OfdmSync`).
-/
namespace SunPhy.Rx
open SunPhy Spec Complex
noncomputable section

/-- Samples of a short training symbol with its prefix. -/
def shortLength (option : Nat) : Nat := 5 * Ref.nfft option / 4

/-- Phase advance per sample, from the first `shortLength` samples received to the next. -/
def coarse (option : Nat) (r : List ℂ) : ℝ :=
  arg (∑ k ∈ Finset.range (shortLength option), r.getD (shortLength option + k) 0 * (starRingEnd ℂ) (r.getD k 0)) / shortLength option

/-- The signal with that advance removed. -/
def tunedCoarse (option : Nat) (r : List ℂ) : List ℂ := (List.range r.length).map fun n => r.getD n 0 * exp (I * (-(coarse option r * n) : ℝ))

/-- Receive after tuning. -/
def receiveAcquired (option interleaving : Nat) (r : List ℂ) : Option (Nat × Nat × Bits) := receiveUnaligned option interleaving (tunedCoarse option r)

/-- A signal as an oscillator sees it that differs by `ω` per sample. -/
def turned (ω : ℝ) (x : List ℂ) : List ℂ := (List.range x.length).map fun (n : Nat) => exp (I * (ω * n : ℝ)) * x.getD n 0

end
end SunPhy.Rx
