import Verif.Spec.OqpskGain
/-
An MR-O-QPSK receiver whose oscillator differs from the transmitter's: it measures the difference by comparing two neighbouring quarters of the preamble, removes it, and
receives (`OqpskGain`).
-/
namespace SunPhy.RxQ
open SunPhy Spec Complex
noncomputable section

/-- A signal as an oscillator sees it that differs by `ω` per sample. -/
def turned (ω : ℝ) (x : List ℂ) : List ℂ := (List.range x.length).map fun (n : Nat) => exp (I * (ω * n : ℝ)) * x.getD n 0

/-- Samples of a quarter of the preamble. -/
def quarter (b : Band) (sps : Nat) : Nat := preambleSymbols b / 4 * sps

/-- Phase advance per sample, from the first quarter of a preamble received to the second. -/
def carrier (b : Band) (sps : Nat) (r : List ℂ) : ℝ :=
  arg (∑ k ∈ Finset.range (quarter b sps), r.getD (quarter b sps + k) 0 * (starRingEnd ℂ) (r.getD k 0)) / quarter b sps

/-- The signal with that advance removed. -/
def tuned (b : Band) (sps : Nat) (r : List ℂ) : List ℂ := (List.range r.length).map fun n => r.getD n 0 * exp (I * (-(carrier b sps r * n) : ℝ))

/-- Receive after tuning. -/
def receiveTuned (b : Band) (sps : Nat) (r : List ℂ) : Option (Bool × Nat × Nat × List (Option Bool)) := receiveBlind b sps (tuned b sps r)

end
end SunPhy.RxQ
