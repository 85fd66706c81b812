import Verif.Spec.OfdmEqualiser
/-
An MR-OFDM receiver whose oscillator differs from the transmitter's: it measures the difference by comparing the two long training symbols, removes it, and receives
(`OfdmEqualiser`).
-/
namespace SunPhy.Rx
open SunPhy Spec Complex
noncomputable section

/-- Phase advance per sample, from the first long training symbol to the second. -/
def carrier (option : Nat) (r : List ℂ) : ℝ :=
  let N := Ref.nfft option
  arg (∑ k ∈ Finset.range N, r.getD (trainingStart N + N + k) 0 * (starRingEnd ℂ) (r.getD (trainingStart N + k) 0)) / N

/-- The signal with that advance removed. -/
def tuned (option : Nat) (r : List ℂ) : List ℂ := (List.range r.length).map fun n => r.getD n 0 * exp (I * (-(carrier option r * n) : ℝ))

/-- Receive after tuning. -/
def receiveTuned (option interleaving : Nat) (r : List ℂ) : Option (Nat × Nat × Bits) := receiveEqualised option interleaving (tuned option r)

/-- Energy of the difference between what is received and what the channel delivers when its output turns by `ω` per sample, in `len` samples from `start` on. -/
def offsetDisturbance (ω : ℝ) (h iq r : List ℂ) (start len : Nat) : ℝ :=
  ∑ k ∈ Finset.range len, ‖r.getD (start + k) 0 - exp (I * (ω * (start + k : Nat) : ℝ)) * through h iq (start + k)‖ ^ 2

/-- Energy that the channel delivers in `len` samples from `start` on. -/
def delivered (h iq : List ℂ) (start len : Nat) : ℝ := ∑ k ∈ Finset.range len, ‖through h iq (start + k)‖ ^ 2

end
end SunPhy.Rx
