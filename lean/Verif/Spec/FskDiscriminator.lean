import Verif.Spec.FskSync
/-
An MR-FSK receiver that needs neither gain, phase, carrier frequency nor exact timing: it decides each symbol by the rotation from sample to sample (a discriminator), and finds the
frame by its start of frame delimiter.
-/
namespace SunPhy.RxF
open SunPhy Spec Complex ComplexConjugate
noncomputable section

/-- Rotation per sample (20 samples per symbol) of a tone of deviation 1; neighbouring tones differ by twice this. -/
def turnPerSample (h : ℝ) : ℝ := Real.pi * h / 20

/-- Rotation from sample to sample in the middle of symbol `n` (samples 5 to 14). -/
def rotation (r : List ℂ) (n : Nat) : ℂ := ∑ i ∈ Finset.range 9, r.getD (20 * n + (5 + i + 1)) 0 * conj (r.getD (20 * n + (5 + i)) 0)

/-- How well a deviation explains the rotation. -/
def score (h : ℝ) (r : List ℂ) (n : Nat) (d : Int) : ℝ := (rotation r n * exp (-(I * ((turnPerSample h * d : ℝ) : ℂ)))).re

/-- The deviation that explains it best. -/
def discriminate (m : FskMod) (h : ℝ) (r : List ℂ) (n : Nat) : Int :=
  ((deviations m).find? fun d => decide (∀ d' ∈ deviations m, score h r n d' ≤ score h r n d)).getD 0

/-- Bit `j`: 2FSK one bit per symbol, 4FSK two (sign, outer frequency). -/
def bitD (m : FskMod) (h : ℝ) (r : List ℂ) (j : Nat) : Bool :=
  match m with
  | .FSK2 => decide (0 < discriminate m h r j)
  | .FSK4 => if j % 2 = 0 then decide (0 < discriminate m h r (j / 2)) else decide (2 < |discriminate m h r (j / 2)|)

/-- Coded flag, FCS flag, whitening flag and message bits; `none` when no delimiter is found. -/
def receiveDiscriminator (k : Profile) (r : List ℂ) : Option (Bool × Bool × Bool × Bits) :=
  let y := bitD k.modulation k.modIndex r
  (sync k.modulation k.group y (2 * r.length)).map fun (o, c) =>
    (c, receiveFrom ⟨k.modulation, k.modIndex, 0, c, k.fecScheme, k.interleaving⟩ fun i => y (o + delimiterLength k.modulation + i))

/-- Symbol `n` of the received signal `r` is symbol `s + n` of the frame `iq`, heard with some gain and phase `c`, a carrier that is off by `θ` radians per sample (less than half the distance
between neighbouring tones), at most five samples early or late, and with noise of relative amplitude `ε` on its samples 5 to 14. -/
def Audible (h : ℝ) (iq r : List ℂ) (s n : Nat) : Prop :=
  ∃ (c : ℂ) (θ ε : ℝ) (τ : ℤ), c ≠ 0 ∧ |θ| < turnPerSample h ∧ |τ| ≤ 5 ∧ 0 ≤ ε ∧ 2 * (2 * ε + ε ^ 2) < Real.cos θ - Real.cos (2 * turnPerSample h - |θ|) ∧
    ∀ i : Nat, 5 ≤ i → i ≤ 14 → ‖r.getD (20 * n + i) 0 - c * exp (I * ((θ * i : ℝ) : ℂ)) * iq.getD (20 * (s + n) + i + τ : ℤ).toNat 0‖ ≤ ε * ‖c‖

end
end SunPhy.RxF
