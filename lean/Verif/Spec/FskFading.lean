import Verif.Spec.FskDiscriminator
/-
A fading channel for MR-FSK.
-/
namespace SunPhy.RxF
open SunPhy Spec Complex
noncomputable section

/-- Symbol `n` of the received signal `r` is symbol `s + n` of the frame `iq`, at most five samples early or late; each of its samples 5 to 14 has its own gain `a i` and phase `φ i`, and from
sample to sample the phase changes by less than half the distance between neighbouring tones. -/
def Fading (h : ℝ) (iq r : List ℂ) (s n : Nat) : Prop :=
  ∃ (τ : ℤ) (a φ : Nat → ℝ), |τ| ≤ 5 ∧
    (∀ i : Nat, 5 ≤ i → i ≤ 14 → 0 < a i ∧ r.getD (20 * n + i) 0 = a i * exp (I * (φ i : ℂ)) * iq.getD (20 * (s + n) + i + τ : ℤ).toNat 0) ∧
    ∀ i : Nat, 5 ≤ i → i ≤ 13 → |φ (i + 1) - φ i| < turnPerSample h

end
end SunPhy.RxF
