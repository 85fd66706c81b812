import Verif.Proofs.Dft
/-
C26 — the inverse FFT stage loses nothing and keeps the energy.
-/
namespace SunPhy.C26
open SunPhy Spec

/-- **C26 (sizes).**  `subcarriersToIQ` accepts exactly `N_FFT` subcarriers and, without prefix, returns as many samples. -/
theorem C26_accepts (N : Nat) (x : List ℂ) :
    (x.length = N → ∃ y, subcarriersToIQ N 0 x = .ok y ∧ y.length = N) ∧
    (x.length ≠ N → subcarriersToIQ N 0 x = .error .ValueError) := by
  constructor
  · intro h
    refine ⟨_, by unfold subcarriersToIQ; rw [if_neg (by simpa using h)], ?_⟩
    unfold cyclicPrefix
    rw [if_neg (by norm_num), ← h]
    simp [ofdmIfft, ifftOrtho, ifftshift]
  · intro h
    unfold subcarriersToIQ; rw [if_pos h]

/-- **C26 (inversion).**  A unitary DFT of the samples, followed by moving DC to the centre, gives back the subcarriers exactly; hence no two
sets of subcarriers give the same samples. -/
theorem C26_inverse (N : Nat) (x y : List ℂ) (h : subcarriersToIQ N 0 x = .ok y) : fftshift (dftOrtho y) = x := by
  unfold subcarriersToIQ at h
  split at h
  · cases h
  · injection h with h
    rw [← h]
    unfold cyclicPrefix
    rw [if_neg (by norm_num)]
    exact dft_ofdmIfft x

theorem C26_injective (N : Nat) (x x' y : List ℂ) (h : subcarriersToIQ N 0 x = .ok y) (h' : subcarriersToIQ N 0 x' = .ok y) : x = x' := by
  rw [← C26_inverse N x y h, C26_inverse N x' y h']

/-- **C26 (energy).**  The sum of squared magnitudes is unchanged. -/
theorem C26_energy (N : Nat) (x y : List ℂ) (h : subcarriersToIQ N 0 x = .ok y) : energy y = energy x := by
  unfold subcarriersToIQ at h
  split at h
  · cases h
  · injection h with h
    rw [← h]
    unfold cyclicPrefix
    rw [if_neg (by norm_num)]
    exact energy_ofdmIfft x

example : ∃ y, subcarriersToIQ 4 0 [1, 2, Complex.I, -1] = .ok y ∧ y.length = 4 := (C26_accepts 4 _).1 rfl

end SunPhy.C26
