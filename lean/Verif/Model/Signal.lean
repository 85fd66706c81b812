import Verif.Model.OfdmSubcarriers
import Mathlib.Analysis.SpecialFunctions.Complex.Circle
import Mathlib.Analysis.SpecialFunctions.Trigonometric.Basic
/-
Model of the time-domain part of `Ofdm_modulator` (`sun_phy/mr_ofdm/ofdm_modulator.py`) over exact complex numbers.
Floating point rounding of the samples is not modelled.
-/
namespace SunPhy
open Complex
noncomputable section

/-- `np.fft.ifftshift(x)`: `out[i] = x[(i + N//2) mod N]` (`ofdm_modulator.py:385`). -/
def ifftshift (x : List ℂ) : List ℂ :=
  (List.range x.length).map fun i => x.getD ((i + x.length / 2) % x.length) 0

/-- `np.fft.ifft(x, norm='ortho')`: `out[n] = N^(-1/2) * Σ_k x[k] e^(2πi k n / N)`. -/
def ifftOrtho (x : List ℂ) : List ℂ :=
  (List.range x.length).map fun (n : Nat) =>
    (∑ k ∈ Finset.range x.length, x.getD k 0 * exp (2 * Real.pi * I * k * n / x.length)) / (Real.sqrt x.length : ℂ)

/-- `_ifft` on one column, `ofdm_modulator.py:368-387`. -/
def ofdmIfft (channels : List ℂ) : List ℂ := ifftOrtho (ifftshift channels)

/-- `_cyclic_prefix` on one column, `ofdm_modulator.py:389-412`: `signal[-prefix_length:]` followed by the signal.  For
`prefix_length = 0` Python's `signal[-0:]` is the whole signal. -/
def cyclicPrefix (CP : ℚ) (signal : List ℂ) : List ℂ :=
  if CP > 0 then
    let prefixLength : Int := ⌊(signal.length : ℚ) * CP⌋
    signal.drop (pyBound signal.length (-prefixLength)) ++ signal
  else signal

/-- Complex numbers for a modulation factor: `1j`, `np.exp(1j*2*np.pi*m/4)`. -/
def complexNumbers (factor : ℝ) : Numbers ℂ where
  ofGI z := (z.re : ℂ) + (z.im : ℂ) * I
  rot m := exp (I * 2 * Real.pi * m / 4)
  factor := factor

/-- `Ofdm_modulator.bitsToIQ(bits, pad)`, `ofdm_modulator.py:414-466`; the result is read symbol by symbol
(`reshape(-1, order='F')`). -/
def ofdmBitsToIQ (c : OfdmCfg ℂ) (factor : ℝ) (CP : ℚ) (bits : Bits) (pad : Bool := false) :
    PyM OfdmState (List ℂ) := do
  let cols ← ofdmSubcarriers c (complexNumbers factor) bits pad
  return cols.flatMap fun col => cyclicPrefix CP (ofdmIfft col)

/-- `Ofdm_modulator.subcarriersToIQ(subcarriers)` for a 1-D array, `ofdm_modulator.py:468-500`. -/
def subcarriersToIQ (nFFT : Nat) (CP : ℚ) (subcarriers : List ℂ) : Res (List ℂ) :=
  if subcarriers.length ≠ nFFT then .error .ValueError
  else .ok (cyclicPrefix CP (ofdmIfft subcarriers))

end
end SunPhy
