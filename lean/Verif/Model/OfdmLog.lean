import Verif.Model.OfdmCtor
import Verif.Model.MrFskSignal
/-
The test `math.log(N_FFT, 2).is_integer()` of `Ofdm_modulator.__init__` in double precision (`Model/OfdmCtor.lean` reads it as "is a power of two").
-/
namespace SunPhy

/-- `math.log(n, 2).is_integer()`, `ofdm_modulator.py:69`, for a double `n` (`binary64` of an integer, below `2^1024`): `math.log(x, b)` is the quotient, in doubles, of the
logarithms of `x` and `b`, and `ln` is the logarithm of the C library.  `math.log` raises `ValueError` unless `n > 0`. -/
def logIsInteger (ln : ℚ → ℚ) (n : Int) : Res Bool :=
  if n ≤ 0 then .error .ValueError else .ok ((binary64 (ln (binary64 n) / ln 2)).den == 1)

/-- `Ofdm_modulator.__init__`, `ofdm_modulator.py:66-152`, with this test; otherwise as `ofdmInit`. -/
def ofdmInitF {α : Type} (ln : ℚ → ℚ) (N_FFT modulation padding_left padding_right frequency_spreading : PyVal) (pilots_indices : IndicesArg)
    (pilots_values : ValuesArg α) (initial_pilot_set initial_pn9_seed : PyVal) : Res (OfdmStored α) := do
  let n ← ofdmCheckInt N_FFT
  ofdmRequire (← logIsInteger ln n)
  let m ← ofdmCheckStr modulation
  let l ← ofdmCheckInt padding_left
  let r ← ofdmCheckInt padding_right
  ofdmCheckBoth pilots_indices pilots_values
  let f ← ofdmCheckInt frequency_spreading
  ofdmRequire (decide (f = 1 ∨ f = 2 ∨ f = 4))
  let ips ← ofdmCheckInt initial_pilot_set
  let seed ← ofdmCheckInt initial_pn9_seed
  let p ← ofdmCheckPilots pilots_indices pilots_values
  let k ← getModulator m
  return { nFFT := n.toNat, modulation := k, paddingLeft := l, paddingRight := r, frequencySpreading := f.toNat, pilots := p,
           initialPilotSet := ips, initialSeed := seed }

end SunPhy
