import Verif.Model.MrFskSignal
/-
`_FSKModulator` as numpy computes it: every arithmetic operation is followed by a rounding `rn` (`rn = float64` is IEEE 754 double
precision) and the complex exponential of an imaginary number is an approximation `cis`.  `Model/MrFskSignal.lean` models the same routine
with exact sample values; C109 bounds the difference.  Not modelled: overflow (a symbol rate beyond the range of doubles).
-/
namespace SunPhy

/-- `np.pi`: the double nearest to π. -/
def npPi : Rat := 884279719003555 / 281474976710656

/-- `deltaF = self._symbol_rate * self._FSKModulationIndex / 2`, `mr_fsk_modulator.py:399`.  With a float index the integer symbol rate is converted
to a double first; with an integer index the product is a Python integer and only the division rounds. -/
def fskDeltaF (rn : Rat → Rat) (intIndex : Bool) (p : FskParams) : Rat :=
  if intIndex then rn ((p.symbolRate : Rat) * p.modIndex / 2) else rn (rn (rn (p.symbolRate : Rat) * p.modIndex) / 2)

/-- `fdev`, `mr_fsk_modulator.py:400-403`. -/
def fskFdevF (rn : Rat → Rat) (intIndex : Bool) (p : FskParams) : Rat :=
  match p.modulation with
  | .FSK2 => fskDeltaF rn intIndex p
  | .FSK4 => rn (3 * fskDeltaF rn intIndex p)

/-- The dictionary `mod`, `mr_fsk_modulator.py:405-414`, looked up with the bits of one symbol (`:419-421`).  Unlike the Python dictionary the keys are
split by modulation; the keys of one modulation have one length, so that the result is the same. -/
def fskFreqF (rn : Rat → Rat) (fdev : Rat) : FskMod → Bits → Res Rat
  | .FSK2, [false] => .ok (-fdev)
  | .FSK2, [true] => .ok fdev
  | .FSK4, [false, true] => .ok (-fdev)
  | .FSK4, [false, false] => .ok (rn (-fdev / 3))
  | .FSK4, [true, false] => .ok (rn (fdev / 3))
  | .FSK4, [true, true] => .ok fdev
  | _, _ => .error .KeyError

/-- `2*np.pi*f*1j*t` for one sample, `mr_fsk_modulator.py:432`: `2*np.pi` is exact, the product with `f` rounds, the products with `1j` only move the
number to the imaginary axis, the product with `t` rounds. -/
def fskPhaseF (rn : Rat → Rat) (f t : Rat) : Rat := rn (rn (2 * npPi * f) * t)

/-- `_FSKModulator(message, samplesPerSymbol)`, `mr_fsk_modulator.py:367-434`, in floating point.  `t = np.arange(0, stop, dt)` has the entries
`i * dt`, rounded. -/
def fskModulatorF (rn : Rat → Rat) (cis : Rat → ℂ) (intIndex : Bool) (p : FskParams) (message : Bits) (sps : Nat) : Res (List ℂ × ℚ) := do
  let syms ← fskSymbols p.modulation message
  let freqs ← syms.mapM (fskFreqF rn (fskFdevF rn intIndex p) p.modulation)
  let f : List ℚ := freqs.flatMap fun x => List.replicate sps x
  let dt := fskDt rn p.symbolRate sps
  let t : List ℚ := (List.range (fskArangeLen rn p.symbolRate sps f.length)).map fun (i : Nat) => rn ((i : ℚ) * dt)
  let iq ← bcast (fun (f t : ℚ) => cis (fskPhaseF rn f t)) f t
  return (iq, rn (1 / dt))

/-- `bitsToIQ(bits)`, `mr_fsk_modulator.py:438-495`, in floating point. -/
def fskBitsToIQF (rn : Rat → Rat) (cis : Rat → ℂ) (intIndex : Bool) (bits : Arg) : PyM FskObj (List ℂ × ℚ) := do
  let b ← fskBinary bits
  PyM.lift (fskModulatorF rn cis intIndex (← get).params b 20)

/-- `bytesToIQ(bytes)`, `mr_fsk_modulator.py:497-514`, in floating point. -/
def fskBytesToIQF (rn : Rat → Rat) (cis : Rat → ℂ) (intIndex : Bool) (bytes : Arg) : PyM FskObj (List ℂ × ℚ) := do
  let m ← PyM.lift (toBinaryArray bytes)
  fskBitsToIQF rn cis intIndex (bitsArg m)

end SunPhy
