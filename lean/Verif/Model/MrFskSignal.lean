import Verif.Model.MrFsk
import Mathlib.Analysis.SpecialFunctions.Complex.Circle
import Mathlib.Analysis.SpecialFunctions.Trigonometric.Basic
/-
Model of `Mr_fsk_modulator._FSKModulator`, `bitsToIQ` and `bytesToIQ` (`sun_phy/mr_fsk/mr_fsk_modulator.py`).  Sample
values are exact complex numbers.  The one place where rounding changes the behaviour (the number of samples produced by
`np.arange(0, dt*f.size, dt)`) is modelled with an explicit rounding function `rn`: `rn = id` is exact arithmetic,
`rn = binary64` is IEEE 754 double precision.
-/
namespace SunPhy
open Complex

/-- Frequency deviation of a symbol in units of `symbolRate * FSKModulationIndex / 2`: the dictionary `mod` of
`mr_fsk_modulator.py:395-412` (`fdev = deltaF` for 2FSK, `3*deltaF` for 4FSK; `±fdev`, `±fdev/3`). -/
def fskDeviation : FskMod → Bits → Res Int
  | .FSK2, [false] => .ok (-1)
  | .FSK2, [true] => .ok 1
  | .FSK4, [false, true] => .ok (-3)
  | .FSK4, [false, false] => .ok (-1)
  | .FSK4, [true, false] => .ok 1
  | .FSK4, [true, true] => .ok 3
  | _, _ => .error .KeyError

/-- Rounding of a positive rational to a 53-bit significand, ties to even: IEEE 754 binary64 `roundTiesToEven` without
overflow and underflow (the values met here are far from both). -/
def binary64 (q : Rat) : Rat :=
  if q ≤ 0 then 0
  else
    -- exponent `e` with `2^52 ≤ q / 2^e < 2^53`
    let e0 : Int := (Nat.log2 q.num.toNat : Int) - (Nat.log2 q.den : Int) - 52
    let e : Int := if (2 : Rat) ^ (52 : Nat) * (2 : Rat) ^ e0 ≤ q then e0 else e0 - 1
    let x : Rat := q / (2 : Rat) ^ e
    let m : Int := x.floor
    let r : Rat := x - m
    let n : Int := if r < 1 / 2 then m else if 1 / 2 < r then m + 1 else if m % 2 = 0 then m else m + 1
    (n : Rat) * (2 : Rat) ^ e

/-- `dt = (1/symbol_rate) / samplesPerSymbol`, `mr_fsk_modulator.py:426-429`. -/
def fskDt (rn : Rat → Rat) (rate sps : Nat) : Rat := rn (rn (1 / (rate : Rat)) / (sps : Rat))

/-- `len(np.arange(0, dt * n, dt)) = ceil((stop - 0) / dt)`, `mr_fsk_modulator.py:430` (numpy computes the quotient in
doubles). -/
def fskArangeLen (rn : Rat → Rat) (rate sps n : Nat) : Nat :=
  let dt := fskDt rn rate sps
  (rn (rn (dt * (n : Rat)) / dt)).ceil.toNat

noncomputable section

/-- `_FSKModulator(message, samplesPerSymbol)`, `mr_fsk_modulator.py:367-434`: samples and sampling frequency.
`np.exp(2*np.pi*f*1j*t)` needs `f` and `t` of the same size (numpy broadcasting).  The time of sample `n` is
`n / (symbolRate * samplesPerSymbol)` exactly. -/
def fskModulator (rn : Rat → Rat) (p : FskParams) (message : Bits) (sps : Nat) : Res (List ℂ × ℚ) := do
  let syms ← fskSymbols p.modulation message
  let devs ← syms.mapM (fskDeviation p.modulation)
  let freqs : List ℚ := devs.map fun (d : Int) => (d : ℚ) * (p.symbolRate * p.modIndex / 2)
  let f : List ℚ := freqs.flatMap fun x => List.replicate sps x
  let t : List ℚ := (List.range (fskArangeLen rn p.symbolRate sps f.length)).map fun (i : Nat) => (i : ℚ) / (p.symbolRate * sps)
  let iq ← bcast (fun (f t : ℚ) => exp (2 * Real.pi * f * I * t)) f t
  return (iq, rn (1 / fskDt rn p.symbolRate sps))

/-- `bitsToIQ(bits)`, `mr_fsk_modulator.py:438-495`; 20 samples per symbol. -/
def fskBitsToIQ (rn : Rat → Rat) (bits : Arg) : PyM FskObj (List ℂ × ℚ) := do
  let b ← fskBinary bits
  PyM.lift (fskModulator rn (← get).params b 20)

/-- `bytesToIQ(bytes)`, `mr_fsk_modulator.py:497-514`. -/
def fskBytesToIQ (rn : Rat → Rat) (bytes : Arg) : PyM FskObj (List ℂ × ℚ) := do
  let m ← PyM.lift (toBinaryArray bytes)
  fskBitsToIQ rn (bitsArg m)

end
end SunPhy
