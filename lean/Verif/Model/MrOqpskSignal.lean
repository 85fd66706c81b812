import Verif.Model.MrOqpsk
import Verif.Model.Modulations
import Mathlib.Analysis.SpecialFunctions.Complex.Circle
import Mathlib.Analysis.SpecialFunctions.Trigonometric.Basic
/-
Model of `half_sine`, `raised_cosine`, `Mr_o_qpsk_modulator._o_qpsk_modulator`, `bitsToIQ` and `bytesToIQ`
(`sun_phy/mr_o_qpsk/mr_o_qpsk_modulator.py`) over exact real / complex numbers.
-/
namespace SunPhy
open Complex
noncomputable section

/-- `half_sine(t, Tc)`, `mr_o_qpsk_modulator.py:501-507`. -/
def halfSine (t Tc : ℝ) : ℝ := if 0 ≤ t ∧ t ≤ 2 * Tc then Real.sin (Real.pi * t / (2 * Tc)) else 0

/-- `raised_cosine(t, Tc)`, `mr_o_qpsk_modulator.py:509-517`, `r = 0.8`.  Where the denominator vanishes the code divides by
(about) zero; Lean's `x / 0 = 0` does not describe the result there (see C62). -/
def raisedCosine (t Tc : ℝ) : ℝ :=
  if t = 0 then 1
  else Real.sin (Real.pi * t / Tc) / (Real.pi * t / Tc) * Real.cos (4 / 5 * Real.pi * t / Tc)
    / (1 - 4 * (4 / 5) ^ 2 * t ^ 2 / Tc ^ 2)

/-- `p = half_sine` or `raised_cosine`, `mr_o_qpsk_modulator.py:1051-1054`. -/
def oqpskPulseShape : Band → ℝ → ℝ → ℝ
  | .b915 | .b2450 => halfSine
  | _ => raisedCosine

/-- `np.linspace(-2*Tc, 2*Tc, sps, endpoint=False)`, `mr_o_qpsk_modulator.py:1057`. -/
def oqpskPulseTimes (Tc : ℝ) (sps : Nat) : List ℝ :=
  (List.range sps).map fun (j : Nat) => -2 * Tc + (j : ℝ) * (4 * Tc / sps)

/-- `self._pulse`, `mr_o_qpsk_modulator.py:1057-1058`. -/
def oqpskPulse (b : Band) (Tc : ℝ) (sps : Nat) : List ℝ :=
  (oqpskPulseTimes Tc sps).map fun t => oqpskPulseShape b t Tc

/-- `bpskMod.convert(cPPDU[::2]) + 1j * bpskMod.convert(cPPDU[1::2])`, `mr_o_qpsk_modulator.py:1048`. -/
def oqpskMap (chips : Bits) : Res (List ℂ) :=
  bcast (fun (i q : Bool) => ((bpsk i : ℤ) : ℂ) + I * ((bpsk q : ℤ) : ℂ)) (everyNth 2 0 chips) (everyNth 2 1 chips)

/-- `self._s`, `mr_o_qpsk_modulator.py:1047-1048`: zeros, with the mapped values at every `sps`-th position. -/
def oqpskUpsample (chips : Bits) (sps : Nat) : Res (List ℂ) := do
  if sps = 0 then .error .ValueError
  let z ← oqpskMap chips
  let total := chips.length * sps / 2
  if z.length ≠ ceilDiv total sps ∧ z.length ≠ 1 then .error .ValueError
  return (List.range total).map fun i =>
    if i % sps = 0 then (if z.length = 1 then z.getD 0 0 else z.getD (i / sps) 0) else 0

/-- `np.convolve(s, p)` (mode 'full'); `ValueError` on empty input. -/
def convolveC (s : List ℂ) (p : List ℝ) : Res (List ℂ) :=
  if s = [] ∨ p = [] then .error .ValueError
  else .ok ((List.range (s.length + p.length - 1)).map fun n =>
    ∑ k ∈ Finset.range s.length, s.getD k 0 * (if k ≤ n then ((p.getD (n - k) 0 : ℝ) : ℂ) else 0))

/-- `_o_qpsk_modulator(cPPDU, samples_per_symbol)`, `mr_o_qpsk_modulator.py:1019-1065`: samples and sampling frequency.
(The attributes `_s`, `_s_t`, `_pulse_t`, `_pulse` are written and only read back at once; they are local values here.) -/
def oqpskModulator (p : OqpskParams) (chips : Bits) (sps : Nat) : Res (List ℂ × ℚ) := do
  let chipRate ← dataRate p.sm p.band p.rm
  let Tc : ℝ := 1 / (chipRate : ℝ)
  let s ← oqpskUpsample chips sps
  let out ← convolveC s (oqpskPulse p.band Tc sps)
  return (out, (chipRate : ℚ) * sps)

/-- `bitsToIQ(bits)`, `mr_o_qpsk_modulator.py:1067-1140`. -/
def oqpskBitsToIQ (bits : Arg) : PyM OqpskObj (List ℂ × ℚ) := do
  let chips ← oqpskChips bits
  let p := (← get).params
  PyM.lift (oqpskModulator p chips p.sps)

/-- `bytesToIQ(bytes)`, `mr_o_qpsk_modulator.py:1142-1162`. -/
def oqpskBytesToIQ (bytes : Arg) : PyM OqpskObj (List ℂ × ℚ) := do
  let m ← PyM.lift (toBinaryArray bytes)
  oqpskBitsToIQ (bitsArg m)

end
end SunPhy
