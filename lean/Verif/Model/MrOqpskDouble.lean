import Verif.Model.MrOqpskSignal
import Verif.Model.MrFskDouble
/-
`half_sine`, `raised_cosine` and `_o_qpsk_modulator` as numpy computes them: every arithmetic operation is followed by a rounding `rn` (`rn = float64` is IEEE 754
double precision); `sn` and `cs` stand for `np.sin` and `np.cos`.  Infinities and NaN are one value, `none`.  `Model/MrOqpskSignal.lean` models the same routines
with exact numbers; C111 compares the two.  Not modelled: overflow and underflow, the sign of zero.
-/
namespace SunPhy

/-- Results of floating-point operations: a finite number, or `none` for inf and NaN. -/
abbrev Fl := Option ℚ

/-- `a + b`. -/
def Fl.add (rn : ℚ → ℚ) : Fl → Fl → Fl
  | some a, some b => some (rn (a + b))
  | _, _ => none

/-- `a * b` (`0 * inf` and `0 * nan` are NaN). -/
def Fl.mul (rn : ℚ → ℚ) : Fl → Fl → Fl
  | some a, some b => some (rn (a * b))
  | _, _ => none

/-- `a / b` (a division by zero gives inf or NaN). -/
def Fl.div (rn : ℚ → ℚ) : Fl → Fl → Fl
  | some a, some b => if b = 0 then none else some (rn (a / b))
  | _, _ => none

/-- `half_sine(t, Tc)`, `mr_o_qpsk_modulator.py:501-507`. -/
def halfSineF (rn sn : ℚ → ℚ) (t Tc : ℚ) : ℚ :=
  if 0 ≤ t ∧ t ≤ rn (2 * Tc) then sn (rn (rn (npPi * t) / rn (2 * Tc))) else 0

/-- `r = 0.8`: the double nearest to 4/5, `mr_o_qpsk_modulator.py:510`. -/
def rollOff : ℚ := 3602879701896397 / 4503599627370496

/-- `np.pi * t / Tc`, `mr_o_qpsk_modulator.py:515`. -/
def rcPhase (rn : ℚ → ℚ) (t Tc : ℚ) : ℚ := rn (rn (npPi * t) / Tc)

/-- `r * np.pi * t / Tc`, `mr_o_qpsk_modulator.py:515`. -/
def rcPhase2 (rn : ℚ → ℚ) (t Tc : ℚ) : ℚ := rn (rn (rn (rollOff * npPi) * t) / Tc)

/-- `1 - 4*r**2*t**2 / Tc**2`, `mr_o_qpsk_modulator.py:515` (squares correctly rounded). -/
def rcDenominator (rn : ℚ → ℚ) (t Tc : ℚ) : ℚ :=
  rn (1 - rn (rn (rn (4 * rn (rollOff ^ 2)) * rn (t ^ 2)) / rn (Tc ^ 2)))

/-- `raised_cosine(t, Tc)`, `mr_o_qpsk_modulator.py:509-517`. -/
def raisedCosineF (rn sn cs : ℚ → ℚ) (t Tc : ℚ) : Fl :=
  if t = 0 then some 1
  else
    Fl.div rn (Fl.mul rn (Fl.div rn (some (sn (rcPhase rn t Tc))) (some (rcPhase rn t Tc))) (some (cs (rcPhase2 rn t Tc)))) (some (rcDenominator rn t Tc))

/-- `p = half_sine` or `raised_cosine`, `mr_o_qpsk_modulator.py:1051-1054`. -/
def oqpskPulseShapeF (rn sn cs : ℚ → ℚ) : Band → ℚ → ℚ → Fl
  | .b915, t, Tc | .b2450, t, Tc => some (halfSineF rn sn t Tc)
  | _, t, Tc => raisedCosineF rn sn cs t Tc

/-- Entry `j` of `np.linspace(-2*Tc, 2*Tc, sps, endpoint=False)`, `mr_o_qpsk_modulator.py:1057`: numpy computes `arange(sps) * step + start` with
`step = (stop - start) / sps`. -/
def oqpskPulseTimeF (rn : ℚ → ℚ) (Tc : ℚ) (sps j : Nat) : ℚ :=
  let start := rn (-2 * Tc)
  let stop := rn (2 * Tc)
  let step := rn (rn (stop - start) / sps)
  rn (rn ((j : ℚ) * step) + start)

/-- `self._pulse`, `mr_o_qpsk_modulator.py:1057-1058`. -/
def oqpskPulseF (rn sn cs : ℚ → ℚ) (b : Band) (Tc : ℚ) (sps : Nat) : List Fl :=
  (List.range sps).map fun j => oqpskPulseShapeF rn sn cs b (oqpskPulseTimeF rn Tc sps j) Tc

/-- `bpskMod.convert(cPPDU[::2]) + 1j * bpskMod.convert(cPPDU[1::2])`, `mr_o_qpsk_modulator.py:1048`: real and imaginary parts ±1, exact. -/
def oqpskMapF (chips : Bits) : Res (List (ℚ × ℚ)) :=
  bcast (fun (i q : Bool) => (((bpsk i : ℤ) : ℚ), ((bpsk q : ℤ) : ℚ))) (everyNth 2 0 chips) (everyNth 2 1 chips)

/-- `self._s`, `mr_o_qpsk_modulator.py:1047-1048`. -/
def oqpskUpsampleF (chips : Bits) (sps : Nat) : Res (List (ℚ × ℚ)) := do
  if sps = 0 then .error .ValueError
  let z ← oqpskMapF chips
  let total := chips.length * sps / 2
  if z.length ≠ ceilDiv total sps ∧ z.length ≠ 1 then .error .ValueError
  return (List.range total).map fun i =>
    if i % sps = 0 then (if z.length = 1 then z.getD 0 (0, 0) else z.getD (i / sps) (0, 0)) else (0, 0)

/-- One sum of products of `np.convolve`, accumulated from the left with rounding.  (The pulse is real: the products with its zero imaginary part add zeros, or, for
a sample that is not finite, NaN; real and imaginary part are summed separately.) -/
def dotF (rn : ℚ → ℚ) (l : List (ℚ × Fl)) : Fl := l.foldl (fun acc x => Fl.add rn acc (Fl.mul rn (some x.1) x.2)) (some 0)

/-- Sample `n` of `np.convolve(s, p)`: real and imaginary part, `none` if one of them is not finite. -/
def oqpskConvolveSampleF (rn : ℚ → ℚ) (s : List (ℚ × ℚ)) (p : List Fl) (n : Nat) : Option (ℚ × ℚ) :=
  let ks := (List.range s.length).filter fun k => decide (k ≤ n ∧ n - k < p.length)
  match dotF rn (ks.map fun k => ((s.getD k (0, 0)).1, p.getD (n - k) none)), dotF rn (ks.map fun k => ((s.getD k (0, 0)).2, p.getD (n - k) none)) with
  | some a, some b => some (a, b)
  | _, _ => none

/-- `np.convolve(s, p)` (mode 'full'); `ValueError` on empty input. -/
def oqpskConvolveF (rn : ℚ → ℚ) (s : List (ℚ × ℚ)) (p : List Fl) : Res (List (Option (ℚ × ℚ))) :=
  if s = [] ∨ p = [] then .error .ValueError
  else .ok ((List.range (s.length + p.length - 1)).map (oqpskConvolveSampleF rn s p))

/-- `_o_qpsk_modulator(cPPDU, samples_per_symbol)`, `mr_o_qpsk_modulator.py:1019-1065`, in floating point (the sampling frequency is a product of integers). -/
def oqpskModulatorF (rn sn cs : ℚ → ℚ) (p : OqpskParams) (chips : Bits) (sps : Nat) : Res (List (Option (ℚ × ℚ)) × ℚ) := do
  let chipRate ← dataRate p.sm p.band p.rm
  let Tc : ℚ := rn (1 / (chipRate : ℚ))
  let s ← oqpskUpsampleF chips sps
  let out ← oqpskConvolveF rn s (oqpskPulseF rn sn cs p.band Tc sps)
  return (out, (chipRate : ℚ) * sps)

/-- `bitsToIQ(bits)`, `mr_o_qpsk_modulator.py:1067-1140`, in floating point. -/
def oqpskBitsToIQF (rn sn cs : ℚ → ℚ) (bits : Arg) : PyM OqpskObj (List (Option (ℚ × ℚ)) × ℚ) := do
  let chips ← oqpskChips bits
  let p := (← get).params
  PyM.lift (oqpskModulatorF rn sn cs p chips p.sps)

/-- `bytesToIQ(bytes)`, `mr_o_qpsk_modulator.py:1142-1162`, in floating point. -/
def oqpskBytesToIQF (rn sn cs : ℚ → ℚ) (bytes : Arg) : PyM OqpskObj (List (Option (ℚ × ℚ)) × ℚ) := do
  let m ← PyM.lift (toBinaryArray bytes)
  oqpskBitsToIQF rn sn cs (bitsArg m)

end SunPhy
