import Verif.Model.MrOqpskSignal
/-
`Mr_o_qpsk_modulator` with constructor arguments of any Python type (`sun_phy/mr_o_qpsk/mr_o_qpsk_modulator.py`).  The constructor only tests the spreading mode (and the band for MDSSS), the
other arguments meet their first operation during `bitsToIQ`.  `Model/MrOqpsk.lean` and `Model/MrOqpskSignal.lean` are the case of a band and three integers; the stages that
depend on the message only are reused from there.  Simplification: the attributes written by `bitsToIQ` are not kept (they are in `Model/MrOqpsk.lean`).
-/
namespace SunPhy

/-- A Python value as constructor argument.  `other` is a value that is no number, bool or string: neither equal to a number nor usable as an index (`None`, a list, NaN, …); only its
truth value and whether it can be a dictionary key matter.  Numpy scalars are not included. -/
inductive PyObj
  | int (i : Int) | bool (b : Bool) | float (q : Rat) | str (s : String) | other (truthy hashable : Bool)

namespace PyObj

/-- `v == z`. -/
def eqInt : PyObj → Int → Bool
  | .int i, z => i == z
  | .bool b, z => (if b then 1 else 0) == z
  | .float q, z => q == z
  | _, _ => false

/-- `bool(v)`. -/
def truth : PyObj → Bool
  | .int i => i != 0
  | .bool b => b
  | .float q => q != 0
  | .str s => s != ""
  | .other t _ => t

/-- `operator.index(v)`. -/
def index : PyObj → Res Int
  | .int i => .ok i
  | .bool b => .ok (if b then 1 else 0)
  | _ => .error .TypeError

/-- `{0: x, 1: y}[v]`: numbers that are equal are the same key. -/
def lookup01 {α : Type} (v : PyObj) (x y : Res α) : Res α :=
  if v.eqInt 0 then x else if v.eqInt 1 then y
  else match v with
    | .other _ false => .error .TypeError
    | _ => .error .KeyError

end PyObj

/-- A value in the place of the frequency band: a member of `Frequency_band`, or something else that can or cannot be a dictionary key. -/
inductive BandArg
  | band (b : Band) | hashable | unhashable

/-- `TABLE[frequency_band]` for the tables that have an entry for every member. -/
def BandArg.key : BandArg → Res Band
  | .band b => .ok b
  | .hashable => .error .KeyError
  | .unhashable => .error .TypeError

/-- The attributes assigned by the constructor, `mr_o_qpsk_modulator.py:554-557`. -/
structure OqpskRaw where
  band : BandArg
  rm : PyObj
  sm : PyObj
  sps : PyObj

/-- `Mr_o_qpsk_modulator.__init__`, `mr_o_qpsk_modulator.py:533-558`. -/
def oqpskInitRaw (band : BandArg) (rateMode spreadingMode : PyObj) (samplesPerSymbol : PyObj := .int 10) : Res OqpskRaw := do
  if spreadingMode.eqInt 1 then
    let b ← band.key
    if ¬ mdsssSupported b then .error .UnsupportedError
  return { band := band, rm := rateMode, sm := spreadingMode, sps := samplesPerSymbol }

/-- The spreading of the PSDU, `mr_o_qpsk_modulator.py:1111-1126`. -/
def oqpskSpreadRaw (b : Band) (rm : Int) (sm : PyObj) (temp : Bits) : Res Bits := do
  if sm.eqInt 0 then
    let useBde ← psduBdeDsss b rm
    let t := if useBde then bde temp false else temp
    match ← psduSpreadingDsss b rm with
    | some codes => dsss t codes
    | none => .ok t
  else mdsss temp (← mdsssFactor b rm)

/-- Coding of the PSDU, `mr_o_qpsk_modulator.py:1103-1108`. -/
def oqpskCodeRaw (rm : Int) (sm : PyObj) (bits : Bits) : Res Bits :=
  if (0 ≤ rm ∧ rm ≤ 1) ∨ sm.eqInt 0 then oqpskInterleaver (oqpskFec bits true) true else .ok bits

noncomputable section

/-- `_o_qpsk_modulator(cPPDU, samples_per_symbol)`, `mr_o_qpsk_modulator.py:1019-1065`: line 1047 multiplies the size by `samples_per_symbol` and needs an index for `np.zeros`
(`TypeError`) that is not negative (`ValueError`; a frame is never empty). -/
def oqpskModulatorRaw (b : Band) (rm : Int) (sm : PyObj) (chips : Bits) (samplesPerSymbol : PyObj) : Res (List ℂ × ℚ) := do
  let chipRate ← sm.lookup01 (dataRate 0 b rm) (dataRate 1 b rm)
  let Tc : ℝ := 1 / (chipRate : ℝ)
  let n ← samplesPerSymbol.index
  if n < 0 then .error .ValueError
  let s ← oqpskUpsample chips n.toNat
  let out ← convolveC s (oqpskPulse b Tc n.toNat)
  return (out, (chipRate : ℚ) * n)

/-- `bitsToIQ(bits)`, `mr_o_qpsk_modulator.py:1067-1140`.  The rate mode meets `np.binary_repr` (line 850) before anything else, so from there on it is an integer. -/
def oqpskRawBitsToIQ (o : OqpskRaw) (bits : Arg) : Res (List ℂ × ℚ) := do
  let bits ← checkBinaryArray bits
  let b ← o.band.key
  let shr := OqpskParams.shr ⟨b, 0, 0, 0⟩
  let cshr ← dsss (bde shr false) (shrSpreading b)
  let rm ← o.rm.index
  let phr ← OqpskParams.phr ⟨b, rm, if o.sm.truth then 1 else 0, 0⟩ (bits.length / 8)
  let pint ← oqpskInterleaver (oqpskFec phr false) false
  let cphr ← dsss (bde pint ((bde shr false).getLastD false)) (phrSpreading b)
  let temp ← oqpskCodeRaw rm o.sm bits
  let spread ← oqpskSpreadRaw b rm o.sm temp
  oqpskModulatorRaw b rm o.sm (cshr ++ cphr ++ OqpskParams.insertPilots ⟨b, 0, 0, 0⟩ spread) o.sps

/-- `bytesToIQ(bytes)`, `mr_o_qpsk_modulator.py:1142-1162`. -/
def oqpskRawBytesToIQ (o : OqpskRaw) (bytes : Arg) : Res (List ℂ × ℚ) := do
  let m ← toBinaryArray bytes
  oqpskRawBitsToIQ o (bitsArg m)

end
end SunPhy
