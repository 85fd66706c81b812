import Verif.Model.MrOfdmSignal
import Verif.Model.MrFskSignal
import Verif.Model.MrOqpskSignal
/-
`check_binary_array`, `to_binary_array` (`sun_phy/tools/bits.py`) and the two numeric arguments of `Mr_fsk_modulator` for floating-point values that include NaN and the
infinities.  `Model/Bits.lean` and `Model/MrFsk.lean` are the case of finite numbers.  What a conversion to `uint8`/`int64` gives for a value outside the range depends on the
machine: it is a parameter here.
-/
namespace SunPhy

/-- A floating-point number: finite, NaN or an infinity. -/
inductive Entry
  | fin (q : Rat) | nan | inf (negative : Bool)
  deriving DecidableEq

/-- IEEE 754 `<`: false when a NaN is involved. -/
def Entry.lt : Entry → Entry → Bool
  | .fin a, .fin b => decide (a < b)
  | .inf n, .fin _ => n
  | .fin _, .inf n => !n
  | .inf n, .inf m => n && !m
  | _, _ => false

/-- `np.minimum`: a NaN wins. -/
def Entry.min (a b : Entry) : Entry := if a = .nan ∨ b = .nan then .nan else if b.lt a then b else a

/-- `np.maximum`: a NaN wins. -/
def Entry.max (a b : Entry) : Entry := if a = .nan ∨ b = .nan then .nan else if a.lt b then b else a

/-- `bits.min()`, `tools/bits.py:67`; `ValueError` on an empty array. -/
def arrayMin : List Entry → Res Entry
  | [] => .error .ValueError
  | x :: xs => .ok (xs.foldl Entry.min x)

/-- `bits.max()`, `tools/bits.py:67`. -/
def arrayMax : List Entry → Res Entry
  | [] => .error .ValueError
  | x :: xs => .ok (xs.foldl Entry.max x)

/-- Shape and content of an array of floating-point numbers. -/
structure NdArrS where
  ndim : Nat
  vals : List Entry

/-- Arguments of `bitsToIQ` / `bytesToIQ`; a list holds Python floats (or ints). -/
inductive ArgS
  | list (a : NdArrS) | ndarray (a : NdArrS) | bytes (l : List UInt8) | str | other

/-- `astype(np.uint8)`, `tools/bits.py:69`: truncation where the result fits, otherwise what the machine gives. -/
def castUint8 (u8 : Entry → Int) : Entry → Int
  | .fin q => if 0 ≤ truncRat q ∧ truncRat q < 256 then truncRat q else u8 (.fin q)
  | v => u8 v

/-- `check_binary_array(bits)`, `tools/bits.py:46-74`. -/
def checkBinaryArrayS (u8 : Entry → Int) : ArgS → Res (List Int)
  | .list a | .ndarray a => do
    if a.ndim ≠ 1 then .error .ValueError
    if (← arrayMin a.vals).lt (.fin 0) then .error .ValueError
    if (Entry.fin 1).lt (← arrayMax a.vals) then .error .ValueError
    return a.vals.map (castUint8 u8)
  | _ => .error .TypeError

/-- The value fits in an int64 after truncation. -/
def fitsInt64 (q : Rat) : Bool := -2 ^ 63 ≤ truncRat q && truncRat q < 2 ^ 63

/-- One Python number of a list converted to int64, `np.asarray(arr, dtype=int)`, `tools/bits.py:98`: `int(nan)` raises `ValueError`, `int(inf)` and a number that does not
fit raise `OverflowError`. -/
def pyToInt64 : Entry → Res Int
  | .fin q => if fitsInt64 q then .ok (truncRat q) else .error .OverflowError
  | .nan => .error .ValueError
  | .inf _ => .error .OverflowError

/-- `arr.astype(int)`, `tools/bits.py:102`: truncation where the result fits, otherwise what the machine gives. -/
def castInt64 (i64 : Entry → Int) : Entry → Int
  | .fin q => if fitsInt64 q then truncRat q else i64 (.fin q)
  | v => i64 v

/-- Phase 1 of `to_binary_array`, `tools/bits.py:97-106`. -/
def toIntArrayS (i64 : Entry → Int) : ArgS → Res (Nat × List Int)
  | .list a => do return (a.ndim, ← a.vals.mapM pyToInt64)
  | .ndarray a => .ok (a.ndim, a.vals.map (castInt64 i64))
  | .bytes l => .ok (1, l.map fun b => (b.toNat : Int))
  | .str => .error .TypeError
  | .other => .error .TypeError

/-- `to_binary_array(arr)`, `tools/bits.py:79-120`. -/
def toBinaryArrayS (i64 : Entry → Int) (arr : ArgS) : Res Bits := do
  let (ndim, vals) ← toIntArrayS i64 arr
  if vals = [] then .error .ValueError
  else if vals.any (· < 0) || vals.any (255 < ·) then .error .ValueError
  else if ndim ≠ 1 then .error .TypeError
  else .ok (vals.flatMap fun v => byteBits v.toNat)

noncomputable section

/-- `Mr_ofdm_modulator.bytesToIQ`, `mr_ofdm_modulator.py:678-697`. -/
def ofdmModBytesToIQS (i64 : Entry → Int) (bytes : ArgS) : PyM OfdmObj (List ℂ × ℚ) := do
  let m ← PyM.lift (toBinaryArrayS i64 bytes)
  ofdmModBitsToIQ (bitsArg m)

/-- `Mr_fsk_modulator.bytesToIQ`, `mr_fsk_modulator.py:497-514`. -/
def fskBytesToIQS (i64 : Entry → Int) (rn : Rat → Rat) (bytes : ArgS) : PyM FskObj (List ℂ × ℚ) := do
  let m ← PyM.lift (toBinaryArrayS i64 bytes)
  fskBitsToIQ rn (bitsArg m)

/-- `Mr_o_qpsk_modulator.bytesToIQ`, `mr_o_qpsk_modulator.py:1142-1162`. -/
def oqpskBytesToIQS (i64 : Entry → Int) (bytes : ArgS) : PyM OqpskObj (List ℂ × ℚ) := do
  let m ← PyM.lift (toBinaryArrayS i64 bytes)
  oqpskBitsToIQ (bitsArg m)

end

/-- A constructor argument that may be a NaN or an infinity. -/
inductive PyValS
  | val (v : PyVal) | nan | inf (negative : Bool)

/-- `symbolRate` check, `mr_fsk_modulator.py:99-104`: `int(nan)` raises `ValueError`, `int(inf)` `OverflowError`. -/
def fskCheckRateS : PyValS → Res Nat
  | .val v => fskCheckRate v
  | .nan => .error .ValueError
  | .inf _ => .error .OverflowError

/-- `FSKModulationIndex` check, `mr_fsk_modulator.py:106-109`: `0.25 <= x <= 2.5` with IEEE comparisons. -/
def fskCheckIndexS : PyValS → Res Rat
  | .val v => fskCheckIndex v
  | .nan => .error .ValueError
  | .inf _ => .error .ValueError

/-- `Mr_fsk_modulator.__init__`, `mr_fsk_modulator.py:58-162`.  The other arguments must not be floats, whatever their value. -/
def mrFskInitS (symbolRate FSKModulationIndex : PyValS) (phyMRFSKSFD modulation phyFSKFECEnabled phyFSKFECScheme macFCSType
    phyFSKScramblePSDU phyFSKFECInterleavingRSC phyFSKPreambleLength : PyVal) : Res FskParams := do
  let rate ← fskCheckRateS symbolRate
  let h ← fskCheckIndexS FSKModulationIndex
  let sfd ← fskCheck01 phyMRFSKSFD
  let pre ← fskCheckPreamble phyFSKPreambleLength
  let m ← fskCheckMod modulation
  let fec ← fskCheckBool phyFSKFECEnabled
  let scheme ← fskCheck01 phyFSKFECScheme
  let fcs ← fskCheck01 macFCSType
  let scr ← fskCheckScramble phyFSKScramblePSDU
  let il ← fskCheckBool phyFSKFECInterleavingRSC
  return { symbolRate := rate, modIndex := h, sfd := sfd, modulation := m, fecEnabled := fec, fecScheme := scheme,
           fcsType := fcs, scramble := scr, interleaving := il, preambleLength := pre }

end SunPhy
