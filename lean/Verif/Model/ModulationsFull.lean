import Verif.Model.Modulations
import Mathlib.Algebra.Order.Field.Rat
/-
Model of the whole public surface of `sun_phy/tools/modulations.py`: every argument type, number of dimensions, `axis` and `MSB_first`.
(`Model/Modulations.lean` is the part used by the modulators: columns, `axis = 0`, `MSB_first = True`; `Props/C92.lean` proves that it is
the restriction of this one.)  Array entries are rational numbers (only their sign matters).
-/
namespace SunPhy

/-- A two-dimensional numpy array: shape and entries (only the entries inside the shape matter). -/
structure Mat (α : Type) where
  rows : Nat
  cols : Nat
  at' : Nat → Nat → α

/-- Size of `x[off::k]` for an axis of size `n`. -/
def strideSize (k off n : Nat) : Nat := (n + (k - 1) - off) / k

/-- `M[off::k, :]`. -/
def Mat.strideRows {α} (k off : Nat) (M : Mat α) : Mat α := ⟨strideSize k off M.rows, M.cols, fun i j => M.at' (off + k * i) j⟩

/-- `M[:, off::k]`. -/
def Mat.strideCols {α} (k off : Nat) (M : Mat α) : Mat α := ⟨M.rows, strideSize k off M.cols, fun i j => M.at' i (off + k * j)⟩

/-- `M.T`. -/
def Mat.transpose {α} (M : Mat α) : Mat α := ⟨M.cols, M.rows, fun i j => M.at' j i⟩

/-- Elementwise function. -/
def Mat.map {α β} (f : α → β) (M : Mat α) : Mat β := ⟨M.rows, M.cols, fun i j => f (M.at' i j)⟩

/-- numpy broadcasting of one axis: equal sizes, or one of them 1. -/
def bcastDim (a b : Nat) : Option Nat := if a = b then some a else if a = 1 then some b else if b = 1 then some a else none

/-- numpy broadcasting of a binary operation on two-dimensional arrays: `ValueError` when the shapes are incompatible. -/
def bcastMat {α β γ} (f : α → β → γ) (A : Mat α) (B : Mat β) : Res (Mat γ) :=
  match bcastDim A.rows B.rows, bcastDim A.cols B.cols with
  | some r, some c => .ok ⟨r, c, fun i j =>
      f (A.at' (if A.rows = 1 then 0 else i) (if A.cols = 1 then 0 else j)) (B.at' (if B.rows = 1 then 0 else i) (if B.cols = 1 then 0 else j))⟩
  | _, _ => .error .ValueError

/-- Arguments of `convert`: a Python number, a list of numbers, a 1-D, 2-D or other array (shape `[]`: zero-dimensional), anything else. -/
inductive ModArg
  | num (q : ℚ) | list (l : List ℚ) | vec (l : List ℚ) | mat (M : Mat ℚ) | tensor (shape : List Nat) (l : List ℚ) | other

/-- Results of `convert`, by type. -/
inductive ModOut
  | num (z : GI) | list (l : List GI) | vec (l : List GI) | mat (M : Mat GI) | tensor (shape : List Nat) (l : List GI)

/-- `1 if positive else -1`. -/
def sgn (q : ℚ) : Int := if q > 0 then 1 else -1

/-- `Modulator.__init__(MSB_first, axis)`, `tools/modulations.py:13-33`. -/
structure ModObj where
  kind : ModKind
  msbFirst : Bool
  axis : Nat

/-- `get_modulator(mod, MSB_first, axis)`, `tools/modulations.py:197-213`, with the checks of `Modulator.__init__`, `:24-30`. -/
def getModulatorFull (mod : String) (msb : PyVal) (axis : PyVal) : Res ModObj := do
  let k ← getModulator mod
  match msb.asBool? with
  | none => .error .ValueError
  | some b =>
    match axis.asInt? with
    | none => .error .ValueError
    | some a => if a < 0 then .error .ValueError else .ok ⟨k, b, a.toNat⟩

/-- `BPSK.convert(signal)`, `tools/modulations.py:60-74`.  For a zero-dimensional array the product of line 68 is a numpy scalar, to which line 69 cannot assign: `TypeError`. -/
def bpskConvertFull : ModArg → Res ModOut
  | .num q => .ok (.num ⟨sgn q, 0⟩)
  | .list l => .ok (.list (l.map fun q => ⟨sgn q, 0⟩))
  | .vec l => .ok (.vec (l.map fun q => ⟨sgn q, 0⟩))
  | .mat M => .ok (.mat (M.map fun q => ⟨sgn q, 0⟩))
  | .tensor s l => if s = [] then .error .TypeError else .ok (.tensor s (l.map fun q => ⟨sgn q, 0⟩))
  | .other => .error .ValueError

/-- The sum `BPSK(a) * first + BPSK(b) * second` of `QPSK.convert`, `tools/modulations.py:91-94`. -/
def qpskPoint (msb : Bool) (a b : ℚ) : GI := if msb then ⟨sgn a, sgn b⟩ else ⟨sgn b, sgn a⟩

/-- `QPSK.convert(signal)`, `tools/modulations.py:87-121`. -/
def qpskConvertFull (msb : Bool) (axis : Nat) : ModArg → Res ModOut
  | .vec l => (bcast (qpskPoint msb) (everyNth 2 0 l) (everyNth 2 1 l)).map .vec
  | .mat M =>
    if axis = 0 then
      if M.rows % 2 ≠ 0 then .error .AssertionError
      else (bcastMat (qpskPoint msb) (M.strideRows 2 0) (M.strideRows 2 1)).map .mat
    else if axis = 1 then
      if M.cols % 2 ≠ 0 then .error .AssertionError
      else (bcastMat (qpskPoint msb) (M.strideCols 2 0) (M.strideCols 2 1)).map .mat
    else .error .ValueError
  | _ => .error .ValueError

/-- The body of `QAM16.convert` on the (possibly transposed) two-dimensional array, `tools/modulations.py:158-179`. -/
def qam16Body (M : Mat ℚ) : Res (Mat GI) := do
  let b := fun off => (M.strideRows 4 off).map sgn
  let real ← bcastMat (fun b0 b1 => b0 * (2 - b1)) (b 0) (b 1)
  let imag ← bcastMat (fun b2 b3 => b2 * (2 - b3)) (b 2) (b 3)
  bcastMat (fun r i => ⟨r, i⟩) real imag

/-- `QAM16.convert(signal)`, `tools/modulations.py:139-184`; `MSB_first` is not used.  A 1-D array is made a column. -/
def qam16ConvertFull (axis : Nat) : ModArg → Res ModOut
  | .vec l => (qam16Body ⟨l.length, 1, fun i _ => l.getD i 0⟩).map .mat
  | .mat M =>
    if axis = 1 then (qam16Body M.transpose).map .mat
    else if axis ≠ 0 then .error .ValueError
    else (qam16Body M).map .mat
  | _ => .error .ValueError

/-- `convert` of the selected modulator. -/
def ModObj.convert (o : ModObj) (a : ModArg) : Res ModOut :=
  match o.kind with
  | .BPSK => bpskConvertFull a
  | .QPSK => qpskConvertFull o.msbFirst o.axis a
  | .QAM16 => qam16ConvertFull o.axis a

end SunPhy
