import Verif.Model.Prelude
/-
Model of `sun_phy/tools/bits.py`.
-/
namespace SunPhy

/-- `np.binary_repr(n, width)` for `n ≥ 0`, as bits, most significant first: at least `width` digits, more if
`n` needs more (`'0' * (width or 1)` for zero).  Used at `tools/bits.py:18`, `:116`, `mr_ofdm/fields.py:28`,
`mr_fsk_modulator.py:178`.  (numpy ≥ 2.? raises `ValueError` instead of returning too many digits; every caller
in this code base then raises `ValueError` in either case, because the digits are assigned to a slice of
`width` elements.) -/
def binaryRepr (n width : Nat) : Bits :=
  (List.range (max width (n.log2 + 1))).reverse.map n.testBit

/-- `to_bin(number, width=8, MSB_first=True)`, `tools/bits.py:4-18`, and `Mr_fsk_modulator._bin`,
`mr_fsk/mr_fsk_modulator.py:164-178` (identical), for non-negative numbers. -/
def toBin (number width : Nat) (msbFirst : Bool := true) : Bits :=
  let s := binaryRepr number width
  if msbFirst then s else s.reverse

/-- Value of the bits read least significant first. -/
def leValue : Bits → Nat
  | [] => 0
  | b :: bs => b2n b + 2 * leValue bs

/-- `to_int(array, width=8, MSB_first=True)`, `tools/bits.py:21-34`: `np.packbits(array[::±1], bitorder='little')[0]`.
`packbits` packs 8 entries per byte, first entry = least significant bit, the last byte zero padded; `[0]` keeps
the first byte; an empty array raises `IndexError`.  `width` is ignored by the code. -/
def toInt (array : Bits) (msbFirst : Bool := true) : Res Nat :=
  let a := if msbFirst then array else array.reverse
  if a = [] then .error .IndexError else .ok (leValue (a.take 8))

/-- Shape and content of `np.asarray(x)`: number of dimensions and the entries (exact rationals). -/
structure NdArr where
  ndim : Nat
  vals : List Rat

/-- Arguments of `check_binary_array` / `to_binary_array`, i.e. of `bitsToIQ` / `bytesToIQ`. -/
inductive Arg
  | list (a : NdArr)        -- a Python list (a nested list has `ndim ≠ 1`)
  | ndarray (a : NdArr)
  | bytes (l : List UInt8)  -- bytes or bytearray
  | str
  | other

/-- `check_binary_array(bits)`, `tools/bits.py:46-74`.  `bits.min()` of an empty array raises `ValueError`;
`astype(np.uint8)` truncates. -/
def checkBinaryArray : Arg → Res Bits
  | .list a | .ndarray a =>
    if a.ndim ≠ 1 then .error .ValueError
    else if a.vals = [] then .error .ValueError
    else if a.vals.any (· < 0) || a.vals.any (1 < ·) then .error .ValueError
    else .ok (a.vals.map fun v => decide (truncRat v = 1))
  | _ => .error .TypeError

/-- `[int(x) for x in np.binary_repr(byte, 8)[::-1]]`, `tools/bits.py:116`. -/
def byteBits (byte : Nat) : Bits := (binaryRepr byte 8).reverse

/-- Phase 1 of `to_binary_array`, `tools/bits.py:97-106`: conversion to an integer array (`astype(int)` /
`dtype=int` truncate toward zero).  Result: number of dimensions and integer entries.  `np.asarray(list, dtype=int)` raises
`OverflowError` for a Python number outside the int64 range; `ndarray.astype(int)` does not (it gives a negative number there, which
phase 2 refuses as it refuses the numbers of the model). -/
def toIntArray : Arg → Res (Nat × List Int)
  | .list a =>
    if a.vals.any (fun v => truncRat v < -2 ^ 63 || 2 ^ 63 ≤ truncRat v) then .error .OverflowError
    else .ok (a.ndim, a.vals.map truncRat)
  | .ndarray a => .ok (a.ndim, a.vals.map truncRat)
  | .bytes l => .ok (1, l.map fun b => (b.toNat : Int))
  | .str => .error .TypeError
  | .other => .error .TypeError

/-- `to_binary_array(arr)`, `tools/bits.py:79-120`.  Empty arrays fail in `.min()` (`ValueError`, line 110).
For arrays that are not 1-D the loop of line 114 hands rows to `np.binary_repr`, which raises `TypeError`
(iterating a 0-d array raises `TypeError` too). -/
def toBinaryArray (arr : Arg) : Res Bits := do
  let (ndim, vals) ← toIntArray arr
  if vals = [] then .error .ValueError
  else if vals.any (· < 0) || vals.any (255 < ·) then .error .ValueError
  else if ndim ≠ 1 then .error .TypeError
  else .ok (vals.flatMap fun v => byteBits v.toNat)

/-- The uint8 array of 0/1 values that `to_binary_array` hands to `bitsToIQ`. -/
def bitsArg (b : Bits) : Arg := .ndarray ⟨1, b.map fun x => if x then 1 else 0⟩

end SunPhy
