import Verif.Model.Bits
/-
The bit helpers of `sun_phy/tools/bits.py` for arguments of any type and sign.
-/
namespace SunPhy

/-- Digits of `bin(n)` for `n ≥ 1` (`len(bin(n)[2:])`). -/
def binDigits (n : Nat) : Nat := n.log2 + 1

/-- `np.binary_repr(k, width)` as numpy computes it, used at `tools/bits.py:18`, `:116`, `mr_ofdm/fields.py:28`, `mr_fsk_modulator.py:178`: zero gives `'0' * (width or 1)`, a positive number
`bin(k)[2:].zfill(max(binwidth, width))`, a negative number the digits of `2**(poswidth+1) + k`, with ones in front up to `width` (`poswidth = len(bin(-k)[2:])`, one less if `-k` is a power
of two).  `strict`: numpy releases that raise `ValueError` if `width` digits are not enough (others return more digits). -/
def binaryReprInt (strict : Bool) (k : Int) (width : Nat) : Res Bits :=
  if k = 0 then .ok (List.replicate (if width = 0 then 1 else width) false)
  else if 0 < k then
    let n := k.toNat
    if strict && width < binDigits n then .error .ValueError
    else .ok (List.replicate (max (binDigits n) width - binDigits n) false ++ natBits (binDigits n) n)
  else
    let n := (-k).toNat
    let poswidth := if 2 ^ (binDigits n - 1) = n then binDigits n - 1 else binDigits n
    let twocomp := 2 ^ (poswidth + 1) - n
    let binwidth := binDigits twocomp
    if strict && width < binwidth then .error .ValueError
    else .ok (List.replicate (max binwidth width - binwidth) true ++ natBits binwidth twocomp)

/-- `to_bin(number, width=8, MSB_first=True)`, `tools/bits.py:4-18`, for a number of any type: `np.binary_repr` starts with `operator.index(number)`, which raises `TypeError` for
anything but integers (and booleans). -/
def toBinVal (strict : Bool) (number : PyVal) (width : Nat := 8) (msbFirst : Bool := true) : Res Bits :=
  match number.asInt? with
  | none => .error .TypeError
  | some k => (binaryReprInt strict k width).map fun s => if msbFirst then s else s.reverse

/-- One-dimensional arguments of `to_int`: an array (or list) of integers or booleans, or one of floats. -/
inductive PackArg
  | ints (l : List Int) | floats (l : List Rat)

/-- `to_int(array, width=8, MSB_first=True)`, `tools/bits.py:21-34`: `np.packbits` takes integers and booleans (`TypeError` for floats; an empty Python list is an array of floats), and every
entry different from 0 counts as 1. -/
def toIntVal (array : PackArg) (msbFirst : Bool := true) : Res Nat :=
  match array with
  | .ints l => toInt (l.map (· != 0)) msbFirst
  | .floats _ => .error .TypeError

/-- `from_bitstring(bit_string)`, `tools/bits.py:37-44`: `[int(x) for x in bit_string.replace(' ', '')]` with dtype `uint8`.  `digit`: the value of a one-character string for `int`
(`none`: `ValueError`). -/
def fromBitstring (digit : Char → Option Nat) (s : List Char) : Res (List Nat) :=
  (s.filter (· ≠ ' ')).mapM fun c => match digit c with
    | some d => .ok d
    | none => .error .ValueError

/-- `int(c)` for the characters of ASCII. -/
def asciiDigit (c : Char) : Option Nat := if '0' ≤ c ∧ c ≤ '9' then some (c.toNat - '0'.toNat) else none

end SunPhy
