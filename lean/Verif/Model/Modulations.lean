import Verif.Model.Prelude
/-
Model of `sun_phy/tools/modulations.py`.  Constellation points before the modulation factor are Gaussian
integers.  Inputs are 0/1 arrays; a 2-D array is a list of columns and the conversion along axis 0 acts on
each column.  Only `axis = 0`, `MSB_first = True` here (the rest is in `ModulationsFull.lean`; these are the only values used: `ofdm_modulator.py:135`,
`:317`, `mr_o_qpsk_modulator.py:1038`).
-/
namespace SunPhy

/-- A complex number with integer parts. -/
structure GI where
  re : Int
  im : Int
  deriving DecidableEq, Repr

/-- `BPSK.convert` on one value, `tools/modulations.py:61-74`: `1` if positive, else `-1`. -/
def bpsk (b : Bool) : Int := if b then 1 else -1

inductive ModKind | BPSK | QPSK | QAM16
  deriving DecidableEq, Repr

/-- `bits_per_symbol()`, `tools/modulations.py:76-77`, `:123-124`, `:186-187`. -/
def ModKind.bitsPerSymbol : ModKind → Nat
  | .BPSK => 1 | .QPSK => 2 | .QAM16 => 4

/-- `get_modulator(mod)`, `tools/modulations.py:190-213`: unknown names raise `ValueError`. -/
def getModulator (s : String) : Res ModKind :=
  if s = "BPSK" then .ok .BPSK else if s = "QPSK" then .ok .QPSK
  else if s = "QAM16" then .ok .QAM16 else .error .ValueError

/-- `BPSK.convert` on a column, `tools/modulations.py:66-69`. -/
def bpskConvert (col : Bits) : Res (List GI) := .ok (col.map fun b => ⟨bpsk b, 0⟩)

/-- `QPSK.convert`, 2-D axis 0, on a column, `tools/modulations.py:89-119` (`MSB_first`: first bit real, second
imaginary).  The assertion of line 106 is `AssertionError`. -/
def qpskConvert (col : Bits) : Res (List GI) :=
  if col.length % 2 ≠ 0 then .error .AssertionError
  else bcast (fun r i => ⟨bpsk r, bpsk i⟩) (everyNth 2 0 col) (everyNth 2 1 col)

/-- `QAM16.convert`, 2-D axis 0, on a column, `tools/modulations.py:139-181`:
`real = b0 * (2 - b1)`, `imag = b2 * (2 - b3)`, `output = real + imag * 1j` (numpy broadcasting when the number
of rows is not a multiple of 4). -/
def qam16Convert (col : Bits) : Res (List GI) := do
  let b := fun off => (everyNth 4 off col).map bpsk
  let real ← bcast (fun b0 b1 => b0 * (2 - b1)) (b 0) (b 1)
  let imag ← bcast (fun b2 b3 => b2 * (2 - b3)) (b 2) (b 3)
  bcast (fun r i => ⟨r, i⟩) real imag

/-- `modulator.convert` on a column for the selected modulator. -/
def ModKind.convert : ModKind → Bits → Res (List GI)
  | .BPSK => bpskConvert | .QPSK => qpskConvert | .QAM16 => qam16Convert

end SunPhy
