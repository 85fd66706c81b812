import Verif.Model.Prelude
/-
Model of `sun_phy/mr_o_qpsk/mr_o_qpsk_modulator.py`: the constant tables.
-/
namespace SunPhy

/-- `Frequency_band`, `mr_o_qpsk_modulator.py:22-30`. -/
inductive Band | b470 | b780 | b868 | b915 | b920 | b917 | b950 | b2450
  deriving DecidableEq, Repr

/-- `PREAMPLE_LENGTH`, `mr_o_qpsk_modulator.py:33-44`. -/
def preambleLength : Band → Nat
  | .b470 => 32 | .b780 => 56 | .b868 => 32 | .b915 => 56 | .b917 => 56 | .b920 => 32 | .b950 => 32 | .b2450 => 56

/-- `SFD`, `mr_o_qpsk_modulator.py:47`. -/
def oqpskSfd : Bits := natBits 16 0b1110101101100010

/-- `PHR_LENGTH`, `mr_o_qpsk_modulator.py:49`. -/
def oqpskPhrLength : Nat := 3

/-- Names of the code tables, the keys of `DSSS`, `mr_o_qpsk_modulator.py:54-148`. -/
inductive Code
  | c2_1 | c4_1 | c8_1_0 | c8_1_1 | c16_1_0 | c16_1_1 | c32_1_0 | c32_1_1 | c64_1 | c128_1 | c8_4 | c16_4 | c32_4
  deriving DecidableEq, Repr

/-- `DSSS`, `mr_o_qpsk_modulator.py:51-148`: input bits ↦ chips, in dictionary order (generated from the source text). -/
def Code.table : Code → List (Bits × Bits)
  | .c2_1 => [
      (natBits 1 0b0, natBits 2 0b10),
      (natBits 1 0b1, natBits 2 0b01)]
  | .c4_1 => [
      (natBits 1 0b0, natBits 4 0b1010),
      (natBits 1 0b1, natBits 4 0b0101)]
  | .c8_1_0 => [
      (natBits 1 0b0, natBits 8 0b10110001),
      (natBits 1 0b1, natBits 8 0b01001110)]
  | .c8_1_1 => [
      (natBits 1 0b0, natBits 8 0b01100011),
      (natBits 1 0b1, natBits 8 0b10011100)]
  | .c16_1_0 => [
      (natBits 1 0b0, natBits 16 0b0010001111010110),
      (natBits 1 0b1, natBits 16 0b1101110000101001)]
  | .c16_1_1 => [
      (natBits 1 0b0, natBits 16 0b0100011110101100),
      (natBits 1 0b1, natBits 16 0b1011100001010011)]
  | .c32_1_0 => [
      (natBits 1 0b0, natBits 32 0b11011110101000100111000001100101),
      (natBits 1 0b1, natBits 32 0b00100001010111011000111110011010)]
  | .c32_1_1 => [
      (natBits 1 0b0, natBits 32 0b11101111010100010011100000110010),
      (natBits 1 0b1, natBits 32 0b00010000101011101100011111001101)]
  | .c64_1 => [
      (natBits 1 0b0, natBits 64 0b1011001000100101101100011101000011010111001111011111000000101010),
      (natBits 1 0b1, natBits 64 0b0100110111011010010011100010111100101000110000100000111111010101)]
  | .c128_1 => [
      (natBits 1 0b0, natBits 128 0b10011000100010110100111001000010010100100110110111000111101000001101010001100101110110000111010111100111110111111000000010101011),
      (natBits 1 0b1, natBits 128 0b01100111011101001011000110111101101011011001001000111000010111110010101110011010001001111000101000011000001000000111111101010100)]
  | .c8_4 => [
      (natBits 4 0b0000, natBits 8 0b00000001),
      (natBits 4 0b1000, natBits 8 0b11010000),
      (natBits 4 0b0100, natBits 8 0b01101000),
      (natBits 4 0b1100, natBits 8 0b10111001),
      (natBits 4 0b0010, natBits 8 0b11100101),
      (natBits 4 0b1010, natBits 8 0b00110100),
      (natBits 4 0b0110, natBits 8 0b10001100),
      (natBits 4 0b1110, natBits 8 0b01011101),
      (natBits 4 0b0001, natBits 8 0b10100010),
      (natBits 4 0b1001, natBits 8 0b01110011),
      (natBits 4 0b0101, natBits 8 0b11001011),
      (natBits 4 0b1101, natBits 8 0b00011010),
      (natBits 4 0b0011, natBits 8 0b01000110),
      (natBits 4 0b1011, natBits 8 0b10010111),
      (natBits 4 0b0111, natBits 8 0b00101111),
      (natBits 4 0b1111, natBits 8 0b11111110)]
  | .c16_4 => [
      (natBits 4 0b0000, natBits 16 0b0011111000100101),
      (natBits 4 0b1000, natBits 16 0b0100111110001001),
      (natBits 4 0b0100, natBits 16 0b0101001111100010),
      (natBits 4 0b1100, natBits 16 0b1001010011111000),
      (natBits 4 0b0010, natBits 16 0b0010010100111110),
      (natBits 4 0b1010, natBits 16 0b1000100101001111),
      (natBits 4 0b0110, natBits 16 0b1110001001010011),
      (natBits 4 0b1110, natBits 16 0b1111100010010100),
      (natBits 4 0b0001, natBits 16 0b0110101101110000),
      (natBits 4 0b1001, natBits 16 0b0001101011011100),
      (natBits 4 0b0101, natBits 16 0b0000011010110111),
      (natBits 4 0b1101, natBits 16 0b1100000110101101),
      (natBits 4 0b0011, natBits 16 0b0111000001101011),
      (natBits 4 0b1011, natBits 16 0b1101110000011010),
      (natBits 4 0b0111, natBits 16 0b1011011100000110),
      (natBits 4 0b1111, natBits 16 0b1010110111000001)]
  | .c32_4 => [
      (natBits 4 0b0000, natBits 32 0b11011001110000110101001000101110),
      (natBits 4 0b1000, natBits 32 0b11101101100111000011010100100010),
      (natBits 4 0b0100, natBits 32 0b00101110110110011100001101010010),
      (natBits 4 0b1100, natBits 32 0b00100010111011011001110000110101),
      (natBits 4 0b0010, natBits 32 0b01010010001011101101100111000011),
      (natBits 4 0b1010, natBits 32 0b00110101001000101110110110011100),
      (natBits 4 0b0110, natBits 32 0b11000011010100100010111011011001),
      (natBits 4 0b1110, natBits 32 0b10011100001101010010001011101101),
      (natBits 4 0b0001, natBits 32 0b10001100100101100000011101111011),
      (natBits 4 0b1001, natBits 32 0b10111000110010010110000001110111),
      (natBits 4 0b0101, natBits 32 0b01111011100011001001011000000111),
      (natBits 4 0b1101, natBits 32 0b01110111101110001100100101100000),
      (natBits 4 0b0011, natBits 32 0b00000111011110111000110010010110),
      (natBits 4 0b1011, natBits 32 0b01100000011101111011100011001001),
      (natBits 4 0b0111, natBits 32 0b10010110000001110111101110001100),
      (natBits 4 0b1111, natBits 32 0b11001001011000000111011110111000)]

/-- `len(list(DSSS[code].keys())[0])`, `mr_o_qpsk_modulator.py:626`. -/
def Code.keyLen (c : Code) : Nat := ((c.table.head?.map (·.1)).getD []).length

/-- `DSSS[code][key]`, `mr_o_qpsk_modulator.py:640-641` (`KeyError` if absent). -/
def Code.lookup (c : Code) (key : Bits) : Res Bits :=
  match c.table.find? (fun e => e.1 == key) with
  | some e => .ok e.2
  | none => .error .KeyError

/-- `DSSS[code]['0']` of a one-bit table: the chips of its first entry. -/
def Code.chips0 (c : Code) : Bits := (c.table.head?.map (·.2)).getD []

/-- `COVERING_CODE`, `mr_o_qpsk_modulator.py:152-158` (`KeyError` for other sizes). -/
def coveringCode : Nat → Res Bits
  | 4 => .ok Code.c16_1_0.chips0
  | 8 => .ok Code.c32_1_0.chips0
  | 16 => .ok Code.c64_1.chips0
  | 32 => .ok Code.c128_1.chips0
  | _ => .error .KeyError

/-- `PILOT_SEQUENCES`, `mr_o_qpsk_modulator.py:223-233`. -/
def pilotSequence : Band → Bits
  | .b470 | .b868 | .b920 | .b950 => natBits 32 0b11011110101000100111000001100101
  | .b780 | .b915 | .b917 => natBits 64 0b1011001000100101101100011101000011010111001111011111000000101010
  | .b2450 => natBits 128 0b10011000100010110100111001000010010100100110110111000111101000001101010001100111110110000111010111100111110111111000000010101011

/-- `PILOT_SPACING`, `mr_o_qpsk_modulator.py:236-245`. -/
def pilotSpacing : Band → Nat
  | .b470 | .b868 | .b920 | .b950 => 512
  | .b780 | .b915 | .b917 => 1024
  | .b2450 => 2048

/-- `SHR_SPREADING`, `mr_o_qpsk_modulator.py:255-264`; a single code `('…')` is used alone. -/
def shrSpreading : Band → List Code
  | .b470 | .b868 | .b950 => [.c32_1_0]
  | .b920 => [.c32_1_0, .c32_1_1]
  | .b780 | .b915 | .b917 => [.c64_1]
  | .b2450 => [.c128_1]

/-- `PHR_SPREADING`, `mr_o_qpsk_modulator.py:266-276`. -/
def phrSpreading : Band → List Code
  | .b470 | .b868 | .b920 | .b950 => [.c8_1_0, .c8_1_1]
  | .b780 | .b915 | .b917 | .b2450 => [.c16_1_0, .c16_1_1]

/-- `PSDU_SPREADING_DSSS[band][rate mode]`, `mr_o_qpsk_modulator.py:278-328`; `none` is the entry `False` (no spreading);
`KeyError` for other rate modes. -/
def psduSpreadingDsss (b : Band) (rm : Int) : Res (Option (List Code)) :=
  if rm = 0 then .ok (some (match b with
    | .b470 | .b868 | .b920 | .b950 => [.c8_1_0, .c8_1_1]
    | .b780 | .b915 | .b917 => [.c16_1_0, .c16_1_1]
    | .b2450 => [.c32_1_0, .c32_1_1]))
  else if rm = 1 then .ok (some (match b with
    | .b470 | .b868 | .b920 | .b950 => [.c4_1]
    | .b780 | .b915 | .b917 => [.c16_4]
    | .b2450 => [.c32_4]))
  else if rm = 2 then .ok (some (match b with
    | .b470 | .b868 | .b920 | .b950 => [.c2_1]
    | .b780 | .b915 | .b917 => [.c8_4]
    | .b2450 => [.c16_4]))
  else if rm = 3 then .ok (match b with
    | .b2450 => some [.c8_4]
    | _ => none)
  else .error .KeyError

/-- `MDSSS_SUPPORTED_FREQUENCY_BANDS`, `mr_o_qpsk_modulator.py:521-530`. -/
def mdsssSupported : Band → Bool
  | .b780 | .b915 | .b917 | .b2450 => true
  | _ => false

/-- `PSDU_SPREADING_FACTOR_MDSSS[band][rate mode]`, `mr_o_qpsk_modulator.py:329-361`.  The entry `"not supported"` indexed
by a small integer is a character (or `IndexError`), on which `_MDSSS` raises `TypeError`; both are modelled as an
exception here. -/
def mdsssFactor (b : Band) (rm : Int) : Res Nat :=
  match b with
  | .b780 | .b915 | .b917 =>
    if rm = 0 then .ok 64 else if rm = 1 then .ok 32 else if rm = 2 then .ok 32 else if rm = 3 then .ok 16
    else .error .KeyError
  | .b2450 =>
    if rm = 0 then .ok 128 else if rm = 1 then .ok 64 else if rm = 2 then .ok 64 else if rm = 3 then .ok 32
    else .error .KeyError
  | _ => if -13 ≤ rm ∧ rm ≤ 12 then .error .TypeError else .error .IndexError

/-- `PSDU_BDE_DSSS[band][rate mode]`, `mr_o_qpsk_modulator.py:363-414`. -/
def psduBdeDsss (b : Band) (rm : Int) : Res Bool :=
  if rm = 0 then .ok true
  else if rm = 1 ∨ rm = 2 then .ok (match b with
    | .b470 | .b868 | .b920 | .b950 => true
    | _ => false)
  else if rm = 3 then .ok false
  else .error .KeyError

/-- `DATA_RATE[spreading mode][band][rate mode]`, `mr_o_qpsk_modulator.py:416-499` (`"not supported"` indexed: the result is
not a number and the arithmetic of line 1042 raises `TypeError`). -/
def dataRate (sm : Int) (b : Band) (rm : Int) : Res Nat :=
  let byRate (r0 r1 r2 r3 : Nat) : Res Nat :=
    if rm = 0 then .ok r0 else if rm = 1 then .ok r1 else if rm = 2 then .ok r2 else if rm = 3 then .ok r3
    else .error .KeyError
  if sm = 0 then match b with
    | .b470 | .b868 | .b920 | .b950 => byRate 6250 12500 25000 50000
    | .b780 | .b915 | .b917 | .b2450 => byRate 31250 125000 250000 500000
  else if sm = 1 then match b with
    | .b780 | .b915 | .b917 | .b2450 => byRate 62500 125000 250000 500000
    | _ => if -13 ≤ rm ∧ rm ≤ 12 then .error .TypeError else .error .IndexError
  else .error .KeyError

end SunPhy
