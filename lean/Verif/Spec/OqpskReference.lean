import Verif.Spec.OfdmReference
import Verif.Spec.OqpskPulse
import Verif.Spec.OqpskSizes
/-
A reference MR-O-QPSK transmitter in closed form: every chip and sample is given by a formula in its index.  Nothing here uses the model's
functions; only the type of bands is shared.
-/
namespace SunPhy.RefQ
open SunPhy Spec Complex

/-! ### Spreading codes -/

/-- Chips sent for a single bit 0, by spreading factor. -/
def base : Nat → Bits
  | 2 => Ref.field 2 0b10
  | 4 => Ref.field 4 0b1010
  | 8 => Ref.field 8 0xB1
  | 16 => Ref.field 16 0x23D6
  | 32 => Ref.field 32 0xDEA27065
  | 64 => Ref.field 64 0xB225B1D0D73DF02A
  | 128 => Ref.field 128 0x988B4E42526DC7A0D465D875E7DF80AB
  | _ => [false]

/-- Chip `j` of bit number `i` with value `b`: bit 1 is sent as the complement of bit 0.  With two alternating codes, every second bit uses
the code rotated by one chip (to the left, for 32 chips to the right). -/
def chip1 (N : Nat) (alternate : Bool) (i : Nat) (b : Bool) (j : Nat) : Bool :=
  xor b ((base N).getD (if alternate ∧ i % 2 = 1 then (j + if N = 32 then N - 1 else 1) % N else j) false)

/-- Chip `j` of the four bits `b 0 … b 3`, first bit with weight 1.  With 16 and 32 chips, value `v` rotates the code of 0 to the right by
`v mod 8` times 2 or 4 chips and inverts the odd chips for `v ≥ 8`; the 8 chip code is affine. -/
def chip4 (N : Nat) (b : Nat → Bool) (j : Nat) : Bool :=
  let v := (b 0).toNat + 2 * (b 1).toNat + 4 * (b 2).toNat
  match N with
  | 8 => xor ((Ref.field 8 0x01).getD j false) (xor (b 0 && (Ref.field 8 0xD1).getD j false) (xor (b 1 && (Ref.field 8 0x69).getD j false)
      (xor (b 2 && (Ref.field 8 0xE4).getD j false) (b 3 && (Ref.field 8 0xA3).getD j false))))
  | 16 => xor (b 3 && j % 2 == 1) ((Ref.field 16 0x3E25).getD ((j + 16 - 2 * v) % 16) false)
  | _ => xor (b 3 && j % 2 == 1) ((Ref.field 32 0xD9C3522E).getD ((j + 32 - 4 * v) % 32) false)

/-! ### Coding -/

/-- Differential encoding: bit `i` is the parity of the bits up to `i`, starting from `e`. -/
def differential (e : Bool) (x : Bits) : Bits := (List.range x.length).map fun i => xor e ((x.take (i + 1)).count true % 2 == 1)

/-- Check sequence of the header: CRC-8 register preset to zeros, not complemented. -/
def crc8 (x : Bits) : Bits := x.foldl Ref.crcClock (List.replicate 8 false)

/-- The 24 header bits. -/
def header (mdsss : Bool) (rm octets : Nat) : Bits :=
  let info := [mdsss] ++ Ref.field 2 rm ++ [false, false] ++ Ref.field 11 octets
  info ++ crc8 info

/-- The header as sent: six tail bits, rate 1/2 code, columns of a 6 column table filled row by row and read backwards. -/
def headerBits (mdsss : Bool) (rm octets : Nat) : Bits :=
  (List.range 60).map fun k => (Ref.conv (header mdsss rm octets ++ List.replicate 6 false)).getD (10 * ((59 - k) % 6) + (59 - k) / 6) false

/-- The message with tail and padding: the zeros that fill whole blocks of 63 bits after the complete octets of the message (the bits of an incomplete
octet come on top). -/
def padded (m : Bits) : Bits := m ++ List.replicate (63 * blocks63 (m.length / 8) - 8 * (m.length / 8)) false

/-- The coded message.  Bit `k` is taken from position `18·((125-k) mod 7) + ⌊(125-k)/7⌋`, modulo the size of the message: this is a
permutation for a single block of 126 bits only. -/
def psduBits (m : Bits) : Bits :=
  let n := 2 * (padded m).length
  (List.range n).map fun (k : Nat) => (Ref.conv (padded m)).getD ((18 * ((125 - (k : Int)) % 7) + (125 - (k : Int)) / 7) % (n : Int)).toNat false

/-! ### Chips -/

/-- Two alternating codes in the SHR only at 920 MHz. -/
def shrAlternates (b : Band) : Bool := b == .b920

/-- Differential encoding of the PSDU: rate mode 0, and 1 and 2 in the 100 kchip/s bands. -/
def psduDifferential (b : Band) (rm : Nat) : Bool := rm == 0 || ((rm == 1 || rm == 2) && shrChipsPerBit b == 32)

/-- Preamble zeros and SFD, differentially encoded. -/
def shrBits (b : Band) : Bits := differential false (List.replicate (preambleBits b) false ++ Ref.field 16 0xEB62)

/-- SHR chips. -/
def shr (b : Band) : Bits :=
  let N := shrChipsPerBit b
  (List.range ((preambleBits b + 16) * N)).map fun k => chip1 N (shrAlternates b) (k / N) ((shrBits b).getD (k / N) false) (k % N)

/-- PHR chips: the differential encoding continues from the last bit of the SHR. -/
def phr (b : Band) (mdsss : Bool) (rm octets : Nat) : Bits :=
  let N := phrChipsPerBit b
  let x := differential ((shrBits b).getD (preambleBits b + 15) false) (headerBits mdsss rm octets)
  (List.range (60 * N)).map fun k => chip1 N true (k / N) (x.getD (k / N) false) (k % N)

/-- PSDU chips without pilots. -/
def psdu (b : Band) (mdsss : Bool) (rm : Nat) (m : Bits) : Bits :=
  if mdsss then base (mdsssF b rm)
  else
    let (n, N) := psduGroup b rm
    let x := if psduDifferential b rm then differential false (psduBits m) else psduBits m
    (List.range (x.length / n * N)).map fun k =>
      if n = 4 then chip4 N (fun i => x.getD (4 * (k / N) + i) false) (k % N)
      else if N = 1 then x.getD k false
      else chip1 N (rm == 0) (k / N) (x.getD (k / N) false) (k % N)

/-- Pilot chips. -/
def pilot : Band → Bits
  | .b470 | .b868 | .b920 | .b950 => Ref.field 32 0xDEA27065
  | .b780 | .b915 | .b917 => Ref.field 64 0xB225B1D0D73DF02A
  | .b2450 => Ref.field 128 0x988B4E42526DC7A0D467D875E7DF80AB

/-- A pilot before every started group of chips. -/
def withPilots (b : Band) (x : Bits) : Bits :=
  let (P, S) := pilots b
  (List.range (x.length + (x.length + S - 1) / S * P)).map fun k =>
    if k % (P + S) < P then (pilot b).getD (k % (P + S)) false else x.getD (k / (P + S) * S + (k % (P + S) - P)) false

/-- All chips of a frame. -/
def chips (b : Band) (mdsss : Bool) (rm : Nat) (m : Bits) : Bits :=
  shr b ++ phr b mdsss rm (m.length / 8) ++ withPilots b (psdu b mdsss rm m)

/-- Data rate in bit/s. -/
def rate (b : Band) (mdsss : Bool) (rm : Nat) : Nat :=
  match shrChipsPerBit b, mdsss, rm with
  | 32, _, 0 => 6250 | 32, _, 1 => 12500 | 32, _, 2 => 25000 | 32, _, _ => 50000
  | _, false, 0 => 31250 | _, true, 0 => 62500 | _, _, 1 => 125000 | _, _, 2 => 250000 | _, _, _ => 500000

noncomputable section

/-- Samples: the pair `(c(2i), c(2i+1))` times the pulse, in `sps` samples; `sps - 1` zeros at the end. -/
def samples (b : Band) (sps : Nat) (c : Bits) : List ℂ :=
  (List.range (c.length / 2 * sps + sps - 1)).map fun (k : Nat) =>
    if k < c.length / 2 * sps then
      (chipValue (c.getD (2 * (k / sps)) false) + I * chipValue (c.getD (2 * (k / sps) + 1) false)) * (pulseSample b sps (k % sps) : ℝ)
    else 0

end
end SunPhy.RefQ
