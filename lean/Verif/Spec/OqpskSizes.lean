import Verif.Model.MrOqpskTables
/-
Sizes of an MR-O-QPSK frame, as functions of band, spreading mode, rate mode and octet count.
-/
namespace SunPhy.Spec
open SunPhy

/-- Preamble bits: 32 in the 100 kchip/s bands, 56 in the others. -/
def preambleBits : Band → Nat
  | .b470 | .b868 | .b950 | .b920 => 32
  | .b780 | .b915 | .b917 | .b2450 => 56

/-- Chips per SHR bit. -/
def shrChipsPerBit : Band → Nat
  | .b470 | .b868 | .b950 | .b920 => 32
  | .b780 | .b915 | .b917 => 64
  | .b2450 => 128

/-- Chips per PHR bit. -/
def phrChipsPerBit : Band → Nat
  | .b470 | .b868 | .b950 | .b920 => 8
  | .b780 | .b915 | .b917 | .b2450 => 16

/-- Bits per group and chips per group of the PSDU spreading (DSSS), rate modes 0..3. -/
def psduGroup (b : Band) (rm : Nat) : Nat × Nat :=
  match b, rm with
  | .b2450, 0 => (1, 32) | .b2450, 1 => (4, 32) | .b2450, 2 => (4, 16) | .b2450, _ => (4, 8)
  | .b780, 0 | .b915, 0 | .b917, 0 => (1, 16)
  | .b780, 1 | .b915, 1 | .b917, 1 => (4, 16)
  | .b780, 2 | .b915, 2 | .b917, 2 => (4, 8)
  | .b780, _ | .b915, _ | .b917, _ => (1, 1)
  | _, 0 => (1, 8) | _, 1 => (1, 4) | _, 2 => (1, 2) | _, _ => (1, 1)

/-- MDSSS spreading factor. -/
def mdsssF (b : Band) (rm : Nat) : Nat :=
  match b, rm with
  | .b2450, 0 => 128 | .b2450, 1 => 64 | .b2450, 2 => 64 | .b2450, _ => 32
  | _, 0 => 64 | _, 1 => 32 | _, 2 => 32 | _, _ => 16

/-- Number of 63-bit blocks holding `L` octets and six tail bits. -/
def blocks63 (L : Nat) : Nat := (8 * L + 6 + 62) / 63

/-- Chips of the spread PSDU without pilots. -/
def psduChips (b : Band) (mdsss : Bool) (rm L : Nat) : Nat :=
  if mdsss then mdsssF b rm else 126 * blocks63 L / (psduGroup b rm).1 * (psduGroup b rm).2

/-- Pilot size and spacing. -/
def pilots : Band → Nat × Nat
  | .b470 | .b868 | .b920 | .b950 => (32, 512)
  | .b780 | .b915 | .b917 => (64, 1024)
  | .b2450 => (128, 2048)

/-- Chips of a frame of `L` octets: 16-bit SFD after the preamble, 24+6 header bits coded at rate 1/2, PSDU with one pilot per started
group of chips. -/
def frameChips (b : Band) (mdsss : Bool) (rm L : Nat) : Nat :=
  (preambleBits b + 16) * shrChipsPerBit b + 60 * phrChipsPerBit b + psduChips b mdsss rm L +
    (psduChips b mdsss rm L + (pilots b).2 - 1) / (pilots b).2 * (pilots b).1

/-- The PSDU spreading takes four bits at a time. -/
def fourBitGroups (b : Band) (rm : Nat) : Bool := (psduGroup b rm).1 == 4

end SunPhy.Spec
