import Verif.Spec.FskReceiver
import Verif.Spec.Hamming
/-
Frame synchronisation of MR-FSK: an MR-FSK receiver that does not know the length of the preamble and whether the frame is coded.  It searches the start of frame
delimiter of its SFD group, coded or uncoded, allowing two wrong bits.
-/
namespace SunPhy.RxF
open SunPhy Spec

/-- Start of frame delimiters: group, coded (tables 131 and 132 of IEEE 802.15.4g), most significant bit first. -/
def delimiterValue : FskMod → Nat → Bool → Nat
  | .FSK2, 0, true => 0x6F4E
  | .FSK2, 0, false => 0x904E
  | .FSK2, _, true => 0x632D
  | .FSK2, _, false => 0x7A0E
  | .FSK4, 0, true => 0x7DFF75FD
  | .FSK4, 0, false => 0xD75575FD
  | .FSK4, _, true => 0x7D5F5DF7
  | .FSK4, _, false => 0x7FDD55FD

/-- Bits of the delimiter and of one preamble repetition. -/
def delimiterLength : FskMod → Nat | .FSK2 => 16 | .FSK4 => 32
def preambleUnit : FskMod → Nat | .FSK2 => 8 | .FSK4 => 16

def delimiter (m : FskMod) (group : Nat) (coded : Bool) : Bits :=
  (List.range (delimiterLength m)).map fun i => (delimiterValue m group coded).testBit (delimiterLength m - 1 - i)

/-- `n` bits from position `o` on. -/
def windowAt (y : Nat → Bool) (o n : Nat) : Bits := (List.range n).map fun i => y (o + i)

/-- First position (below `limit`) where a delimiter of the group is seen with at most two wrong bits, and which one. -/
def sync (m : FskMod) (group : Nat) (y : Nat → Bool) (limit : Nat) : Option (Nat × Bool) :=
  (List.range limit).findSome? fun o =>
    ([true, false].find? fun c => decide (hamming (windowAt y o (delimiterLength m)) (delimiter m group c) ≤ 2)).map fun c => (o, c)

noncomputable section

/-- What a synchronising receiver knows. -/
structure Profile where
  modulation : FskMod
  modIndex : ℝ
  group : Nat
  fecScheme : Nat
  interleaving : Bool

/-- Coded flag, FCS flag, whitening flag and message bits; `none` when no delimiter is found. -/
def receiveBlind (k : Profile) (r : List ℂ) : Option (Bool × Bool × Bool × Bits) :=
  let y := bit ⟨k.modulation, k.modIndex, 0, false, k.fecScheme, k.interleaving⟩ r
  (sync k.modulation k.group y (2 * r.length)).map fun (o, c) =>
    (c, receive ⟨k.modulation, k.modIndex, o / preambleUnit k.modulation, c, k.fecScheme, k.interleaving⟩ r)

end
end SunPhy.RxF
