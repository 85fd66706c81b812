import Verif.Spec.OfdmReceiver
/-
The MR-OFDM receiver of `OfdmReceiver`, except that it is told which tones of which symbols are useless, and decides every data value on the first of its copies that is not on
such a tone.
-/
namespace SunPhy.Rx
open SunPhy Spec Complex
noncomputable section

/-- The copy of data value `d` of symbol `n` that is used: the first whose tone is not lost.  Copy `c` is `c` times the number of different values further up. -/
def copyUsed (option mcs : Nat) (lost : Finset Int) (n d : Nat) : Nat :=
  ((List.range (Spec.spreadOf mcs)).find? fun c => decide (dataTone option n (d + c * (tonesOf option / Spec.spreadOf mcs)) ∉ lost)).getD 0

/-- Bit `i` of the coded stream that starts with symbol `n0`; `lost n` are the tones of symbol `n` not to be used. -/
def codedBitAvoiding (option : Nat) (lost : Nat → Finset Int) (iq : List ℂ) (mcs n0 i : Nat) : Bool :=
  let b := Ref.symbolBits option mcs
  let w := bitsOf mcs
  let n := n0 + i / b
  let d := i % b / w
  let c := copyUsed option mcs (lost n) n d
  slice w (i % b % w) (toneValue option iq n (dataTone option n (d + c * (tonesOf option / Spec.spreadOf mcs))) / I ^ Ref.turns (Spec.spreadOf mcs) c (d + 1))

/-- Header bits from a source of coded bits (`bit mcs n0 i` is bit `i` of the stream of scheme `mcs` that starts with symbol `n0`). -/
def headerFrom (option interleaving : Nat) (bit : Nat → Nat → Nat → Bool) : Bits :=
  let mcs := Ref.headerMcs option
  decodeHalf (deinterleave (depth interleaving option mcs) (rows mcs) (step mcs) (bit mcs 0)) 30

/-- Payload bits from a source of coded bits. -/
def payloadFrom (p : OfdmParams) (bit : Nat → Nat → Nat → Bool) (len : Nat) : Bits :=
  let y := deinterleave (depth p.interleaving p.option p.mcs) (rows p.mcs) (step p.mcs) (bit p.mcs (Ref.headerCount p))
  let x := if Ref.threeQuarters p.mcs then decode34 y len else decodeHalf y len
  (List.range len).map fun i => xor (Ref.key (Ref.seed p.scrambler) i) (x.getD i false)

/-- MCS, scrambler and message bits from a source of coded bits; nothing when the check sequence of the header is wrong. -/
def receiveFrom (option interleaving : Nat) (bit : Nat → Nat → Nat → Bool) : Option (Nat × Nat × Bits) :=
  let h := headerFrom option interleaving bit
  if Ref.crc8 (h.take 22) = h.drop 22 then
    let mcs := number (h.take 5)
    let octets := number ((h.drop 6).take 11)
    let scrambler := number ((h.drop 19).take 2)
    some (mcs, scrambler, payloadFrom ⟨mcs, option, interleaving, scrambler⟩ bit (8 * octets))
  else none

/-- The receiver that avoids the lost tones. -/
def receiveAvoiding (option interleaving : Nat) (lost : Nat → Finset Int) (iq : List ℂ) : Option (Nat × Nat × Bits) :=
  receiveFrom option interleaving (codedBitAvoiding option lost iq)

end
end SunPhy.Rx
