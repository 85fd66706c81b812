import Verif.Spec.OfdmDiversity
/-
An MR-OFDM receiver that is told which tones are lost and uses both kinds of redundancy: the copies of frequency spreading and, when no copy is left, the convolutional code (rate 1/2: each
information bit enters two coded bits, one of them is enough once the earlier information bits are known).
-/
namespace SunPhy.Rx
open SunPhy Spec Complex
noncomputable section

/-- The first copy of data value `d` of symbol `n` whose tone is not lost, if there is one. -/
def copyLeft (option mcs : Nat) (lost : Finset Int) (n d : Nat) : Option Nat :=
  (List.range (Spec.spreadOf mcs)).find? fun c => decide (dataTone option n (d + c * (tonesOf option / Spec.spreadOf mcs)) ∉ lost)

/-- Bit `i` of the coded stream that starts with symbol `n0`; `none` when all copies are lost. -/
def codedBitLeft (option : Nat) (lost : Nat → Finset Int) (iq : List ℂ) (mcs n0 i : Nat) : Option Bool :=
  let b := Ref.symbolBits option mcs
  let w := bitsOf mcs
  let n := n0 + i / b
  let d := i % b / w
  (copyLeft option mcs (lost n) n d).map fun c =>
    slice w (i % b % w) (toneValue option iq n (dataTone option n (d + c * (tonesOf option / Spec.spreadOf mcs))) / I ^ Ref.turns (Spec.spreadOf mcs) c (d + 1))

/-- Bit `k` before interleaving. -/
def deinterleaveLeft (K R s : Nat) (y : Nat → Option Bool) (k : Nat) : Option Bool := y (k / K * K + perm1 K R (perm2 K R s (k % K)))

/-- Information bits of the rate 1/2 code: each from the bit of the first generator, or from that of the second generator when the first is lost. -/
def decodeHalfLeft (y : Nat → Option Bool) (len : Nat) : Bits :=
  decodeWith (fun i => (y i).getD false) (fun n => if (y (2 * n)).isSome then 2 * n else 2 * n + 1) (fun n => if (y (2 * n)).isSome then [2, 3, 5, 6] else [1, 2, 3, 6]) len

/-- Header bits. -/
def headerLeft (option interleaving : Nat) (bit : Nat → Nat → Nat → Option Bool) : Bits :=
  let mcs := Ref.headerMcs option
  decodeHalfLeft (deinterleaveLeft (depth interleaving option mcs) (rows mcs) (step mcs) (bit mcs 0)) 30

/-- Payload bits. -/
def payloadLeft (p : OfdmParams) (bit : Nat → Nat → Nat → Option Bool) (len : Nat) : Bits :=
  let y := deinterleaveLeft (depth p.interleaving p.option p.mcs) (rows p.mcs) (step p.mcs) (bit p.mcs (Ref.headerCount p))
  let x := if Ref.threeQuarters p.mcs then decode34 (fun i => (y i).getD false) len else decodeHalfLeft y len
  (List.range len).map fun i => xor (Ref.key (Ref.seed p.scrambler) i) (x.getD i false)

/-- MCS, scrambler and message bits; nothing when the check sequence of the header is wrong. -/
def receiveErasing (option interleaving : Nat) (lost : Nat → Finset Int) (iq : List ℂ) : Option (Nat × Nat × Bits) :=
  let h := headerLeft option interleaving (codedBitLeft option lost iq)
  if Ref.crc8 (h.take 22) = h.drop 22 then
    let mcs := number (h.take 5)
    let octets := number ((h.drop 6).take 11)
    let scrambler := number ((h.drop 19).take 2)
    some (mcs, scrambler, payloadLeft ⟨mcs, option, interleaving, scrambler⟩ (codedBitLeft option lost iq) (8 * octets))
  else none

end
end SunPhy.Rx
