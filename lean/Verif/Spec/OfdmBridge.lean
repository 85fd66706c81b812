import Verif.Spec.OfdmErasures
/-
The receiver of `Spec/OfdmErasures.lean` with a decoder that bridges lost bits of the rate 3/4 code as well.  Of the information bits `b[3g]`, `b[3g+1]`, `b[3g+2]` the four bits sent are the
first generator at `3g`, the second at `3g`, the first at `3g+1` and the second at `3g+2`.  The sum of both generators at a place is `b[n-1] + b[n-5]`, so that the first two bits of
a group tell the last information bit of the group before.
-/
namespace SunPhy.Rx
open SunPhy Spec Complex
noncomputable section

/-- Which coded bits and which earlier information bits (given by their delay) add up to information bit `n`. -/
def sum34 (y : Nat → Option Bool) (n : Nat) : List Nat × List Nat :=
  let g := n / 3
  if n % 3 = 0 then
    if (y (4 * g)).isSome then ([4 * g], [2, 3, 5, 6]) else ([4 * g + 1], [1, 2, 3, 6])
  else if n % 3 = 1 then
    if (y (4 * g + 2)).isSome then ([4 * g + 2], [2, 3, 5, 6]) else ([4 * g + 3, 4 * g + 4, 4 * g + 5], [1, 2, 3, 5])
  else
    if (y (4 * g + 3)).isSome then ([4 * g + 3], [1, 2, 3, 6]) else ([4 * g + 4, 4 * g + 5], [4])

/-- Information bits of the rate 3/4 code from the bits that are left. -/
def decode34Left (y : Nat → Option Bool) (len : Nat) : Bits :=
  decodeWith (fun n => (sum34 y n).1.foldl (fun s i => xor s ((y i).getD false)) false) id (fun n => (sum34 y n).2) len

/-- Payload bits. -/
def payloadBridged (p : OfdmParams) (bit : Nat → Nat → Nat → Option Bool) (len : Nat) : Bits :=
  let y := deinterleaveLeft (depth p.interleaving p.option p.mcs) (rows p.mcs) (step p.mcs) (bit p.mcs (Ref.headerCount p))
  let x := if Ref.threeQuarters p.mcs then decode34Left y len else decodeHalfLeft y len
  (List.range len).map fun i => xor (Ref.key (Ref.seed p.scrambler) i) (x.getD i false)

/-- MCS, scrambler and message bits; nothing when the check sequence of the header is wrong. -/
def receiveBridging (option interleaving : Nat) (lost : Nat → Finset Int) (iq : List ℂ) : Option (Nat × Nat × Bits) :=
  let h := headerLeft option interleaving (codedBitLeft option lost iq)
  if Ref.crc8 (h.take 22) = h.drop 22 then
    let mcs := number (h.take 5)
    let octets := number ((h.drop 6).take 11)
    let scrambler := number ((h.drop 19).take 2)
    some (mcs, scrambler, payloadBridged ⟨mcs, option, interleaving, scrambler⟩ (codedBitLeft option lost iq) (8 * octets))
  else none

end
end SunPhy.Rx
