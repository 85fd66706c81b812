import Verif.Spec.OqpskReceiver
import Verif.Spec.Hamming
/-
Frame synchronisation of MR-O-QPSK: a receiver that does not know when the frame starts.  It decides chip by chip, searches the chips of the start of frame
delimiter, allowing some wrong ones, and receives the frame from there.
-/
namespace SunPhy.RxQ
open SunPhy Spec

/-- Chips of the start of frame delimiter: the 16 bits of 0xEB62, differentially encoded after the zeros of the preamble, spread like the preamble. -/
def delimiter (b : Band) : Bits :=
  let N := shrChipsPerBit b
  let x := RefQ.differential false (Ref.field 16 0xEB62)
  (List.range (16 * N)).map fun k => RefQ.chip1 N (RefQ.shrAlternates b) (k / N) (x.getD (k / N) false) (k % N)

/-- `n` chips from position `o` on. -/
def windowAt (y : Nat → Bool) (o n : Nat) : Bits := (List.range n).map fun i => y (o + i)

/-- First position (below `limit`) where the `16·N` chips of the delimiter are seen with fewer than `3·N` wrong ones (`N` chips per bit). -/
def sync (b : Band) (y : Nat → Bool) (limit : Nat) : Option Nat :=
  (List.range limit).find? fun o => decide (hamming (windowAt y o (16 * shrChipsPerBit b)) (delimiter b) < 3 * shrChipsPerBit b)

noncomputable section

/-- Decision on a single chip. -/
def hardChip (b : Band) (sps : Nat) (r : List ℂ) (k : Nat) : Bool := decide (0 < soft b sps r k)

/-- Receive a frame that starts anywhere in `r`, or has started before: find the delimiter, align the samples with the start of the frame. -/
def receiveAnytime (b : Band) (sps : Nat) (r : List ℂ) : Option (Bool × Nat × Nat × List (Option Bool)) :=
  let P := preambleBits b * shrChipsPerBit b
  match sync b (hardChip b sps r) (2 * r.length) with
  | none => none
  | some o => if o < P then receive b sps (List.replicate ((P - o) / 2 * sps) 0 ++ r) else receive b sps (r.drop ((o - P) / 2 * sps))

end
end SunPhy.RxQ
