import Verif.Spec.OqpskReference
import Verif.Spec.OfdmReceiver
/-
An MR-O-QPSK receiver that knows the band and the number of samples per symbol: correlation with the pulse gives a soft value per chip, correlation with the
spreading codes gives the bits; spreading mode, rate mode and length are taken from the header.
-/
namespace SunPhy.RxQ
open SunPhy Spec Complex
noncomputable section

/-- Value ±1 of a chip. -/
def sign (b : Bool) : ℝ := if b then 1 else -1

/-- Energy of the sampled pulse. -/
def pulseEnergy (b : Band) (sps : Nat) : ℝ := ∑ j ∈ Finset.range sps, pulseSample b sps j ^ 2

/-- What carries chip `k`: even chips the real, odd chips the imaginary part. -/
def part (k : Nat) (z : ℂ) : ℝ := if k % 2 = 0 then z.re else z.im

/-- Sample `j` of the interval of chip `k` (two chips share an interval). -/
def sampleOf (sps : Nat) (r : List ℂ) (k j : Nat) : ℂ := r.getD (k / 2 * sps + j) 0

/-- Soft value of chip `k`. -/
def soft (b : Band) (sps : Nat) (r : List ℂ) (k : Nat) : ℝ := ∑ j ∈ Finset.range sps, part k (sampleOf sps r k j) * pulseSample b sps j

/-- One bit from `N` chips: sign of the correlation with the chips of bit 1. -/
def bit1 (N : Nat) (alternate : Bool) (s : Nat → ℝ) (i : Nat) : Bool :=
  decide (0 < ∑ j ∈ Finset.range N, s (i * N + j) * sign (RefQ.chip1 N alternate i true j))

/-- Correlation of `N` chips with the code of the four bits of `v`. -/
def corr4 (N : Nat) (s : Nat → ℝ) (i v : Nat) : ℝ := ∑ j ∈ Finset.range N, s (i * N + j) * sign (RefQ.chip4 N v.testBit j)

/-- The four bits with the largest correlation. -/
def value4 (N : Nat) (s : Nat → ℝ) (i : Nat) : Nat :=
  ((List.range 16).find? fun v => decide (∀ v' ∈ List.range 16, corr4 N s i v' ≤ corr4 N s i v)).getD 0

/-- Undo the differential encoding that started from `e`. -/
def undiff (e : Bool) (x : Nat → Bool) (i : Nat) : Bool := xor (x i) (if i = 0 then e else x (i - 1))

/-- First chip of the header and of the PSDU. -/
def phrStart (b : Band) : Nat := (preambleBits b + 16) * shrChipsPerBit b
def psduStart (b : Band) : Nat := phrStart b + 60 * phrChipsPerBit b

/-- Place of PSDU chip `k`: a pilot before every group. -/
def psduPlace (b : Band) (k : Nat) : Nat := psduStart b + k + (k / (pilots b).2 + 1) * (pilots b).1

/-- The 24 header bits. -/
def header (b : Band) (sps : Nat) (r : List ℂ) : Bits :=
  let x := bit1 (phrChipsPerBit b) true fun k => soft b sps r (phrStart b + k)
  let y := undiff ((RefQ.shrBits b).getD (preambleBits b + 15) false) x
  Rx.decodeHalf (fun q => y (59 - (6 * (q % 10) + q / 10))) 24

/-- Bit `i` of the PSDU before spreading. -/
def psduBit (b : Band) (sps rm : Nat) (r : List ℂ) (i : Nat) : Bool :=
  let (n, N) := psduGroup b rm
  let s := fun k => soft b sps r (psduPlace b k)
  let x := fun i => if n = 4 then (value4 N s (i / 4)).testBit (i % 4) else bit1 N (rm == 0) s i
  if RefQ.psduDifferential b rm then undiff false x i else x i

/-- First message bits: the first 126 coded bits are in the table of the interleaver. -/
def front (b : Band) (sps rm : Nat) (r : List ℂ) : Bits :=
  Rx.decodeHalf (fun q => psduBit b sps rm r (125 - (7 * (q % 18) + q / 18))) 63

/-- Last message bits, last one first, decoded backwards from the zero tail with the second generator. -/
def back (b : Band) (sps rm octets : Nat) (r : List ℂ) : Bits :=
  let NB := blocks63 octets
  Rx.decodeWith (fun q => psduBit b sps rm r (125 + 7 * (126 * NB - q))) (fun i => 2 * (8 * octets + 5 - i) + 1) (fun _ => [3, 4, 5, 6])
    (8 * octets - (54 * NB + 3))

/-- Spreading mode, rate mode, octet count and message bits; `none` for the bits that the frame does not contain. -/
def receive (b : Band) (sps : Nat) (r : List ℂ) : Option (Bool × Nat × Nat × List (Option Bool)) :=
  let h := header b sps r
  if RefQ.crc8 (h.take 16) = h.drop 16 then
    let mdsss := h.getD 0 false
    let rm := Rx.number ((h.drop 1).take 2)
    let octets := Rx.number ((h.drop 5).take 11)
    some (mdsss, rm, octets, (List.range (8 * octets)).map fun n =>
      if mdsss then none
      else if n < 63 then some ((front b sps rm r).getD n false)
      else if 54 * blocks63 octets + 3 ≤ n then some ((back b sps rm octets r).getD (8 * octets - 1 - n) false)
      else none)
  else none

end
end SunPhy.RxQ
