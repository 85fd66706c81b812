import Verif.Spec.OqpskReference
/-
What MR-O-QPSK sends for messages with values that are no bits, in closed form.
-/
namespace SunPhy.Nan
open SunPhy Spec

/-- What the shift register of the encoder remembers of place `n`, if it is `w` bits wide: the values are put in one place apart and or-ed together, so that bit `j` of a value
counts `j` places later as well (unless it is cut off by the width). -/
def memory (w : Nat) (v : List Nat) : Bits :=
  (List.range v.length).map fun n => (List.range (n + 1)).any fun j => decide (j + 5 < w) && (v.getD (n - j) 0).testBit j

/-- Coded values: the value itself and what the register remembers of earlier places. -/
def coded (w : Nat) (v : List Nat) : List Nat :=
  (List.range (2 * v.length)).map fun q => v.getD (q / 2) 0 ^^^ (tapSum (if q % 2 = 0 then [2, 3, 5, 6] else [1, 2, 3, 6]) (memory w v) (q / 2)).toNat

/-- The message with tail and padding, as in `RefQ.padded`. -/
def padded (v : List Nat) : List Nat := v ++ List.replicate (63 * blocks63 (v.length / 8) - 8 * (v.length / 8)) 0

/-- The coded values in the order in which they are sent, as in `RefQ.psduBits`. -/
def sent (w : Nat) (v : List Nat) : List Nat :=
  let n := 2 * (padded v).length
  (List.range n).map fun (k : Nat) => (coded w (padded v)).getD ((18 * ((125 - (k : Int)) % 7) + (125 - (k : Int)) / 7) % (n : Int)).toNat 0

/-- The PSDU chips of the coded bits `c`, as in `RefQ.psdu`. -/
def spread (b : Band) (rm : Nat) (c : Bits) : Bits :=
  let (n, N) := psduGroup b rm
  let x := if RefQ.psduDifferential b rm then RefQ.differential false c else c
  (List.range (x.length / n * N)).map fun k =>
    if n = 4 then RefQ.chip4 N (fun i => x.getD (4 * (k / N) + i) false) (k % N)
    else if N = 1 then x.getD k false
    else RefQ.chip1 N (rm == 0) (k / N) (x.getD (k / N) false) (k % N)

/-- All chips of the frame for a message of `n` values with coded bits `c`. -/
def chips (b : Band) (rm n : Nat) (c : Bits) : Bits :=
  RefQ.shr b ++ RefQ.phr b false rm (n / 8) ++ RefQ.withPilots b (spread b rm c)

end SunPhy.Nan
