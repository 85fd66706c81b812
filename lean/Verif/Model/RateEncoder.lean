import Verif.Model.Prelude
/-
Model of `sun_phy/mr_ofdm/rate_encoder.py`.
-/
namespace SunPhy

/-- `Rate_one_half.__init__(seed=0)`, `rate_encoder.py:6-16`: the 6 flip-flops as an integer. -/
def rateHalfInit (seed : Nat := 0) : Nat := seed &&& 0x3F

/-- `Rate_one_half.reset(seed=0)`, `rate_encoder.py:18-22` (no masking). -/
def rateHalfReset (_value : Nat) (seed : Nat := 0) : Nat := seed

/-- Output `A` of `Rate_one_half.single`, `rate_encoder.py:38-40`. -/
def encA (v : Nat) (b : Bool) : Nat :=
  b2n b ^^^ ((v &&& 0x10) >>> 4) ^^^ ((v &&& 0x08) >>> 3) ^^^ ((v &&& 0x02) >>> 1) ^^^ (v &&& 0x01)

/-- Output `B` of `Rate_one_half.single`, `rate_encoder.py:41-42`. -/
def encB (v : Nat) (b : Bool) : Nat :=
  b2n b ^^^ ((v &&& 0x20) >>> 5) ^^^ ((v &&& 0x10) >>> 4) ^^^ ((v &&& 0x08) >>> 3) ^^^ (v &&& 0x01)

/-- Register update of `Rate_one_half.single`, `rate_encoder.py:43`. -/
def encStep (v : Nat) (b : Bool) : Nat := (v >>> 1) ||| (if b then 0x20 else 0)

/-- `Rate_one_half.single(input_bit)`, `rate_encoder.py:24-44`: `(A, B)` and the new register. -/
def rateHalfSingle (v : Nat) (b : Bool) : (Nat × Nat) × Nat := ((encA v b, encB v b), encStep v b)

/-- `Rate_one_half.sequence(input_bits)`, `rate_encoder.py:46-72`: arrays `A`, `B`, the interlaced output and the
new register. -/
def rateHalfSeq (v : Nat) : Bits → Bits × Bits × Bits × Nat
  | [] => ([], [], [], v)
  | x :: xs =>
    let ((a, b), v1) := rateHalfSingle v x
    let (as, bs, out, v2) := rateHalfSeq v1 xs
    ((a == 1) :: as, (b == 1) :: bs, (a == 1) :: (b == 1) :: out, v2)

/-- The interlaced output of `Rate_one_half.sequence`. -/
def rateHalfOut (v : Nat) (x : Bits) : Bits := (rateHalfSeq v x).2.2.1

/-- The register after `Rate_one_half.sequence`. -/
def rateHalfState (v : Nat) (x : Bits) : Nat := (rateHalfSeq v x).2.2.2

/-- Loop body of `Rate_three_quarter.sequence` over the rows of `input_bits.reshape(-1, 3)`,
`rate_encoder.py:103-108`: keeps `A[0] B[0] A[1] B[2]`. -/
def rate34Rows (v : Nat) : List Bits → Bits × Nat
  | [] => ([], v)
  | row :: rows =>
    let (A, B, _, v1) := rateHalfSeq v row
    let (out, v2) := rate34Rows v1 rows
    (A.getD 0 false :: B.getD 0 false :: A.getD 1 false :: B.getD 2 false :: out, v2)

/-- `Rate_three_quarter.sequence(input_bits)`, `rate_encoder.py:86-110`: result and new register.  On an empty
input the loop does not run and the `return A, B, out` of line 110 raises `UnboundLocalError`. -/
def rate34Seq (v : Nat) (x : Bits) : Res (Bits × Nat) :=
  if x.length % 3 > 0 then .error .ValueError
  else if x = [] then .error .UnboundLocalError
  else .ok (rate34Rows v (chunks 3 x))

end SunPhy
