import Verif.Model.RateEncoder
import Mathlib.Data.Int.Bitwise
import Mathlib.Algebra.Order.Field.Rat
/-
`sun_phy/mr_ofdm/rate_encoder.py` for seeds that are any Python integers, arrays of any numbers, and with everything `sequence` returns.  (`Model/RateEncoder.lean` is the part used by the
modulators: natural registers, bits, and only the third value of `Rate_three_quarter.sequence`; `Props/C129.lean` proves that it is the restriction of this one.)
-/
namespace SunPhy

/-- `Rate_one_half.__init__(seed)`, `rate_encoder.py:6-16`. -/
def rateHalfInitI (seed : Int) : Int := Int.land seed 0x3F

/-- Output `A` of `Rate_one_half.single`, `rate_encoder.py:38-40`. -/
def encAI (v : Int) (b : Bool) : Int :=
  Int.xor (Int.xor (Int.xor (Int.xor (b2n b) (Int.land v 0x10 >>> (4 : Nat))) (Int.land v 0x08 >>> (3 : Nat))) (Int.land v 0x02 >>> (1 : Nat))) (Int.land v 0x01)

/-- Output `B` of `Rate_one_half.single`, `rate_encoder.py:41-42`. -/
def encBI (v : Int) (b : Bool) : Int :=
  Int.xor (Int.xor (Int.xor (Int.xor (b2n b) (Int.land v 0x20 >>> (5 : Nat))) (Int.land v 0x10 >>> (4 : Nat))) (Int.land v 0x08 >>> (3 : Nat))) (Int.land v 0x01)

/-- `Rate_one_half.single(input_bit)`, `rate_encoder.py:24-44`: any number greater than 0 counts as 1 (line 37). -/
def rateHalfSingleI (v : Int) (x : ℚ) : (Int × Int) × Int :=
  let b := decide (x > 0)
  ((encAI v b, encBI v b), Int.lor (v >>> (1 : Nat)) (if b then 0x20 else 0))

/-- `Rate_one_half.sequence(input_bits)`, `rate_encoder.py:46-72`: `A`, `B`, `out`, and the new register. -/
def rateHalfSeqI (v : Int) : List ℚ → (List Int × List Int × List Int) × Int
  | [] => (([], [], []), v)
  | x :: xs =>
    let ((a, b), v1) := rateHalfSingleI v x
    let ((as, bs, out), v2) := rateHalfSeqI v1 xs
    ((a :: as, b :: bs, a :: b :: out), v2)

/-- The loop of `Rate_three_quarter.sequence`, `rate_encoder.py:102-108`, on the rows that remain: the variables `A`, `B`, `out` and the register of the encoder. -/
def rate34RowsI (A B : List Int) (v : Int) : List (List ℚ) → (List Int × List Int × List Int) × Int
  | [] => ((A, B, []), v)
  | row :: rows =>
    let ((A, B, _), v) := rateHalfSeqI v row
    let ((A', B', out), v) := rate34RowsI A B v rows
    ((A', B', A.getD 0 0 :: B.getD 0 0 :: A.getD 1 0 :: B.getD 2 0 :: out), v)

/-- `Rate_three_quarter.sequence(input_bits)`, `rate_encoder.py:86-110`: `A` and `B` are those of the last three bits. -/
def rate34SeqI (x : List ℚ) : PyM Int (List Int × List Int × List Int) := do
  if x.length % 3 > 0 then throw .ValueError
  else if x = [] then throw .UnboundLocalError
  else
    let (r, v) := rate34RowsI [] [] (← get) (chunks 3 x)
    set v
    return r

end SunPhy
