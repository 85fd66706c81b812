import Verif.Model.Fields
import Verif.Model.MrOqpsk
import Verif.Model.MrFskSignal
/-
The header check sequences as numpy really computes them: in floating point, every operation followed by a rounding
`rn` (`rn = float64` is IEEE 754 double precision).  `Model/Poly.lean` models the same routines over the integers; C94
proves that the two agree.
-/
namespace SunPhy

/-- IEEE 754 binary64 rounding of any rational (no overflow/underflow): `binary64` extended to negative numbers. -/
def float64 (q : Rat) : Rat := if q < 0 then - binary64 (-q) else binary64 q

/-- Leading zero coefficients are removed (`np.poly1d`). -/
def poly1dF (c : List Rat) : List Rat :=
  match c.dropWhile (· == 0) with
  | [] => [0]
  | l => l

/-- Rounded sum of two aligned coefficient lists. -/
def addFrontF (rn : Rat → Rat) : List Rat → List Rat → List Rat
  | [], b => b
  | a, [] => a
  | x :: a, y :: b => rn (x + y) :: addFrontF rn a b

/-- `np.convolve(a, b)`: every product and every partial sum is rounded. -/
def convolveF (rn : Rat → Rat) : List Rat → List Rat → List Rat
  | [], _ => []
  | x :: a, b => addFrontF rn (b.map fun y => rn (x * y)) (0 :: convolveF rn a b)

/-- `np.polymul(a, b)` (called at `fields.py:62`, `:66`). -/
def polymulF (rn : Rat → Rat) (a b : List Rat) : List Rat := convolveF rn (poly1dF a) (poly1dF b)

/-- `r[k+1:k+n+1] -= d * v[1:]` with both operations rounded. -/
def subPrefixF (rn : Rat → Rat) (d : Rat) : List Rat → List Rat → List Rat
  | r, [] => r
  | [], _ => []
  | x :: r, y :: t => rn (x - rn (d * y)) :: subPrefixF rn d r t

/-- The loop of `np.polydiv` (numpy `polynomial.py`): `scale = 1/v[0]`, `d = scale * r[k]`, `r[k:k+n+1] -= d * v`. -/
def polydivLoopF (rn : Rat → Rat) (v : List Rat) : Nat → List Rat → List Rat
  | 0, r => r
  | _, [] => []
  | s + 1, x :: r =>
    let d := rn (rn (1 / v.headD 1) * x)
    rn (x - rn (d * v.headD 1)) :: polydivLoopF rn v s (subPrefixF rn d r v.tail)

/-- `while np.allclose(r[0], 0, rtol=1e-14) and r.shape[-1] > 1: r = r[1:]`; `allclose` has `atol = 1e-8`. -/
def trimFrontF : List Rat → List Rat
  | [] => []
  | [x] => [x]
  | x :: y :: l => if x ≤ 1 / 10 ^ 8 ∧ - (1 / 10 ^ 8) ≤ x then trimFrontF (y :: l) else x :: y :: l

/-- `np.polydiv(u, v)[1]`. -/
def polydivRemF (rn : Rat → Rat) (u v : List Rat) : List Rat :=
  trimFrontF (polydivLoopF rn v (u.length + 1 - v.length) u)

/-- Truncation towards zero: `.astype(int)` and the integer part in C's `fmod`. -/
def truncF (x : Rat) : Int := if x < 0 then - (-x).floor else x.floor

/-- `np.mod(x, 2)` for a double: `fmod(x, 2)` (exact), plus 2 (rounded) when it is negative. -/
def npMod2F (rn : Rat → Rat) (x : Rat) : Rat :=
  let m := x - 2 * (truncF (x / 2) : Rat)
  if m < 0 then rn (m + 2) else m

/-- `HCS_calculation(input_array)`, `fields.py:42-72`, in floating point. -/
def hcsCalculationF (rn : Rat → Rat) (input : Bits) : List Int :=
  let G : List Rat := [1, 0, 0, 0, 0, 0, 1, 1, 1]
  let k := poly1dF (1 :: List.replicate 22 0)
  let b := poly1dF (List.replicate 8 1)
  let c := poly1dF (polymulF rn k b)
  let A := ((poly1dF (polydivRemF rn c G)).map (npMod2F rn)).map truncF
  let a := poly1dF (polymulF rn (poly1dF (input.map fun x => if x then 1 else 0)) (poly1dF (1 :: List.replicate 8 0)))
  let B := ((poly1dF (polydivRemF rn a G)).map (npMod2F rn)).map truncF
  (mod2 (polyadd A B)).map (1 - ·)

/-- `R` and `HCS` of `_PHR`, `mr_o_qpsk_modulator.py:858-868`: the product is an integer array, only `np.polydiv` works in
floating point; `.astype(np.uint8)` truncates and wraps. -/
def oqpskHcsF (rn : Rat → Rat) (M : Bits) : List Int :=
  let x8 : List Int := 1 :: List.replicate 8 0
  let M2 := mod2 ((polymul (bitsToInts M) x8).map toUint8)
  let R := mod2 ((polydivRemF rn (M2.map fun (n : Int) => (n : Rat)) [1, 0, 0, 0, 0, 0, 1, 1, 1]).map fun x => toUint8 (truncF x))
  List.replicate (8 - R.length) 0 ++ R

end SunPhy
