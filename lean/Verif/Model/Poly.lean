import Verif.Model.Prelude
/-
Model of the numpy polynomial routines used for the header check sequences: `np.poly1d`, `np.polymul`,
`np.polydiv`, `np.polyadd` (`mr_ofdm/fields.py:2`, `mr_o_qpsk_modulator.py:864-866`).  Coefficients are listed from
the highest power.  numpy computes with doubles; all coefficients met here are integers far below 2^53, so the
arithmetic is exact and modelled over `Int`.  (`np.allclose(r[0], 0, rtol=1e-14)` in `polydiv` is then `r[0] = 0`.)
-/
namespace SunPhy

/-- `np.poly1d(c).coeffs`: leading zeros are trimmed, the zero polynomial is `[0]`. -/
def poly1d (c : List Int) : List Int :=
  match c.dropWhile (· == 0) with
  | [] => [0]
  | l => l

/-- Sum of two coefficient lists aligned at the front, the shorter one extended by zeros at the back. -/
def addFront : List Int → List Int → List Int
  | [], b => b
  | a, [] => a
  | x :: a, y :: b => (x + y) :: addFront a b

/-- `np.convolve(a, b)` (mode 'full'). -/
def convolve : List Int → List Int → List Int
  | [], _ => []
  | x :: a, b => addFront (b.map (x * ·)) (0 :: convolve a b)

/-- `np.polymul(a, b)` up to the final `poly1d` wrapping: `np.convolve(poly1d(a), poly1d(b))`. -/
def polymul (a b : List Int) : List Int := convolve (poly1d a) (poly1d b)

/-- `r[:len(t)] -= d * t` on the part of `r` after the current position. -/
def subPrefix (d : Int) : List Int → List Int → List Int
  | r, [] => r
  | [], _ => []
  | x :: r, y :: t => (x - d * y) :: subPrefix d r t

/-- The loop `for k in range(0, m - n + 1): d = r[k]/v[0]; r[k:k+n+1] -= d * v` of `np.polydiv`, started at the
current position, for a monic divisor `v` (`scale = 1`). -/
def polydivLoop (v : List Int) : Nat → List Int → List Int
  | 0, r => r
  | _, [] => []
  | s + 1, d :: r => (d - d * v.headD 1) :: polydivLoop v s (subPrefix d r v.tail)

/-- `while r[0] == 0 and r.shape[-1] > 1: r = r[1:]`. -/
def trimFront : List Int → List Int
  | [] => []
  | [x] => [x]
  | x :: y :: l => if x = 0 then trimFront (y :: l) else x :: y :: l

/-- The remainder returned by `np.polydiv(u, v)` for a monic integer divisor. -/
def polydivRem (u v : List Int) : List Int :=
  trimFront (polydivLoop v (u.length + 1 - v.length) u)

/-- `np.polyadd(a, b)` on arrays: the shorter one is zero padded on the left. -/
def polyadd (a b : List Int) : List Int :=
  let n := max a.length b.length
  List.zipWith (· + ·) (List.replicate (n - a.length) 0 ++ a) (List.replicate (n - b.length) 0 ++ b)

/-- `np.mod(x, 2)` elementwise (result in {0, 1}). -/
def mod2 (l : List Int) : List Int := l.map (· % 2)

/-- Bits as integer coefficients. -/
def bitsToInts (b : Bits) : List Int := b.map fun x => (b2n x : Int)

end SunPhy
