import Verif.Model.Prelude
/-
Specification vocabulary shared by the coding theorems.
-/
namespace SunPhy.Spec
open SunPhy

/-- Number of positions in which two bit sequences of equal length differ. -/
def hamming (a b : Bits) : Nat := (List.zipWith xor a b).count true

/-- Bit `n - j` of a sequence that is zero before its start. -/
def delayed (x : Bits) (n j : Nat) : Bool := if j ≤ n then x.getD (n - j) false else false

/-- The bit at time `n` of the modulo-2 convolution of `x` with the taps (delays) listed. -/
def tapSum (taps : List Nat) (x : Bits) (n : Nat) : Bool := (taps.map (delayed x n)).foldr xor false

end SunPhy.Spec
