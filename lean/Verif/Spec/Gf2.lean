import Mathlib.Algebra.Polynomial.Div
import Mathlib.Data.ZMod.Basic
import Verif.Model.Prelude
/-
Specification vocabulary for the header check sequences: polynomials over GF(2).
-/
namespace SunPhy.Spec
open Polynomial SunPhy
noncomputable section

/-- The polynomial over GF(2) with the listed integer coefficients taken modulo 2, highest power first. -/
def toPoly : List Int → (ZMod 2)[X]
  | [] => 0
  | c :: l => C (c : ZMod 2) * X ^ l.length + toPoly l

/-- The polynomial of a bit string, first bit = highest power. -/
def bitPoly (b : Bits) : (ZMod 2)[X] := toPoly (b.map fun x => if x then 1 else 0)

/-- The generator `x^8 + x^2 + x + 1`. -/
def G : (ZMod 2)[X] := X ^ 8 + X ^ 2 + X + 1

end
end SunPhy.Spec
