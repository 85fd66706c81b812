import Mathlib.Analysis.SpecialFunctions.Log.Basic
/-
Doubles without overflow and underflow, and correctly rounded functions.
-/
namespace SunPhy.Doubles

/-- A number with a significand of 53 bits. -/
def IsDouble (y : ℚ) : Prop := ∃ m e : ℤ, |m| < 2 ^ 53 ∧ y = m * 2 ^ e

/-- `y` is a double nearest to `x`. -/
def Nearest (y : ℚ) (x : ℝ) : Prop := IsDouble y ∧ ∀ z, IsDouble z → |(y : ℝ) - x| ≤ |(z : ℝ) - x|

/-- `y` is `x` up to the given relative error. -/
def Within (ε : ℝ) (y : ℚ) (x : ℝ) : Prop := |(y : ℝ) - x| ≤ ε * |x|

end SunPhy.Doubles
