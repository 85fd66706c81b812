import Mathlib.Analysis.Complex.Norm
/-
Distance of sampled signals.
-/
namespace SunPhy.Spec

/-- Squared Euclidean distance of two signals, over the length of the shorter one. -/
noncomputable def distSq (x y : List ℂ) : ℝ := (List.zipWith (fun a b => ‖a - b‖ ^ 2) x y).sum

end SunPhy.Spec
