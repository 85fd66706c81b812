import Mathlib.Analysis.SpecialFunctions.Trigonometric.Basic
import Verif.Model.MrOqpskTables
/-
Specification of the MR-O-QPSK pulse shapes and sample instants.
-/
namespace SunPhy.Spec
open SunPhy

/-- Value (±1) of a chip. -/
def chipValue (b : Bool) : ℂ := if b then 1 else -1

/-- Half-sine pulse of duration `2·Tc`, in units of `u = t/Tc`. -/
noncomputable def halfSinePulse (u : ℝ) : ℝ := if 0 ≤ u ∧ u ≤ 2 then Real.sin (Real.pi * u / 2) else 0

/-- Raised-cosine pulse with roll-off 0.8, in units of `u = t/Tc`; at the removable singularities `u = ±5/8` the value given is 0
(see C62 for the points where they are hit). -/
noncomputable def raisedCosinePulse (u : ℝ) : ℝ :=
  if u = 0 then 1
  else Real.sin (Real.pi * u) / (Real.pi * u) * (Real.cos (4 / 5 * Real.pi * u) / (1 - (8 / 5 * u) ^ 2))

/-- Half-sine for 915 and 2450 MHz, raised cosine for the others. -/
noncomputable def bandPulse : Band → ℝ → ℝ
  | .b915 | .b2450 => halfSinePulse
  | _ => raisedCosinePulse

/-- Sample `j` of the pulse: `sps` instants evenly spaced from `-2Tc` to `2Tc` (excluded). -/
noncomputable def pulseSample (b : Band) (sps j : Nat) : ℝ := bandPulse b (-2 + 4 * (j : ℝ) / sps)

end SunPhy.Spec
