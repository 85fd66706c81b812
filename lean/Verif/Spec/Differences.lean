import Verif.Model.Prelude
import Mathlib.Analysis.Complex.Norm
/-
Pairs of messages that differ at the same places, and pairs of signals that are equally far apart sample by sample.
-/
namespace SunPhy.Spec

/-- The four bit sequences have the same length, and the first two differ exactly where the last two differ. -/
def SameDifferences (a a' b b' : Bits) : Prop :=
  a'.length = a.length ∧ b.length = a.length ∧ b'.length = a.length ∧ ∀ i < a.length, (a[i]? ≠ a'[i]? ↔ b[i]? ≠ b'[i]?)

/-- The four signals have the same length, and at every sample the first two are as far apart as the last two. -/
def SameDistances (s s' t t' : List ℂ) : Prop :=
  s'.length = s.length ∧ t.length = s.length ∧ t'.length = s.length ∧ ∀ k, ‖s.getD k 0 - s'.getD k 0‖ = ‖t.getD k 0 - t'.getD k 0‖

end SunPhy.Spec
