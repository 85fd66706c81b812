import Verif.Model.MrFsk
import Verif.Proofs.FieldsLemmas
import Verif.Props.C33
/-
C45 — MR-FSK mode switch.  The argument checks hold; the production of a mode switch PPDU does not: the method returns `None`, and the header
builder it should use always raises.
-/
namespace SunPhy.C45
open SunPhy

/-- **C45 (partial: arguments).**  `TypeError` exactly for non-integers, `ValueError` exactly for integers outside 0..3; accepted otherwise.  Missing
from the full statement: a mode switch PPDU, which is never produced (`C45_no_signal`, `C45_header_fails`). -/
theorem C45_arguments_partial (v w : PyVal) :
    (modeSwitchToIQ v w = .error .TypeError ↔ ¬ C33.Integral v) ∧
    (modeSwitchToIQ v w = .error .ValueError ↔ ∃ i, C33.IsInt v i ∧ ¬ (0 ≤ i ∧ i ≤ 3)) ∧
    ((∃ r, modeSwitchToIQ v w = .ok r) ↔ ∃ i, C33.IsInt v i ∧ 0 ≤ i ∧ i ≤ 3) := by
  unfold modeSwitchToIQ
  rw [C33.integral_iff]
  simp only [C33.isInt_iff]
  cases v.asInt? with
  | none => simp
  | some i =>
    by_cases h : 0 ≤ i ∧ i ≤ 3
    · simp [h]; exact ⟨.none⟩
    · simp only [if_neg h]; simp; omega

/-- **C45 is false**: for accepted entries the result is `None`, not a signal. -/
theorem C45_no_signal (v w : PyVal) (r : PyNone) (_ : modeSwitchToIQ v w = .ok r) : r = .none := by cases r; rfl

/-- **C45 (header builder).**  `_PHR_mode_switch` raises `ValueError` for every entry. -/
theorem C45_header_fails (entry : Nat) : phrModeSwitch entry = .error .ValueError := by
  unfold phrModeSwitch
  have hl : 2 ≤ (toBin entry 2).length := by unfold toBin binaryRepr; simp
  have : assignSlice ((List.replicate fskPhrLength false).set 0 true) 1 (2 + 1) (toBin entry 2) = .error .ValueError := by
    unfold assignSlice
    simp only
    rw [if_neg (by simp [fskPhrLength]; omega)]
    split
    · rename_i v hv; rw [hv] at hl; simp at hl
    · rfl
  simp only [this]
  rfl

example : modeSwitchToIQ (.int 2) (.bool true) = .ok .none := by decide

end SunPhy.C45
