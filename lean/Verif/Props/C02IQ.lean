import Verif.Props.C02
import Verif.Props.C03
import Verif.Proofs.OfdmResult
import Verif.Proofs.FskSignal
import Verif.Proofs.OqpskFrame
/-
C02, C03 — arguments of `bytesToIQ` and `bitsToIQ` of the three modulators.
-/
namespace SunPhy.C02
open SunPhy

/-- **C02 (modulators).**  An argument that is not an acceptable octet message is refused by `bytesToIQ` of all three modulators with the exception of
`to_binary_array` (`OverflowError`, `ValueError` or `TypeError`), and the modulator object is left as it was. -/
theorem C02_bytesToIQ (a : Arg) (h : ¬ Acceptable a) :
    ∃ e, (Huge a → e = .OverflowError) ∧ (¬ Huge a → e = .ValueError ∨ e = .TypeError) ∧ (BadContent a → ¬ Huge a → e = .ValueError) ∧ (¬ Numeric a → e = .TypeError) ∧
      (∀ o, (ofdmModBytesToIQ a).call o = (.error e, o)) ∧ (∀ rn o, (fskBytesToIQ rn a).call o = (.error e, o)) ∧
      (∀ o, (oqpskBytesToIQ a).call o = (.error e, o)) := by
  cases ha : toBinaryArray a with
  | ok b => exact absurd ((C02_accepts_iff a).1 ⟨b, ha⟩) h
  | error e =>
    obtain ⟨h0, h1, h2, h3⟩ := C02_exceptions a
    refine ⟨e, fun hh => ?_, h3 e ha, fun hb hh => ?_, fun hn => ?_, fun o => ?_, fun rn o => ?_, fun o => ?_⟩
    · have := h0 hh; rw [ha] at this; cases this; rfl
    · have := h1 hb hh; rw [ha] at this; cases this; rfl
    · have := h2 hn; rw [ha] at this; cases this; rfl
    · unfold ofdmModBytesToIQ; rw [ha]; simp only [PyM.call_bind, PyM.call_lift, PyM.seqR_error]
    · unfold fskBytesToIQ; rw [ha]; simp only [PyM.call_bind, PyM.call_lift, PyM.seqR_error]
    · unfold oqpskBytesToIQ; rw [ha]; simp only [PyM.call_bind, PyM.call_lift, PyM.seqR_error]

/-- **C02 (empty message).**  `bytesToIQ(b'')` raises `ValueError`. -/
theorem C02_empty : (∀ o, (ofdmModBytesToIQ (.bytes [])).call o = (.error .ValueError, o)) ∧ (∀ rn o, (fskBytesToIQ rn (.bytes [])).call o = (.error .ValueError, o)) ∧
    (∀ o, (oqpskBytesToIQ (.bytes [])).call o = (.error .ValueError, o)) := by
  obtain ⟨e, -, -, hb, -, r⟩ := C02_bytesToIQ (.bytes []) (fun h => h rfl)
  rw [hb rfl id] at r
  exact r

end SunPhy.C02
namespace SunPhy.C03
open SunPhy

/-- **C03 (modulators).**  An argument that is not an acceptable bit message is refused by `bitsToIQ` of all three modulators with the exception of
`check_binary_array`, and the modulator object is left as it was. -/
theorem C03_bitsToIQ (a : Arg) (h : ¬ Acceptable a) :
    ∃ e, (KnownType a → e = .ValueError) ∧ (¬ KnownType a → e = .TypeError) ∧
      (∀ o, (ofdmModBitsToIQ a).call o = (.error e, o)) ∧ (∀ rn o, (fskBitsToIQ rn a).call o = (.error e, o)) ∧
      (∀ o, (oqpskBitsToIQ a).call o = (.error e, o)) := by
  cases ha : checkBinaryArray a with
  | ok b => exact absurd ((C03_accepts_iff a).1 ⟨b, ha⟩) h
  | error e =>
    obtain ⟨-, h2, h3⟩ := C03_validation a
    refine ⟨e, fun hb => ?_, fun hn => ?_, fun o => ?_, fun rn o => ?_, fun o => ?_⟩
    · have := h2 h hb; rw [ha] at this; cases this; rfl
    · have := h3 hn; rw [ha] at this; cases this; rfl
    · unfold ofdmModBitsToIQ; rw [ha]; simp only [PyM.call_bind, PyM.call_lift, PyM.seqR_error]
    · unfold fskBitsToIQ fskBinary; rw [ha]; simp only [PyM.call_bind, PyM.call_lift, PyM.seqR_error]
    · unfold oqpskBitsToIQ oqpskChips; rw [ha]; simp only [PyM.call_bind, PyM.call_lift, PyM.seqR_error]

/-! Non-vacuity. -/
example : ¬ Acceptable (.bytes [1]) ∧ ¬ Acceptable (.list ⟨1, [0, 2]⟩) ∧ ¬ C02.Acceptable (.list ⟨1, [0, 256]⟩) := by
  refine ⟨fun h => h, fun h => ?_, fun h => ?_⟩
  · have := h.2.2 2 (by simp); norm_num at this
  · have := h.2.2 256 (by simp); norm_num at this

end SunPhy.C03
