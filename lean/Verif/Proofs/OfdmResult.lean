import Verif.Proofs.OfdmFrame
import Verif.Props.C01
import Verif.Props.C02
import Verif.Props.C03
import Verif.Props.C15
/-
The result of `bitsToIQ` / `bytesToIQ` of a supported MR-OFDM modulator for every argument.
-/
namespace SunPhy
open Spec OfdmParams
noncomputable section

theorem phrM_error {o : OfdmObj} (h : Supported o.params) {n : Nat} (hn : ¬ (1 ≤ n / 8 ∧ n / 8 ≤ 2047)) :
    (ofdmPhrM n).call o = (.error .ValueError, o) := by
  have hl := C14.C14_sizes o.params h
  have e : o.params.phyHeader n = .error .ValueError :=
    (C15.C15_header o.params.mcs (n / 8) o.params.scrambler o.params.phrLength (mcs_le h) h.2.2 (by omega)).2 hn
  unfold ofdmPhrM
  simp only [PyM.call_bind, PyM.call_get, PyM.seqR_ok, PyM.call_lift, e, PyM.seqR_error]

/-- The result of `bitsToIQ` as a function of parameters and argument only. -/
def ofdmResult (p : OfdmParams) (a : Arg) : Res (List ℂ × ℚ) :=
  match checkBinaryArray a with
  | .error e => .error e
  | .ok m => if 1 ≤ m.length / 8 ∧ m.length / 8 ≤ 2047 then .ok (frameIQ p m, ofdmFs p) else .error .ValueError

theorem bitsToIQ_result {o : OfdmObj} (h : Supported o.params) (a : Arg) :
    ((ofdmModBitsToIQ a).call o).1 = ofdmResult o.params a ∧ ((ofdmModBitsToIQ a).call o).2.params = o.params := by
  unfold ofdmResult
  cases ha : checkBinaryArray a with
  | error e =>
    unfold ofdmModBitsToIQ
    simp only [PyM.call_bind, PyM.call_lift, ha, PyM.seqR_error, and_self]
  | ok m =>
    by_cases hn : 1 ≤ m.length / 8 ∧ m.length / 8 ≤ 2047
    · obtain ⟨o', e, hp⟩ := bitsToIQ_ok h ha hn.1 hn.2
      rw [e]
      simp only [hn, and_self, if_true, hp]
    · unfold ofdmModBitsToIQ
      simp only [PyM.call_bind, PyM.call_get, PyM.seqR_ok, PyM.call_lift, ha, stf_ok h, ltf_ok h, phrM_error h hn, PyM.seqR_error,
        if_neg hn, and_self]

/-- The result of `bytesToIQ`. -/
def ofdmBytesResult (p : OfdmParams) (a : Arg) : Res (List ℂ × ℚ) :=
  match toBinaryArray a with
  | .error e => .error e
  | .ok m => ofdmResult p (bitsArg m)

theorem bytesToIQ_result {o : OfdmObj} (h : Supported o.params) (a : Arg) :
    ((ofdmModBytesToIQ a).call o).1 = ofdmBytesResult o.params a ∧ ((ofdmModBytesToIQ a).call o).2.params = o.params := by
  unfold ofdmModBytesToIQ ofdmBytesResult
  cases ha : toBinaryArray a with
  | error e => simp only [PyM.call_bind, PyM.call_lift, PyM.seqR_error, and_self]
  | ok m =>
    simp only [PyM.call_bind, PyM.call_lift, PyM.seqR_ok]
    exact bitsToIQ_result h _

theorem ofdmResult_bits (p : OfdmParams) {b : Bits} (hb : b ≠ []) :
    ofdmResult p (bitsArg b) = if 1 ≤ b.length / 8 ∧ b.length / 8 ≤ 2047 then .ok (frameIQ p b, ofdmFs p) else .error .ValueError := by
  unfold ofdmResult
  rw [C03.C03_identity b hb]

theorem ofdmBytesResult_octets (p : OfdmParams) {a : Arg} {msg : List UInt8} (h : C01.Denotes a msg) (h1 : 1 ≤ msg.length) :
    ∃ b : Bits, toBinaryArray a = .ok b ∧ b.length = 8 * msg.length ∧
      ofdmBytesResult p a = if msg.length ≤ 2047 then .ok (frameIQ p b, ofdmFs p) else .error .ValueError := by
  obtain ⟨b, e, hl, -⟩ := C01.C01_lsb_first a msg h (by intro e; rw [e] at h1; simp at h1)
  refine ⟨b, e, hl, ?_⟩
  unfold ofdmBytesResult
  rw [e]
  simp only
  rw [ofdmResult_bits p (by intro e; rw [e, List.length_nil] at hl; omega), hl, show 8 * msg.length / 8 = msg.length by omega]
  by_cases h2 : msg.length ≤ 2047
  · rw [if_pos ⟨h1, h2⟩, if_pos h2]
  · rw [if_neg (fun h => h2 h.2), if_neg h2]

end
end SunPhy
