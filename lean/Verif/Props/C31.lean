import Verif.Proofs.OfdmInj
import Verif.Proofs.OfdmResult
import Verif.Props.C30
/-
C31 — MR-OFDM: every acceptable octet message is modulated, and different messages give different signals.
C15 — (`bitsToIQ` level).
-/
namespace SunPhy.C31
open SunPhy Spec

/-- **C31 (success).**  A constructed MR-OFDM modulator, whatever was done with it before, returns samples for every message of 1..2047
octets (bytes, bytearray, list or array). -/
theorem C31_success (MCS opt il sc : PyVal) (p : OfdmParams) (hp : mrOfdmInit MCS opt il sc = .ok p) (o : OfdmObj) (ho : o.params = p)
    (a : Arg) (msg : List UInt8) (h : C01.Denotes a msg) (h1 : 1 ≤ msg.length) (h2 : msg.length ≤ 2047) :
    ∃ (iq : List ℂ) (fs : ℚ) (o' : OfdmObj), (ofdmModBytesToIQ a).call o = (.ok (iq, fs), o') ∧ o'.params = p := by
  have hS : Supported o.params := by rw [ho]; exact (C30.C30_supported p).1 ⟨_, _, _, _, hp⟩
  obtain ⟨r1, r2⟩ := bytesToIQ_result hS a
  obtain ⟨b, -, -, e⟩ := ofdmBytesResult_octets o.params h h1
  rw [if_pos h2] at e
  refine ⟨frameIQ o.params b, ofdmFs o.params, ((ofdmModBytesToIQ a).call o).2, ?_, by rw [r2, ho]⟩
  exact Prod.ext (r1.trans e) rfl

/-- **C31 (different messages, different signals).**  If two modulators with the same parameters return the same samples for two octet
messages, the messages are equal. -/
theorem C31_injective (o o2 : OfdmObj) (hS : Supported o.params) (hp : o2.params = o.params) (a a2 : Arg) (msg msg2 : List UInt8)
    (h : C01.Denotes a msg) (h2 : C01.Denotes a2 msg2) (hne : msg ≠ []) (hne2 : msg2 ≠ []) (iq : List ℂ) (fs fs2 : ℚ) (o' o2' : OfdmObj)
    (e : (ofdmModBytesToIQ a).call o = (.ok (iq, fs), o')) (e2 : (ofdmModBytesToIQ a2).call o2 = (.ok (iq, fs2), o2')) : msg = msg2 := by
  have key : ∀ (o : OfdmObj) (a : Arg) (msg : List UInt8) (fs : ℚ) (o' : OfdmObj), Supported o.params → C01.Denotes a msg → msg ≠ [] →
      (ofdmModBytesToIQ a).call o = (.ok (iq, fs), o') →
      ∃ b : Bits, toBinaryArray a = .ok b ∧ b.length = 8 * msg.length ∧ 1 ≤ msg.length ∧ msg.length ≤ 2047 ∧ frameIQ o.params b = iq := by
    intro o a msg fs o' hS h hne e
    have h1 : 1 ≤ msg.length := List.length_pos_of_ne_nil hne
    obtain ⟨b, hb, hl, er⟩ := ofdmBytesResult_octets o.params h h1
    have r := (bytesToIQ_result hS a).1
    rw [e, er] at r
    simp only at r
    by_cases h2 : msg.length ≤ 2047
    · rw [if_pos h2] at r
      have := Except.ok.inj r
      rw [Prod.mk.injEq] at this
      exact ⟨b, hb, hl, h1, h2, this.1.symm⟩
    · rw [if_neg h2] at r; cases r
  obtain ⟨b, hb, hl, l1, l2, f⟩ := key o a msg fs o' hS h hne e
  obtain ⟨b2, hb2, hl2, l12, l22, f2⟩ := key o2 a2 msg2 fs2 o2' (by rw [hp]; exact hS) h2 hne2 e2
  rw [hp] at f2
  obtain ⟨el, ep⟩ := frameIQ_inj hS (m := b) (m' := b2) (by omega) (by omega) (by omega) (by omega) (f.trans f2.symm)
  have : b = b2 := payloadCoded_inj hS (by omega) ep
  rw [← this] at hb2
  exact C01.C01_injective a a2 msg msg2 b h h2 hne hne2 hb hb2

example : mrOfdmInit (.int 2) (.int 3) (.int 1) (.int 2) = .ok ⟨2, 3, 1, 2⟩ ∧ C01.Denotes (.bytes [0x12, 0xFF]) [0x12, 0xFF] := by
  exact ⟨by decide, rfl⟩

end SunPhy.C31
