import Verif.Props.C04
import Verif.Props.C22
import Verif.Props.C57
import Verif.Props.C60
import Verif.Props.C63
/-
C73, C79, C84, C85, C86 — exact behaviour where the documented property (C22, C54, C66, C04, C58) does not hold.
-/
namespace SunPhy.C71
open SunPhy Spec Complex

/-- **C73.**  The six bits after the message are zero, and the encoder is in state 0 after them, whenever the message plus six bits does not
fill whole symbols; when it does, they are the bits of the whitening sequence. -/
theorem C73_tail (p : OfdmParams) (h : Supported p) (m : Bits) :
    (¬ C22.NoPad p m.length → ((p.payloadScrambled m).drop m.length).take 6 = List.replicate 6 false ∧
      rateHalfState (rateHalfInit 0) ((p.payloadScrambled m).take (m.length + 6)) = 0) ∧
    (C22.NoPad p m.length → ∀ i < 6, ∃ y, C05.output (scramblingSeed p.scrambler) (m.length + i) = some y ∧
      (p.payloadScrambled m)[m.length + i]? = some (y == 1)) :=
  ⟨C22.C22_partial p h m, fun hp => (C22.C22_no_pad p h m hp).2⟩

/-- **C79.**  With MDSSS two messages of the same number of octets have the same outcome. -/
theorem C79_length_only (o : OqpskObj) (h : C63.Standard o.params) (hs : o.params.sm = 1) (a a' : Arg) (msg msg' : List UInt8) (hd : C01.Denotes a msg)
    (hd' : C01.Denotes a' msg') (h1 : 1 ≤ msg.length) (hl : msg.length = msg'.length) :
    ((oqpskBytesToIQ a).call o).1 = ((oqpskBytesToIQ a').call o).1 := C63.C54_false o h hs a a' msg msg' hd hd' h1 hl

/-- **C84.**  The sampling frequency fits the chip rate exactly for rate mode 3 outside 2450 MHz. -/
theorem C84_frequency (p : OqpskParams) (chips : Bits) (sps : Nat) (hs : 1 ≤ sps) (iq : List ℂ) (fs : ℚ) (h : oqpskModulator p chips sps = .ok (iq, fs)) :
    fs = (C60.chipRate p.band : ℚ) * sps / 2 ↔ p.rm = 3 ∧ p.band ≠ .b2450 := C60.C66_exact_partial p chips sps hs iq fs h

/-- **C85.**  `to_int` with the opposite flag inverts `to_bin`; with the same flag it gives the number with its bits reversed. -/
theorem C85_order (n w : Nat) (hw : 1 ≤ w) (hw8 : w ≤ 8) (h : n < 2 ^ w) (flag : Bool) :
    toInt (toBin n w flag) (!flag) = .ok n ∧ toInt (toBin n w flag) flag = .ok (C04.denotesMSB (toBin n w true).reverse) :=
  ⟨C04.C04_inverse_partial n w hw hw8 h flag, C04.C04_same_flag_reverses n w hw hw8 h flag⟩

/-- **C86.**  For every band but 2450 MHz the pilot sequence is the SHR spreading of one bit 0; at 2450 MHz it is not. -/
theorem C86_pilots (b : Band) : dsss [false] (shrSpreading b) = .ok (pilotSequence b) ↔ b ≠ .b2450 := by
  refine ⟨?_, C57.C58_pilot_partial b⟩
  rintro h rfl
  obtain ⟨chips, e, -, -, hh, hd⟩ := C57.C58_2450
  rw [h] at e
  exact hd (by rw [Except.ok.inj e])

/-- Both cases of C73 occur: in option 2 with MCS 3, 13 octets and the tail do not fill whole symbols, other lengths do. -/
example : Supported ⟨2, 3, 1, 2⟩ ∧ ¬ C22.NoPad ⟨2, 3, 1, 2⟩ 104 ∧ C22.NoPad ⟨2, 3, 1, 2⟩ (3 * OfdmParams.nDbps ⟨2, 3, 1, 2⟩ - 6) ∧
    6 < OfdmParams.nDbps ⟨2, 3, 1, 2⟩ := by
  refine ⟨by unfold Supported; decide, by decide +kernel, by decide +kernel, by decide +kernel⟩

end SunPhy.C71
