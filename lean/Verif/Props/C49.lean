import Verif.Proofs.OqpskCode
import Verif.Props.C10
/-
C49 — the MR-O-QPSK FEC is the (133,171) convolutional code, padded to whole 63-bit blocks.
-/
namespace SunPhy.C49
open SunPhy Spec

theorem fec_taps (x : Bits) : (rateHalfOut 0 x).length = 2 * x.length ∧
    ∀ n, n < x.length → (rateHalfOut 0 x)[2 * n]? = some (tapSum [0, 2, 3, 5, 6] x n) ∧
      (rateHalfOut 0 x)[2 * n + 1]? = some (tapSum [0, 1, 2, 3, 6] x n) := C10.C10_taps x

/-- **C49 (PHR).**  The coded header is the (133,171) code of the header and six zeros; the encoder ends in state 0. -/
theorem C49_phr (hdr : Bits) :
    (oqpskFec hdr false).length = 2 * (hdr.length + 6) ∧ (oqpskEncode 0 (oqpskPad hdr false)).2 = 0 ∧
    ∀ n, n < hdr.length + 6 →
      (oqpskFec hdr false)[2 * n]? = some (tapSum [0, 2, 3, 5, 6] (hdr ++ List.replicate 6 false) n) ∧
      (oqpskFec hdr false)[2 * n + 1]? = some (tapSum [0, 1, 2, 3, 6] (hdr ++ List.replicate 6 false) n) := by
  refine ⟨oqpskFec_phr_length hdr, ?_, fun n hn => ?_⟩
  · rw [oqpskEncode_eq _ (by decide)]
    simp only [oqpskPad, Bool.false_eq_true, if_false]
    rw [rateHalfState_append]
    exact flush6 _ (rateHalfState_lt (by decide) _)
  · rw [oqpskFec_eq]
    have := (fec_taps (hdr ++ List.replicate 6 false)).2 n (by simpa using hn)
    simpa [oqpskPad] using this

/-- **C49 (PSDU).**  For a whole number of octets, the coded PSDU is the (133,171) code of the data, six zeros and the least number
of further zeros that makes the total a multiple of 63; the encoder ends in state 0. -/
theorem C49_psdu (data : Bits) (h8 : data.length % 8 = 0) :
    ∃ x : Bits, ∃ z : Nat, x = data ++ List.replicate (6 + z) false ∧
      x.length % 63 = 0 ∧ (∀ z', (data.length + 6 + z') % 63 = 0 → z ≤ z') ∧
      (oqpskFec data true).length = 2 * x.length ∧ (oqpskEncode 0 (oqpskPad data true)).2 = 0 ∧
      ∀ n, n < x.length →
        (oqpskFec data true)[2 * n]? = some (tapSum [0, 2, 3, 5, 6] x n) ∧
        (oqpskFec data true)[2 * n + 1]? = some (tapSum [0, 1, 2, 3, 6] x n) := by
  obtain ⟨e, h1, h2⟩ := oqpskPad_psdu data h8
  have hz : 63 * psduBlocks (data.length / 8) - data.length = 6 + (63 * psduBlocks (data.length / 8) - data.length - 6) := by omega
  refine ⟨oqpskPad data true, 63 * psduBlocks (data.length / 8) - data.length - 6, ?_, ?_, ?_, ?_, ?_, ?_⟩
  · rw [e, ← hz]
  · rw [oqpskPad_length _ h8]; omega
  · intro z' hz'; omega
  · rw [oqpskFec_eq, rateHalfOut_length]
  · rw [oqpskEncode_eq _ (by decide), e, hz, List.replicate_add, ← List.append_assoc, rateHalfState_append, rateHalfState_append,
      flush6 _ (rateHalfState_lt (by decide) _)]
    exact zeros_keep_zero _
  · intro n hn
    rw [oqpskFec_eq]
    exact (fec_taps _).2 n hn

/-- A 7-octet PSDU fits one block, an 8-octet one needs two. -/
example : (oqpskFec (List.replicate 56 true) true).length = 126 ∧ (oqpskFec (List.replicate 64 true) true).length = 252 := by decide +kernel

end SunPhy.C49
