import Verif.Model.MrOqpsk
import Verif.Proofs.Conv
/-
The MR-O-QPSK encoder is the encoder of `Proofs/Conv.lean`; differential encoding.
-/
namespace SunPhy
open Spec

theorem oqpskIter_eq : ∀ v < 64, ∀ b, oqpskIter v b = (encStep v b, encA v b == 1, encB v b == 1) := by decide +kernel

theorem oqpskEncode_eq (x : Bits) : ∀ {v : Nat}, v < 64 → oqpskEncode v x = (rateHalfOut v x, rateHalfState v x) := by
  induction x with
  | nil => intro v _; rfl
  | cons b x ih =>
    intro v hv
    rw [oqpskEncode, oqpskIter_eq v hv b, rateHalf_cons, rateHalfState_cons]
    simp only
    rw [ih (encStep_lt v hv b)]

theorem oqpskFec_eq (data : Bits) (f : Bool) : oqpskFec data f = rateHalfOut 0 (oqpskPad data f) := by
  unfold oqpskFec
  rw [oqpskEncode_eq _ (by decide)]

/-- Number of 63-bit blocks of a PSDU of `L` octets. -/
def psduBlocks (L : Nat) : Nat := (8 * L + 6 + 62) / 63

theorem oqpskPad_psdu (data : Bits) (h : data.length % 8 = 0) :
    oqpskPad data true = data ++ List.replicate (63 * psduBlocks (data.length / 8) - data.length) false ∧
    data.length + 6 ≤ 63 * psduBlocks (data.length / 8) ∧ 63 * psduBlocks (data.length / 8) < data.length + 6 + 63 := by
  unfold oqpskPad ceilDiv psduBlocks
  simp only [if_true]
  refine ⟨?_, by omega, by omega⟩
  congr 2
  omega

theorem oqpskPad_length (data : Bits) (h : data.length % 8 = 0) : (oqpskPad data true).length = 63 * psduBlocks (data.length / 8) := by
  obtain ⟨e, h1, -⟩ := oqpskPad_psdu data h
  rw [e]; simp; omega

theorem oqpskFec_length (data : Bits) (h : data.length % 8 = 0) : (oqpskFec data true).length = 126 * psduBlocks (data.length / 8) := by
  rw [oqpskFec_eq, rateHalfOut_length, oqpskPad_length _ h]; omega

theorem oqpskFec_phr_length (data : Bits) : (oqpskFec data false).length = 2 * (data.length + 6) := by
  rw [oqpskFec_eq, rateHalfOut_length]; simp [oqpskPad]

theorem bdeFrom_length (M : Nat) (m : Bits) : ∀ i e, (bdeFrom M i e m).length = m.length := by
  induction m with
  | nil => intro i e; rfl
  | cons a m ih => intro i e; simp [bdeFrom, ih]

theorem bde_length (m : Bits) (e : Bool) (M : Nat) : (bde m e M).length = m.length := bdeFrom_length _ _ _ _

end SunPhy
