import Verif.Proofs.OfdmResult
import Verif.Proofs.FskSignal
import Verif.Props.C30
import Verif.Proofs.OqpskFrame
/-
C32 — modulators carry no hidden state between frames.
-/
namespace SunPhy.C32
open SunPhy Spec

/-- A call on a modulator object. -/
inductive Call
  | bits (a : Arg)   -- `bitsToIQ(a)`
  | bytes (a : Arg)  -- `bytesToIQ(a)`

/-- The object after a history of calls (exceptions included). -/
def after {σ α : Type} (run : Call → PyM σ α) : List Call → σ → σ
  | [], o => o
  | c :: cs, o => after run cs ((run c).call o).2

/-- The three modulators' methods. -/
noncomputable def ofdmRun : Call → PyM OfdmObj (List ℂ × ℚ)
  | .bits a => ofdmModBitsToIQ a
  | .bytes a => ofdmModBytesToIQ a
noncomputable def fskRun (rn : Rat → Rat) : Call → PyM FskObj (List ℂ × ℚ)
  | .bits a => fskBitsToIQ rn a
  | .bytes a => fskBytesToIQ rn a

theorem ofdm_step {o : OfdmObj} (h : Supported o.params) (c : Call) : ((ofdmRun c).call o).2.params = o.params := by
  cases c with
  | bits a => exact (bitsToIQ_result h a).2
  | bytes a => exact (bytesToIQ_result h a).2

theorem ofdm_after {o : OfdmObj} (h : Supported o.params) (cs : List Call) : (after ofdmRun cs o).params = o.params := by
  induction cs generalizing o with
  | nil => rfl
  | cons c cs ih =>
    have e := ofdm_step h c
    rw [after, ih (by rw [e]; exact h), e]

/-- **C32 (MR-OFDM).**  For a constructed modulator, after any history of calls, every call gives the result a fresh object would give. -/
theorem C32_ofdm (MCS opt il sc : PyVal) (p : OfdmParams) (hp : mrOfdmInit MCS opt il sc = .ok p) (fresh : OfdmObj) (hf : fresh.params = p)
    (history : List Call) (c : Call) : ((ofdmRun c).call (after ofdmRun history fresh)).1 = ((ofdmRun c).call fresh).1 := by
  have hS : Supported fresh.params := by rw [hf]; exact (C30.C30_supported p).1 ⟨_, _, _, _, hp⟩
  have e := ofdm_after hS history
  have hS' : Supported (after ofdmRun history fresh).params := by rw [e]; exact hS
  cases c with
  | bits a =>
    have r1 := (bitsToIQ_result hS' a).1
    have r2 := (bitsToIQ_result hS a).1
    rw [e] at r1
    exact r1.trans r2.symm
  | bytes a =>
    have r1 := (bytesToIQ_result hS' a).1
    have r2 := (bytesToIQ_result hS a).1
    rw [e] at r1
    exact r1.trans r2.symm

theorem fsk_after (rn : Rat → Rat) (o : FskObj) (cs : List Call) : (after (fskRun rn) cs o).params = o.params := by
  induction cs generalizing o with
  | nil => rfl
  | cons c cs ih =>
    rw [after, ih]
    cases c with
    | bits a => exact (fskBitsToIQ_result rn a o).2
    | bytes a => exact (fskBytesToIQ_result rn a o).2

/-- **C32 (MR-FSK).**  The same for MR-FSK, whatever the arithmetic. -/
theorem C32_fsk (rn : Rat → Rat) (fresh : FskObj) (history : List Call) (c : Call) :
    ((fskRun rn c).call (after (fskRun rn) history fresh)).1 = ((fskRun rn c).call fresh).1 := by
  have e := fsk_after rn fresh history
  cases c with
  | bits a =>
    have r1 := (fskBitsToIQ_result rn a (after (fskRun rn) history fresh)).1
    rw [e] at r1
    exact r1.trans (fskBitsToIQ_result rn a fresh).1.symm
  | bytes a =>
    have r1 := (fskBytesToIQ_result rn a (after (fskRun rn) history fresh)).1
    rw [e] at r1
    exact r1.trans (fskBytesToIQ_result rn a fresh).1.symm

noncomputable def oqpskRun : Call → PyM OqpskObj (List ℂ × ℚ)
  | .bits a => oqpskBitsToIQ a
  | .bytes a => oqpskBytesToIQ a

theorem oqpsk_after (o : OqpskObj) (cs : List Call) : (after oqpskRun cs o).params = o.params := by
  induction cs generalizing o with
  | nil => rfl
  | cons c cs ih =>
    rw [after, ih]
    cases c with
    | bits a => exact (oqpskBitsToIQ_result a o).2
    | bytes a => exact (oqpskBytesToIQ_result a o).2

/-- **C32 (MR-O-QPSK).**  The same for MR-O-QPSK. -/
theorem C32_oqpsk (fresh : OqpskObj) (history : List Call) (c : Call) :
    ((oqpskRun c).call (after oqpskRun history fresh)).1 = ((oqpskRun c).call fresh).1 := by
  have e := oqpsk_after fresh history
  cases c with
  | bits a =>
    have r1 := (oqpskBitsToIQ_result a (after oqpskRun history fresh)).1
    rw [e] at r1
    exact r1.trans (oqpskBitsToIQ_result a fresh).1.symm
  | bytes a =>
    have r1 := (oqpskBytesToIQ_result a (after oqpskRun history fresh)).1
    rw [e] at r1
    exact r1.trans (oqpskBytesToIQ_result a fresh).1.symm

/-- The attributes really change between calls, so the theorems are not about objects that stay the same. -/
example : (((fskBinary (bitsArg [true])).call { params := ⟨50000, 1, 0, .FSK2, false, 0, 0, false, false, 4⟩ }).2.PHR_PSDU).isSome = true := by
  decide +kernel

end SunPhy.C32
