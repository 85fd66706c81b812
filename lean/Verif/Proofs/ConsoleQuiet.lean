import Verif.Proofs.Console
/-
Nothing is printed when the flag is off (with the exception of the three `print` of `_TPC`).
-/
namespace SunPhy
open PyM
variable {σ α β : Type}

/-- The method prints nothing, whatever its outcome. -/
def Quiet (m : PyM (Console σ) α) : Prop := ∀ c, (m.call c).2.out = c.out

namespace Quiet

theorem quietly (m : PyM σ α) : Quiet (quietly m) := fun _ => rfl
theorem pure (a : α) : Quiet (Pure.pure a : PyM (Console σ) α) := fun _ => rfl
theorem lift (r : Res α) : Quiet (PyM.lift r : PyM (Console σ) α) := fun _ => rfl
theorem throw (e : PyErr) : Quiet (MonadExcept.throw e : PyM (Console σ) α) := fun _ => rfl
theorem say (s : String) : Quiet (say false s : PyM (Console σ) Unit) := fun _ => rfl
theorem raiseIf (c : Prop) [Decidable c] (e : PyErr) : Quiet (raiseIf c e : PyM (Console σ) Unit) := lift _

theorem bind {m : PyM (Console σ) α} {f : α → PyM (Console σ) β} (h : Quiet m) (hf : ∀ a, Quiet (f a)) : Quiet (m >>= f) := by
  intro c
  rw [call_bind]
  have := h c
  rcases hm : m.call c with ⟨r, c1⟩
  rw [hm] at this
  cases r with
  | ok a => rw [seqR_ok, hf a c1]; exact this
  | error e => exact this

theorem ite {p : Prop} [Decidable p] {a b : PyM (Console σ) α} (ha : Quiet a) (hb : Quiet b) : Quiet (if p then a else b) := by
  split
  · exact ha
  · exact hb

end Quiet

/-- One step. -/
macro "quiet_step" : tactic => `(tactic| first
  | exact Quiet.quietly _ | exact Quiet.pure _ | exact Quiet.lift _ | exact Quiet.throw _ | exact Quiet.say _ | exact Quiet.raiseIf _ _ | assumption
  | refine Quiet.ite ?_ ?_ | refine Quiet.bind ?_ (fun _ => ?_))
macro "quiet" : tactic => `(tactic| ((try dsimp only); repeat' (first | quiet_step | (dsimp only; quiet_step))))

theorem stfP_quiet (p : OfdmParams) : Quiet (stfP false p) := by unfold stfP; quiet
theorem ltfP_quiet (p : OfdmParams) : Quiet (ltfP false p) := by unfold ltfP; quiet
theorem ofdmPaddingP_quiet (m : Bits) : Quiet (ofdmPaddingP false m) := by unfold ofdmPaddingP; quiet
theorem ofdmPhrP_quiet (n : Nat) : Quiet (ofdmPhrP false n) := by unfold ofdmPhrP; quiet
theorem ofdmPayloadP_quiet (m : Bits) (s : OfdmState) : Quiet (ofdmPayloadP false m s) := by
  have := ofdmPaddingP_quiet m
  unfold ofdmPayloadP; quiet
theorem ofdmModBitsToIQP_quiet (a : Arg) : Quiet (ofdmModBitsToIQP false a) := by
  unfold ofdmModBitsToIQP
  refine Quiet.bind (Quiet.quietly _) fun m => Quiet.bind (Quiet.quietly _) fun o => ?_
  dsimp only
  refine Quiet.bind (stfP_quiet _) fun _ => Quiet.bind (ltfP_quiet _) fun _ => Quiet.bind (ofdmPhrP_quiet _) fun r => ?_
  exact Quiet.bind (Quiet.quietly _) fun _ => Quiet.bind (Quiet.quietly _) fun _ => Quiet.bind (ofdmPayloadP_quiet _ _) fun _ => Quiet.pure _
theorem ofdmModBytesToIQP_quiet (a : Arg) : Quiet (ofdmModBytesToIQP false a) :=
  Quiet.bind (Quiet.quietly _) fun _ => ofdmModBitsToIQP_quiet _

theorem oqpskModulatorP_quiet (p : OqpskParams) (ch : Bits) (sps : Nat) : Quiet (oqpskModulatorP false p ch sps : PyM (Console σ) _) := by unfold oqpskModulatorP; quiet

section
variable [Mul α] [Zero α]

theorem ofdmPadP_quiet (L : Int) (d : List ℚ) : Quiet (ofdmPadP false L d : PyM (Console σ) _) := by unfold ofdmPadP; quiet
theorem ofdmSplitP_quiet (L : Int) (d : List ℚ) (pad : Bool) : Quiet (ofdmSplitP false L d pad : PyM (Console σ) _) := by
  have := ofdmPadP_quiet (σ := σ) L d
  unfold ofdmSplitP; quiet
theorem ofdmMapP_quiet (t : OfdmTexts) (nb : Numbers α) (k : ModKind) (M : Mat ℚ) : Quiet (ofdmMapP false t nb k M : PyM (Console σ) _) := by unfold ofdmMapP; quiet
theorem ofdmSpreadP_quiet (nb : Numbers α) (k : Nat) (M : Mat α) : Quiet (ofdmSpreadP false nb k M : PyM (Console σ) _) := by unfold ofdmSpreadP; quiet

theorem addPilotsSymbolsP_quiet (t : OfdmTexts) (N : Nat) (pv : Int → α) (pl : Pilots α) (avail : List Int) (d : List Char) (cols : List (List α)) (vi : Nat) :
    Quiet (addPilotsSymbolsP false t N pv pl avail d vi cols) := by
  induction cols generalizing vi with
  | nil => exact Quiet.pure _
  | cons col cols ih =>
    unfold addPilotsSymbolsP
    dsimp only
    repeat' (first | quiet_step | exact ih _ | (dsimp only; quiet_step))

theorem addPilotsP_quiet (t : OfdmTexts) (pv : Int → α) (M : Mat α) : Quiet (addPilotsP false t pv M) := by
  unfold addPilotsP
  refine Quiet.bind (Quiet.quietly _) fun o => ?_
  dsimp only
  iterate 7 refine Quiet.bind (Quiet.say _) fun _ => ?_
  refine Quiet.bind (Quiet.lift _) fun avail => ?_
  split
  · exact Quiet.ite (addPilotsSymbolsP_quiet _ _ _ _ _ _ _ _) (Quiet.lift _)
  · exact Quiet.lift _

theorem subcarriersP_quiet (t : OfdmTexts) (nb : Numbers α) (a : BitsArg) (pad : Bool) : Quiet (OfdmRun.subcarriersP false t nb a pad) :=
  Quiet.bind (Quiet.lift _) fun _ => Quiet.bind (Quiet.quietly _) fun _ => Quiet.bind (ofdmSplitP_quiet _ _ _) fun _ =>
    Quiet.bind (ofdmMapP_quiet t nb _ _) fun _ => Quiet.bind (ofdmSpreadP_quiet nb _ _) fun _ => addPilotsP_quiet t _ _
end

theorem bitsToIQP_quiet (t : OfdmTexts) (f : ℝ) (CP : ℚ) (a : BitsArg) (pad : Bool) : Quiet (OfdmRun.bitsToIQP false t f CP a pad) := by
  have := subcarriersP_quiet t (complexNumbers f) a pad
  unfold OfdmRun.bitsToIQP; quiet

/-- With DSSS, MR-O-QPSK prints nothing up to the chips. -/
theorem oqpskChipsP_quiet (v : Bool) (a : Arg) (c : Console OqpskObj) (h : c.obj.params.sm = 0) : ((oqpskChipsP v a).call c).2.out = c.out := by
  unfold oqpskChipsP
  rw [call_bind, call_quietly, call_lift]
  cases checkBinaryArray a with
  | error e => rfl
  | ok m =>
    rw [seqR_ok, call_bind, call_quietly, call_get, seqR_ok]
    dsimp only
    simp only [h, if_true, or_true]
    have : ∀ (m : PyM (Console OqpskObj) Bits) (c : Console OqpskObj), Quiet m → (m.call c).2.out = c.out := fun m c h => h c
    refine this _ ⟨c.obj, c.out⟩ ?_
    repeat' (first | exact Quiet.quietly _ | refine Quiet.bind ?_ (fun _ => ?_))

theorem oqpskBitsToIQP_quiet (a : Arg) (c : Console OqpskObj) (h : c.obj.params.sm = 0) : ((oqpskBitsToIQP false a).call c).2.out = c.out := by
  have := oqpskChipsP_quiet false a c h
  unfold oqpskBitsToIQP
  rw [call_bind]
  rcases hm : (oqpskChipsP false a).call c with ⟨r, c1⟩
  rw [hm] at this
  cases r with
  | error e => exact this
  | ok ch =>
    rw [seqR_ok, ← this]
    rw [call_bind, call_quietly, call_get, seqR_ok]
    exact oqpskModulatorP_quiet c1.obj.params ch c1.obj.params.sps ⟨c1.obj, c1.out⟩

end SunPhy
