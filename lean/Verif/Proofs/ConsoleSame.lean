import Verif.Proofs.Console
/-
The printing methods shadow the methods of the other models.
-/
namespace SunPhy
open PyM
variable {σ α β : Type}

theorem lift_bind (r : Res α) (f : α → Res β) : (PyM.lift (r >>= f) : PyM σ β) = PyM.lift r >>= fun a => PyM.lift (f a) := by
  apply PyM.ext
  intro s
  rw [call_bind, call_lift, call_lift]
  cases r <;> rfl

theorem lift_ok (a : α) : (PyM.lift (Except.ok a) : PyM σ α) = pure a := rfl
theorem lift_error (e : PyErr) : (PyM.lift (Except.error e) : PyM σ α) = throw e := rfl
theorem lift_ite (p : Prop) [Decidable p] (a b : Res α) : (PyM.lift (if p then a else b) : PyM σ α) = if p then PyM.lift a else PyM.lift b := by
  split <;> rfl

theorem shadows_if_say (v : Bool) (s : String) (p : Prop) [Decidable p] : Shadows (if p then say v s else pure () : PyM (Console σ) Unit) (pure ()) := by
  split
  · exact Shadows.say v s
  · exact Shadows.pure ()

theorem tpcP_shadows (v : Bool) (m : Bits) (N : Nat) : Shadows (tpcP v m N : PyM (Console σ) _) (PyM.lift (tpc m N)) := by
  have key : ∀ mp : Bits, Shadows (do
        printLine s!"Splitting message {shape1 mp.length} -> {shape2 3 (mp.length / 3)}"
        let rows ← PyM.lift (hadamardEncoder N [everyNth 3 0 mp, everyNth 3 1 mp, everyNth 3 2 mp])
        match rows with
        | [r0, r1, r2] =>
          printLine s!"Applying Hadamard encoder {shape2 3 (mp.length / 3)} -> {shape2 3 r0.length}"
          let output := spcEncoder r0 r1 r2
          printLine s!"Applying SPC encodee {shape2 3 r0.length} -> {shape2 output.length (output.headD []).length}"
          return output
        | _ => throw .ValueError : PyM (Console σ) (List (List Int))) (PyM.lift (do
        let rows ← hadamardEncoder N [everyNth 3 0 mp, everyNth 3 1 mp, everyNth 3 2 mp]
        match rows with
        | [r0, r1, r2] => return spcEncoder r0 r1 r2
        | _ => .error .ValueError)) := by
    intro mp
    rw [lift_bind]
    refine Shadows.step (Shadows.printLine _) (Shadows.bind (Shadows.lift _) fun rows => ?_)
    split
    · exact Shadows.step (Shadows.printLine _) (Shadows.step (Shadows.printLine _) (Shadows.lift _))
    · exact Shadows.lift _
  unfold tpcP tpc
  dsimp only
  rw [lift_ite]
  split
  · refine Shadows.step (Shadows.say v _) ?_
    split
    · exact Shadows.throw _
    · exact key _
  · split
    · exact Shadows.throw _
    · exact key _

theorem mdsssP_shadows (v : Bool) (m : Bits) (f : Nat) : Shadows (mdsssP v m f : PyM (Console σ) _) (PyM.lift (mdsss m f)) := by
  unfold mdsssP mdsss
  dsimp only
  rw [lift_bind]
  exact Shadows.step (Shadows.say v _) (Shadows.bind (tpcP_shadows v m _) fun b => Shadows.step (Shadows.say v _) (Shadows.lift _))

theorem oqpskChipsP_shadows (v : Bool) (a : Arg) : Shadows (oqpskChipsP v a) (oqpskChips a) := by
  unfold oqpskChipsP oqpskChips
  refine Shadows.bind (Shadows.quiet _) fun bits => Shadows.bind (Shadows.quiet _) fun p => ?_
  dsimp only
  simp only [quietly_bind, bind_assoc]
  repeat refine Shadows.bind (Shadows.quiet _) fun _ => ?_
  refine Shadows.ite ?_ ?_
  · repeat refine Shadows.bind (Shadows.quiet _) fun _ => ?_
    refine Shadows.ite ?_ ?_
    · repeat refine Shadows.bind (Shadows.quiet _) fun _ => ?_
      split
      · repeat refine Shadows.bind (Shadows.quiet _) fun _ => ?_
        exact Shadows.quiet _
      · repeat refine Shadows.bind (Shadows.quiet _) fun _ => ?_
        exact Shadows.quiet _
    · refine Shadows.bind (Shadows.quiet _) fun _ => Shadows.bind (Shadows.quiet _) fun _ => Shadows.bind (mdsssP_shadows v _ _) fun _ => ?_
      repeat refine Shadows.bind (Shadows.quiet _) fun _ => ?_
      exact Shadows.quiet _
  · repeat refine Shadows.bind (Shadows.quiet _) fun _ => ?_
    refine Shadows.ite ?_ ?_
    · repeat refine Shadows.bind (Shadows.quiet _) fun _ => ?_
      split
      · repeat refine Shadows.bind (Shadows.quiet _) fun _ => ?_
        exact Shadows.quiet _
      · repeat refine Shadows.bind (Shadows.quiet _) fun _ => ?_
        exact Shadows.quiet _
    · refine Shadows.bind (Shadows.quiet _) fun _ => Shadows.bind (Shadows.quiet _) fun _ => Shadows.bind (mdsssP_shadows v _ _) fun _ => ?_
      repeat refine Shadows.bind (Shadows.quiet _) fun _ => ?_
      exact Shadows.quiet _

theorem oqpskModulatorP_shadows (v : Bool) (p : OqpskParams) (chips : Bits) (sps : Nat) :
    Shadows (oqpskModulatorP v p chips sps : PyM (Console σ) _) (PyM.lift (oqpskModulator p chips sps)) := by
  unfold oqpskModulatorP oqpskModulator
  dsimp only
  simp only [lift_bind]
  refine Shadows.bind (Shadows.lift _) fun r => Shadows.step (Shadows.say v _) (Shadows.bind (Shadows.lift _) fun _ => Shadows.bind (Shadows.lift _) fun _ => Shadows.lift _)

theorem oqpskBitsToIQP_shadows (v : Bool) (a : Arg) : Shadows (oqpskBitsToIQP v a) (oqpskBitsToIQ a) :=
  Shadows.bind (oqpskChipsP_shadows v a) fun _ => Shadows.bind (Shadows.quiet _) fun _ => oqpskModulatorP_shadows v _ _ _

theorem oqpskBytesToIQP_shadows (v : Bool) (a : Arg) : Shadows (oqpskBytesToIQP v a) (oqpskBytesToIQ a) :=
  Shadows.bind (Shadows.quiet _) fun _ => oqpskBitsToIQP_shadows v _

theorem stfP_shadows (v : Bool) (p : OfdmParams) : Shadows (stfP v p) (PyM.lift p.stf) := by
  unfold stfP OfdmParams.stf
  dsimp only
  simp only [lift_bind]
  exact Shadows.step (Shadows.say v _) (Shadows.step (Shadows.say v _) (Shadows.bind (Shadows.lift _) fun _ => Shadows.bind (Shadows.lift _) fun _ =>
    Shadows.step (Shadows.say v _) (Shadows.lift _)))

theorem ltfP_shadows (v : Bool) (p : OfdmParams) : Shadows (ltfP v p) (PyM.lift p.ltf) := by
  unfold ltfP OfdmParams.ltf
  dsimp only
  simp only [lift_bind]
  exact Shadows.step (Shadows.say v _) (Shadows.step (Shadows.say v _) (Shadows.bind (Shadows.lift _) fun _ =>
    Shadows.step (Shadows.say v _) (Shadows.lift _)))

theorem ofdmPaddingP_shadows (v : Bool) (m : Bits) : Shadows (ofdmPaddingP v m) (ofdmPaddingM m) := by
  have e : ofdmPaddingM m = (do
      let o ← get
      let r ← ofdmPaddingM m
      let _ ← PyM.attr (·.N_PAD)
      return r) := by
    apply PyM.ext
    intro s
    unfold ofdmPaddingM
    simp only [call_bind, call_get, call_modify, call_pure, call_attr, seqR_ok]
  rw [e]
  unfold ofdmPaddingP
  exact Shadows.bind (Shadows.quiet _) fun _ => Shadows.bind (Shadows.quiet _) fun _ => Shadows.bind (Shadows.quiet _) fun _ =>
    Shadows.step (Shadows.say v _) (Shadows.step (Shadows.say v _) (Shadows.pure _))

theorem ofdmPhrP_shadows (v : Bool) (n : Nat) : Shadows (ofdmPhrP v n) (ofdmPhrM n) := by
  unfold ofdmPhrP ofdmPhrM
  exact Shadows.bind (Shadows.quiet _) fun _ => Shadows.step (Shadows.say v _) (Shadows.bind (Shadows.quiet _) fun _ =>
    Shadows.bind (Shadows.quiet _) fun _ => Shadows.bind (Shadows.quiet _) fun _ => Shadows.step (Shadows.say v _) (Shadows.bind (Shadows.quiet _) fun _ =>
    Shadows.bind (Shadows.quiet _) fun _ => Shadows.bind (Shadows.quiet _) fun _ => Shadows.step (Shadows.say v _) (Shadows.bind (Shadows.quiet _) fun _ =>
    Shadows.bind (Shadows.quiet _) fun _ => Shadows.bind (Shadows.quiet _) fun _ => Shadows.step (Shadows.say v _) (Shadows.bind (Shadows.quiet _) fun _ =>
    Shadows.step (Shadows.say v _) (Shadows.pure _)))))

theorem ofdmPayloadP_shadows (v : Bool) (m : Bits) (s : OfdmState) : Shadows (ofdmPayloadP v m s) (ofdmPayloadM m s) := by
  unfold ofdmPayloadP ofdmPayloadM
  exact Shadows.bind (Shadows.quiet _) fun _ => Shadows.bind (ofdmPaddingP_shadows v m) fun _ => Shadows.quiet _

theorem ofdmModBitsToIQP_shadows (v : Bool) (a : Arg) : Shadows (ofdmModBitsToIQP v a) (ofdmModBitsToIQ a) := by
  unfold ofdmModBitsToIQP ofdmModBitsToIQ
  exact Shadows.bind (Shadows.quiet _) fun _ => Shadows.bind (Shadows.quiet _) fun _ => Shadows.bind (stfP_shadows v _) fun _ =>
    Shadows.bind (ltfP_shadows v _) fun _ => Shadows.bind (ofdmPhrP_shadows v _) fun ⟨_, _⟩ => Shadows.bind (Shadows.quiet _) fun _ =>
    Shadows.bind (Shadows.quiet _) fun _ => Shadows.bind (ofdmPayloadP_shadows v _ _) fun _ => Shadows.pure _

theorem ofdmModBytesToIQP_shadows (v : Bool) (a : Arg) : Shadows (ofdmModBytesToIQP v a) (ofdmModBytesToIQ a) :=
  Shadows.bind (Shadows.quiet _) fun _ => ofdmModBitsToIQP_shadows v _

theorem raiseIf_true {c : Prop} [Decidable c] (h : c) (e : PyErr) : (raiseIf c e : PyM σ Unit) = throw e := by unfold raiseIf; rw [if_pos h]; rfl
theorem raiseIf_false {c : Prop} [Decidable c] (h : ¬ c) (e : PyErr) : (raiseIf c e : PyM σ Unit) = pure () := by unfold raiseIf; rw [if_neg h]; rfl
theorem throw_bind (e : PyErr) (f : α → PyM σ β) : (throw e : PyM σ α) >>= f = throw e := rfl
theorem lift_error_bind (e : PyErr) (f : α → PyM σ β) : (PyM.lift (Except.error e) : PyM σ α) >>= f = throw e := rfl

theorem ceilDiv_mul_sub (n L : Nat) (h : n % L = 0) : ceilDiv n L * L - n = 0 := by
  unfold ceilDiv
  rcases Nat.eq_zero_or_pos L with rfl | hL
  · simp
  · obtain ⟨k, rfl⟩ := Nat.dvd_of_mod_eq_zero h
    have : (L * k + L - 1) / L = k := by
      rw [show L * k + L - 1 = L * k + (L - 1) by omega, Nat.mul_add_div hL, Nat.div_eq_of_lt (by omega)]
      rfl
    rw [this, Nat.mul_comm]
    simp

theorem ofdmSplitP_shadows (v : Bool) (L : Int) (data : List ℚ) (pad : Bool) : Shadows (ofdmSplitP v L data pad : PyM (Console σ) _) (PyM.lift (ofdmSplitFull L data pad)) := by
  unfold ofdmSplitP ofdmSplitFull ofdmPadP
  dsimp only
  by_cases hL : L ≤ 0
  · rw [if_pos hL, raiseIf_true hL]
    cases pad
    · rw [show (if false = true ∧ L = 0 then Except.error PyErr.ZeroDivisionError else Except.error PyErr.ValueError : Res (Mat ℚ)) = .error .ValueError from
        if_neg (by simp), lift_error]
      by_cases h : L ≠ 0 ∧ data.length % L.natAbs ≠ 0
      · rw [raiseIf_true ⟨h.1, h.2, by simp⟩]
        exact Shadows.throw _
      · rw [raiseIf_false (fun k => h ⟨k.1, k.2.1⟩), pure_bind]
        exact Shadows.step (Shadows.say v _) (Shadows.throw _)
    · rw [raiseIf_false (by simp), pure_bind]
      refine Shadows.step (Shadows.say v _) ?_
      rw [if_pos rfl]
      by_cases h0 : L = 0
      · rw [if_pos ⟨rfl, h0⟩, raiseIf_true h0]
        exact Shadows.throw _
      · rw [if_neg (fun h => h0 h.2), raiseIf_false h0, pure_bind]
        by_cases h : data.length % L.natAbs ≠ 0
        · rw [raiseIf_true ⟨by omega, h⟩]
          exact Shadows.throw _
        · rw [raiseIf_false (fun k => h k.2), pure_bind, bind_assoc]
          exact Shadows.step (Shadows.say v _) (Shadows.throw _)
  · have e : L.natAbs = L.toNat := by omega
    rw [if_neg hL, e, raiseIf_false hL, raiseIf_false (show ¬ L = 0 by omega), raiseIf_false (show ¬ (L < 0 ∧ _) by omega)]
    simp only [pure_bind]
    by_cases h : data.length % L.toNat ≠ 0 ∧ ¬ pad = true
    · rw [if_pos h, raiseIf_true ⟨by omega, h.1, h.2⟩]
      exact Shadows.throw _
    · rw [if_neg h, raiseIf_false (fun k => h k.2), pure_bind]
      refine Shadows.step (Shadows.say v _) ?_
      cases pad
      · simp only [if_neg (show ¬ false = true by decide), pure_bind]
        exact Shadows.step (Shadows.say v _) (Shadows.pure _)
      · simp only [if_true, bind_assoc, pure_bind]
        exact Shadows.step (Shadows.say v _) (Shadows.step (Shadows.say v _) (Shadows.pure _))

section
variable [Mul α] [Zero α]

theorem ofdmMapP_shadows (v : Bool) (t : OfdmTexts) (nb : Numbers α) (k : ModKind) (M : Mat ℚ) :
    Shadows (ofdmMapP v t nb k M : PyM (Console σ) _) (PyM.lift (ofdmMapFull nb k M)) := by
  unfold ofdmMapP
  have e : (PyM.lift (ofdmMapFull nb k M) : PyM σ _) = PyM.lift (ofdmMapFull nb k M) >>= pure := by simp
  rw [e]
  exact Shadows.step (Shadows.say v _) (Shadows.step (Shadows.say v _) (Shadows.bind (Shadows.lift _) fun _ => Shadows.step (Shadows.say v _) (Shadows.pure _)))

theorem ofdmSpreadP_shadows (v : Bool) (nb : Numbers α) (sf : Nat) (M : Mat α) :
    Shadows (ofdmSpreadP v nb sf M : PyM (Console σ) _) (PyM.lift (ofdmSpreadFull nb sf M)) := by
  unfold ofdmSpreadP
  dsimp only
  split
  all_goals try refine Shadows.step (Shadows.say v _) ?_
  all_goals split
  all_goals try refine Shadows.step (Shadows.say v _) ?_
  all_goals split
  all_goals try refine Shadows.step (Shadows.say v _) ?_
  all_goals exact Shadows.lift _

/-- The object after the symbol loop. -/
def packRun (o : OfdmRun α) (r : Res (List (List α)) × Int × Int) : Res (List (List α)) × OfdmRun α := (r.1, { o with columnIndex := r.2.1, pn9 := r.2.2 })

/-- The symbol loop of the plain model as a method. -/
def symbolsM (N : Nat) (pv : Int → α) (pl : Pilots α) (avail : List Int) (vi : Nat) (cols : List (List α)) : PyM (OfdmRun α) (List (List α)) := fun o =>
  packRun o (addPilotsSymbolsI N pv pl avail vi o.columnIndex o.pn9 cols)

/-- The same loop with its steps separate. -/
def symbolsM' (N : Nat) (pv : Int → α) (pl : Pilots α) (avail : List Int) : Nat → List (List α) → PyM (OfdmRun α) (List (List α))
  | _, [] => pure []
  | vi, col :: cols => do
    let o ← get
    let set ← PyM.lift (match pilotSetAt pl.sets o.columnIndex with | some s => .ok s | none => .error .IndexError)
    let r := insertPilotsI N pv pl.values { channels := List.replicate N 0, available := avail, pn9 := o.pn9, valuesIndex := vi } set
    modify fun o => { o with pn9 := r.2 }
    let s ← PyM.lift r.1
    modify fun o => { o with columnIndex := o.columnIndex + 1 }
    if o.columnIndex + 1 ≥ pl.sets.length then
      modify fun o => { o with columnIndex := 0 }
    let ch ← PyM.lift (placeData N s.channels s.available col)
    let chs ← symbolsM' N pv pl avail s.valuesIndex cols
    return ch :: chs

theorem symbolsM_call (N : Nat) (pv : Int → α) (pl : Pilots α) (avail : List Int) (vi : Nat) (cols : List (List α)) (o : OfdmRun α) :
    (symbolsM N pv pl avail vi cols).call o = packRun o (addPilotsSymbolsI N pv pl avail vi o.columnIndex o.pn9 cols) := rfl

theorem symbolsM_eq (N : Nat) (pv : Int → α) (pl : Pilots α) (avail : List Int) (cols : List (List α)) (vi : Nat) :
    symbolsM' N pv pl avail vi cols = symbolsM N pv pl avail vi cols := by
  induction cols generalizing vi with
  | nil => rfl
  | cons col cols ih =>
    apply PyM.ext
    intro o
    rw [symbolsM_call]
    unfold symbolsM'
    simp only [call_bind, call_get, seqR_ok, call_lift]
    rw [addPilotsSymbolsI, addPilotsSymbolI]
    cases h1 : pilotSetAt pl.sets o.columnIndex with
    | none => rfl
    | some set =>
      simp only [seqR_ok, call_bind, call_modify, call_lift]
      rcases h2 : insertPilotsI N pv pl.values { channels := List.replicate N 0, available := avail, pn9 := o.pn9, valuesIndex := vi } set with ⟨r, g⟩
      cases r with
      | error e => rfl
      | ok s1 =>
        simp only [seqR_ok, call_bind, call_modify]
        have tail : ∀ o' : OfdmRun α, o'.stored = o.stored → o'.pn9 = g →
            (do let ch ← PyM.lift (placeData N s1.channels s1.available col)
                let chs ← symbolsM' N pv pl avail s1.valuesIndex cols
                return ch :: chs : PyM (OfdmRun α) _).call o' =
            packRun o (match (match placeData N s1.channels s1.available col with
                  | .error e => (.error e, o'.columnIndex, g)
                  | .ok ch => (.ok (ch, s1.valuesIndex), o'.columnIndex, g) : Res (List α × Nat) × Int × Int) with
              | (.error e, idx', g') => (.error e, idx', g')
              | (.ok (ch, vi'), idx', g') =>
                match addPilotsSymbolsI N pv pl avail vi' idx' g' cols with
                | (.error e, r) => (.error e, r)
                | (.ok chs, r) => (.ok (ch :: chs), r)) := by
          intro o' hs hg
          rw [call_bind, call_lift]
          cases h3 : placeData N s1.channels s1.available col with
          | error e =>
            subst hg
            show (_, o') = (_, (⟨o.stored, o'.columnIndex, o'.pn9⟩ : OfdmRun α))
            rw [← hs]
          | ok ch =>
            rw [seqR_ok, call_bind, ih, symbolsM_call, hg]
            simp only
            rcases addPilotsSymbolsI N pv pl avail s1.valuesIndex o'.columnIndex g cols with ⟨r, i, g2⟩
            cases r with
            | error e =>
              show (_, (⟨o'.stored, i, g2⟩ : OfdmRun α)) = _
              rw [hs]; rfl
            | ok chs =>
              show (_, (⟨o'.stored, i, g2⟩ : OfdmRun α)) = _
              rw [hs]; rfl
        by_cases hw : o.columnIndex + 1 ≥ pl.sets.length
        · rw [if_pos hw, if_pos hw, call_bind, call_modify, seqR_ok]
          exact tail _ rfl rfl
        · rw [if_neg hw, if_neg hw]
          exact tail _ rfl rfl

theorem addPilotsSymbolsP_shadows (v : Bool) (t : OfdmTexts) (N : Nat) (pv : Int → α) (pl : Pilots α) (avail : List Int) (d : List Char) (cols : List (List α)) (vi : Nat) :
    Shadows (addPilotsSymbolsP v t N pv pl avail d vi cols) (symbolsM' N pv pl avail vi cols) := by
  induction cols generalizing vi with
  | nil => exact Shadows.pure _
  | cons col cols ih =>
    unfold addPilotsSymbolsP symbolsM'
    refine Shadows.bind (Shadows.quiet _) fun o => Shadows.bind (Shadows.lift _) fun set => Shadows.step (Shadows.say v _) (Shadows.bind (Shadows.quiet _) fun _ =>
      Shadows.bind (Shadows.lift _) fun s => Shadows.bind (Shadows.quiet _) fun _ => ?_)
    dsimp only
    refine Shadows.ite ?_ ?_
    · exact Shadows.bind (Shadows.quiet _) fun _ => Shadows.step (Shadows.say v _) (Shadows.bind (Shadows.lift _) fun _ => Shadows.bind (ih _) fun _ => Shadows.pure _)
    · exact Shadows.bind (Shadows.lift _) fun _ => Shadows.bind (ih _) fun _ => Shadows.pure _

theorem addPilotsP_shadows (v : Bool) (t : OfdmTexts) (pv : Int → α) (M : Mat α) :
    Shadows (addPilotsP v t pv M) (fun o => o.addPilots pv M) := by
  have e : @Eq (PyM (OfdmRun α) (List (List α))) (fun o => o.addPilots pv M) (do
      let s := (← get).stored
      let avail ← PyM.lift (ofdmAvailable s.nFFT s.paddingLeft s.paddingRight)
      match s.pilots with
      | some pl => if pl.nPilots > 0 then symbolsM' s.nFFT pv pl avail 0 M.columns else
          PyM.lift (if M.rows = avail.length ∨ M.rows = 1 then M.columns.mapM (placeData s.nFFT (List.replicate s.nFFT 0) avail) else .error .ValueError)
      | none => PyM.lift (if M.rows = avail.length ∨ M.rows = 1 then M.columns.mapM (placeData s.nFFT (List.replicate s.nFFT 0) avail) else .error .ValueError)) := by
    apply PyM.ext
    intro o
    rw [call_bind, call_get, seqR_ok, call_bind, call_lift]
    show o.addPilots pv M = _
    unfold OfdmRun.addPilots
    cases ofdmAvailable o.stored.nFFT o.stored.paddingLeft o.stored.paddingRight with
    | error e => rfl
    | ok avail =>
      rw [seqR_ok]
      cases o.stored.pilots with
      | none => rfl
      | some pl =>
        dsimp only
        split
        · rw [symbolsM_eq]; rfl
        · rfl
  rw [e]
  unfold addPilotsP
  refine Shadows.bind (Shadows.quiet _) fun o => ?_
  dsimp only
  refine Shadows.step (Shadows.say v _) (Shadows.step (Shadows.say v _) (Shadows.step (Shadows.say v _) (Shadows.step (Shadows.say v _) (Shadows.step (Shadows.say v _)
    (Shadows.step (Shadows.say v _) (Shadows.step (Shadows.say v _) (Shadows.bind (Shadows.lift _) fun avail => ?_)))))))
  cases o.stored.pilots with
  | some pl =>
    dsimp only
    split
    · exact addPilotsSymbolsP_shadows ..
    · exact Shadows.lift _
  | none => exact Shadows.lift _

theorem subcarriersP_shadows (v : Bool) (t : OfdmTexts) (nb : Numbers α) (a : BitsArg) (pad : Bool) :
    Shadows (OfdmRun.subcarriersP v t nb a pad) (OfdmRun.subcarriers nb a pad) := by
  unfold OfdmRun.subcarriersP OfdmRun.subcarriers
  exact Shadows.bind (Shadows.lift _) fun _ => Shadows.bind (Shadows.quiet _) fun _ => Shadows.bind (ofdmSplitP_shadows v _ _ _) fun _ =>
    Shadows.bind (ofdmMapP_shadows v t nb _ _) fun _ => Shadows.bind (ofdmSpreadP_shadows v nb _ _) fun _ => addPilotsP_shadows v t _ _

end

theorem bitsToIQP_shadows (v : Bool) (t : OfdmTexts) (f : ℝ) (CP : ℚ) (a : BitsArg) (pad : Bool) :
    Shadows (OfdmRun.bitsToIQP v t f CP a pad) (OfdmRun.bitsToIQ f CP a pad) := by
  have e : OfdmRun.bitsToIQ f CP a pad = (do
      let cols ← OfdmRun.subcarriers (complexNumbers f) a pad
      let _ ← get
      return cols.flatMap fun col => cyclicPrefix CP (ofdmIfft col)) := by
    apply PyM.ext
    intro o
    unfold OfdmRun.bitsToIQ
    rw [call_bind, call_bind]
    rcases (OfdmRun.subcarriers (complexNumbers f) a pad).call o with ⟨r, o'⟩
    cases r <;> rfl
  rw [e]
  unfold OfdmRun.bitsToIQP
  refine Shadows.bind (subcarriersP_shadows v t _ a pad) fun cols => Shadows.bind (Shadows.quiet _) fun o => Shadows.step (Shadows.say v _) ?_
  dsimp only
  split
  · exact Shadows.step (Shadows.say v _) (Shadows.step (Shadows.say v _) (Shadows.pure _))
  · exact Shadows.pure _

end SunPhy
