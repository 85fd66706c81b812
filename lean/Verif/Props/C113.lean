import Verif.Proofs.Concurrent
import Verif.Props.C32
import Verif.Props.C67
import Verif.Props.C69
import Verif.Proofs.OfdmInj
/-
C113 — calls from several threads: modulators are independent of each other; a modulator shared by two threads stays usable, but the two calls can mix their messages without any error.
-/
namespace SunPhy.C113
open SunPhy Spec Thr C32

/-- The methods as threads. -/
noncomputable def fskRunT (rn : Rat → Rat) : Call → Thr FskObj (List ℂ × ℚ)
  | .bits a => fskBitsToIQT rn a
  | .bytes a => fskBytesToIQT rn a
noncomputable def oqpskRunT : Call → Thr OqpskObj (List ℂ × ℚ)
  | .bits a => oqpskBitsToIQT a
  | .bytes a => oqpskBytesToIQT a
noncomputable def ofdmRunT : Call → Thr OfdmObj (List ℂ × ℚ)
  | .bits a => ofdmModBitsToIQT a
  | .bytes a => ofdmModBytesToIQT a

theorem fskRun_sim (rn : Rat → Rat) (c : Call) : Sim (fskRunT rn c) (fskRun rn c) := by
  cases c with
  | bits a => exact fsk_sim rn a
  | bytes a => exact Sim.bind (sim_lift _) fun _ => fsk_sim rn _

theorem oqpskRun_sim (c : Call) : Sim (oqpskRunT c) (oqpskRun c) := by
  cases c with
  | bits a => exact oqpsk_sim a
  | bytes a => exact Sim.bind (sim_lift _) fun _ => oqpsk_sim _

theorem ofdmRun_sim (c : Call) : Sim (ofdmRunT c) (ofdmRun c) := by
  cases c with
  | bits a => exact ofdm_sim a
  | bytes a => exact Sim.bind (sim_lift _) fun _ => ofdm_sim _

/-! ### Separate objects -/

/-- A call on an object of its own. -/
inductive Job
  | fsk (rn : Rat → Rat) (o : FskObj) (c : Call)
  | oqpsk (o : OqpskObj) (c : Call)
  | ofdm (o : OfdmObj) (c : Call)

/-- The class of the object. -/
def Job.Obj : Job → Type
  | .fsk .. => FskObj
  | .oqpsk .. => OqpskObj
  | .ofdm .. => OfdmObj

/-- The call as a thread, and its object. -/
noncomputable def Job.start : (j : Job) → Thr j.Obj (List ℂ × ℚ) × j.Obj
  | .fsk rn o c => (fskRunT rn c, o)
  | .oqpsk o c => (oqpskRunT c, o)
  | .ofdm o c => (ofdmRunT c, o)

/-- Result and object of the same call without other threads. -/
noncomputable def Job.alone : (j : Job) → Res (List ℂ × ℚ) × j.Obj
  | .fsk rn o c => (fskRun rn c).call o
  | .oqpsk o c => (oqpskRun c).call o
  | .ofdm o c => (ofdmRun c).call o

theorem Job.run_alone (j : Job) : j.start.1.run j.start.2 = j.alone := by
  cases j with
  | fsk rn o c => exact fskRun_sim rn c o
  | oqpsk o c => exact oqpskRun_sim c o
  | ofdm o c => exact ofdmRun_sim c o

/-- **C113 (separate objects).**  Any number of calls on modulators of any kinds, interleaved in any way: a call that has finished has the result, and leaves its object in the state, that it
has when it runs alone; and every call finishes after a number of its own steps that does not depend on the schedule. -/
theorem C113_separate {ι : Type} [DecidableEq ι] (jobs : ι → Job) (i : ι) :
    (∀ (sched : List ι) (r : Res (List ℂ × ℚ)) (o : (jobs i).Obj), sched.foldl stepOwn (fun i => (jobs i).start) i = (.done r, o) → (r, o) = (jobs i).alone) ∧
    ∃ n, ∀ sched : List ι, n ≤ sched.count i → sched.foldl stepOwn (fun i => (jobs i).start) i = (.done (jobs i).alone.1, (jobs i).alone.2) := by
  constructor
  · intro sched r o h
    have := own_run sched (fun i => (jobs i).start) i
    rw [h, (jobs i).run_alone] at this
    exact this
  · refine ⟨(jobs i).start.1.length (jobs i).start.2, fun sched hs => ?_⟩
    have hr := own_run sched (fun i => (jobs i).start) i
    have hl := own_length sched (fun i => (jobs i).start) i
    rw [(jobs i).run_alone] at hr
    generalize sched.foldl stepOwn (fun i => (jobs i).start) i = c at *
    obtain ⟨t, o⟩ := c
    have hz : t.length o = 0 := by simp only at hl; omega
    have ht := length_zero hz
    simp only at hr
    rw [hr] at ht
    rw [ht, ← hr]
    congr 1
    rw [ht]
    rfl

/-! ### One object: later calls -/

theorem fskRun_keeps (rn : Rat → Rat) (c : Call) : (fskRunT rn c).Keeps FskObj.params := by
  cases c with
  | bits a => exact fsk_keeps rn a
  | bytes a => exact Keeps.bind (keeps_lift _) fun _ => fsk_keeps rn _

theorem oqpskRun_keeps (c : Call) : (oqpskRunT c).Keeps OqpskObj.params := by
  cases c with
  | bits a => exact oqpsk_keeps a
  | bytes a => exact Keeps.bind (keeps_lift _) fun _ => oqpsk_keeps _

theorem ofdmRun_keeps (c : Call) : (ofdmRunT c).Keeps OfdmObj.params := by
  cases c with
  | bits a => exact ofdm_keeps a
  | bytes a => exact Keeps.bind (keeps_lift _) fun _ => ofdm_keeps _

/-- **C113 (MR-FSK, afterwards).**  However any number of calls on one object were interleaved, and even if some of them never finished, the next call (alone) gives the result of a fresh object. -/
theorem C113_fsk_after {ι : Type} [DecidableEq ι] (rn : Rat → Rat) (o : FskObj) (calls : ι → Call) (sched : List ι) (c : Call) :
    ((fskRun rn c).call (sched.foldl stepShared (fun i => fskRunT rn (calls i), o)).2).1 = ((fskRun rn c).call o).1 := by
  have e := keeps_shared sched (fun i => fskRunT rn (calls i), o) (π := FskObj.params) fun i => fskRun_keeps rn _
  simp only at e
  generalize (sched.foldl stepShared (fun i => fskRunT rn (calls i), o)).2 = o' at *
  cases c with
  | bits a =>
    have r1 := (fskBitsToIQ_result rn a o').1
    rw [e] at r1
    exact r1.trans (fskBitsToIQ_result rn a o).1.symm
  | bytes a =>
    have r1 := (fskBytesToIQ_result rn a o').1
    rw [e] at r1
    exact r1.trans (fskBytesToIQ_result rn a o).1.symm

/-- **C113 (MR-O-QPSK, afterwards).** -/
theorem C113_oqpsk_after {ι : Type} [DecidableEq ι] (o : OqpskObj) (calls : ι → Call) (sched : List ι) (c : Call) :
    ((oqpskRun c).call (sched.foldl stepShared (fun i => oqpskRunT (calls i), o)).2).1 = ((oqpskRun c).call o).1 := by
  have e := keeps_shared sched (fun i => oqpskRunT (calls i), o) (π := OqpskObj.params) fun i => oqpskRun_keeps _
  simp only at e
  generalize (sched.foldl stepShared (fun i => oqpskRunT (calls i), o)).2 = o' at *
  cases c with
  | bits a =>
    have r1 := (oqpskBitsToIQ_result a o').1
    rw [e] at r1
    exact r1.trans (oqpskBitsToIQ_result a o).1.symm
  | bytes a =>
    have r1 := (oqpskBytesToIQ_result a o').1
    rw [e] at r1
    exact r1.trans (oqpskBytesToIQ_result a o).1.symm

theorem ofdm_result_params {o o' : OfdmObj} (h : Supported o.params) (e : o'.params = o.params) (c : Call) : ((ofdmRun c).call o').1 = ((ofdmRun c).call o).1 := by
  cases c with
  | bits a =>
    have r1 := (bitsToIQ_result (o := o') (by rw [e]; exact h) a).1
    rw [e] at r1
    exact r1.trans (bitsToIQ_result h a).1.symm
  | bytes a =>
    have r1 := (bytesToIQ_result (o := o') (by rw [e]; exact h) a).1
    rw [e] at r1
    exact r1.trans (bytesToIQ_result h a).1.symm

/-- **C113 (MR-OFDM, afterwards).** -/
theorem C113_ofdm_after {ι : Type} [DecidableEq ι] (o : OfdmObj) (h : Supported o.params) (calls : ι → Call) (sched : List ι) (c : Call) :
    ((ofdmRun c).call (sched.foldl stepShared (fun i => ofdmRunT (calls i), o)).2).1 = ((ofdmRun c).call o).1 := by
  have e := keeps_shared sched (fun i => ofdmRunT (calls i), o) (π := OfdmObj.params) fun i => ofdmRun_keeps _
  exact ofdm_result_params h e c

/-! ### One object: mixed messages -/

/-- A call whose last part only reads, interrupted by another one with the same last part. -/
theorem mixed {σ α γ δ : Type} (t : Thr σ γ) (u : Thr σ δ) (rest : Thr σ α) (hrest : ∀ s, (rest.run s).2 = s) (o : σ) (v : γ) (s1 : σ)
    (ht : t.run o = (.ok v, s1)) (y : α) (hu : ((u.bind fun _ => rest).run s1).1 = .ok y) :
    ∃ sched : List Bool, let c := sched.foldl stepShared (fun i : Bool => if i then u.bind (fun _ => rest) else t.bind (fun _ => rest), o)
      c.1 false = .done (.ok y) ∧ c.1 true = .done (.ok y) := by
  obtain ⟨sched, h1, h2⟩ := interrupted (fun i : Bool => if i then u.bind (fun _ => rest) else t.bind (fun _ => rest), o) false true (by decide) t (fun _ => rest) v s1 rfl ht
  refine ⟨sched, ?_⟩
  simp only [if_true] at h1 h2
  rw [run_bind] at hu h1 h2
  generalize hq : u.run s1 = q at hu h1 h2
  obtain ⟨r, s2⟩ := q
  cases r with
  | error e => cases hu
  | ok w =>
    simp only at hu h1 h2
    rw [hrest] at h1
    rw [hu] at h1 h2
    exact ⟨h1, h2⟩

theorem ok_of_bind {σ α γ : Type} {t : Thr σ γ} {g : γ → Thr σ α} {o : σ} {x : α} (h : ((t.bind g).run o).1 = .ok x) : ∃ v s1, t.run o = (.ok v, s1) := by
  rw [run_bind] at h
  generalize t.run o = q at h
  obtain ⟨r, s⟩ := q
  cases r with
  | error e => cases h
  | ok v => exact ⟨v, s, rfl⟩

theorem Keeps.run {σ α γ : Type} {π : σ → γ} {t : Thr σ α} (h : t.Keeps π) (s : σ) : π (t.run s).2 = π s := by
  induction t generalizing s with
  | done r => rfl
  | read k ih => exact ih s (h s) s
  | write f k ih => rw [show (Thr.write f k).run s = k.run (f s) from rfl, ih h.2, h.1]

/-- The first part of the MR-FSK methods: everything up to the assignment of the frame's bits. -/
noncomputable def fskFirst : Call → Thr FskObj Unit
  | .bits a => fskFillT a
  | .bytes a => (Thr.lift (toBinaryArray a)).bind fun m => fskFillT (bitsArg m)

noncomputable def fskRest (rn : Rat → Rat) : Thr FskObj (List ℂ × ℚ) :=
  (Thr.attr (·.binarySignal)).bind fun b => Thr.get.bind fun o => Thr.lift (fskModulator rn o.params b 20)

theorem fsk_split (rn : Rat → Rat) (c : Call) : fskRunT rn c = (fskFirst c).bind fun _ => fskRest rn := by
  cases c with
  | bits a => exact bind_assoc' _ _ _
  | bytes a =>
    show (Thr.lift (toBinaryArray a)).bind (fun m => (fskBinaryT (bitsArg m)).bind _) = _
    unfold fskFirst
    rw [bind_assoc']
    congr 1
    funext m
    exact bind_assoc' _ _ _

theorem fskFirst_keeps (c : Call) : (fskFirst c).Keeps FskObj.params := by
  have key : ∀ a, (fskFillT a).Keeps FskObj.params := by
    intro a
    unfold fskFillT
    dsimp only
    repeat' keeps1
  cases c with
  | bits a => exact key a
  | bytes a => exact Keeps.bind (keeps_lift _) fun _ => key _

/-- **C113 (MR-FSK, one object in two threads).**  For any two messages that the modulator accepts there is an interleaving in which both calls return the samples of the second message,
and neither raises an exception. -/
theorem C113_fsk_race (rn : Rat → Rat) (o : FskObj) (a b : Call) (x y : List ℂ × ℚ) (ha : ((fskRun rn a).call o).1 = .ok x) (hb : ((fskRun rn b).call o).1 = .ok y) :
    ∃ sched : List Bool, let c := sched.foldl stepShared (fun i : Bool => fskRunT rn (if i then b else a), o)
      c.1 false = .done (.ok y) ∧ c.1 true = .done (.ok y) := by
  rw [← fskRun_sim rn a o, fsk_split] at ha
  obtain ⟨v, s1, h1⟩ := ok_of_bind ha
  have hp : s1.params = o.params := by have := Keeps.run (fskFirst_keeps a) o; rw [h1] at this; exact this
  have hb1 : ((fskRun rn b).call s1).1 = .ok y := by
    rw [← hb]
    cases b with
    | bits a => have := (fskBitsToIQ_result rn a s1).1; rw [hp] at this; exact this.trans (fskBitsToIQ_result rn a o).1.symm
    | bytes a => have := (fskBytesToIQ_result rn a s1).1; rw [hp] at this; exact this.trans (fskBytesToIQ_result rn a o).1.symm
  rw [← fskRun_sim rn b s1, fsk_split] at hb1
  obtain ⟨sched, h⟩ := mixed (fskFirst a) (fskFirst b) (fskRest rn) (fun s => by
    show ((Thr.bind _ _).run s).2 = s
    rw [run_bind]
    unfold Thr.attr Thr.run
    simp only
    cases s.binarySignal <;> rfl) o v s1 h1 y hb1
  refine ⟨sched, ?_⟩
  have e : (fun i : Bool => fskRunT rn (if i then b else a)) = fun i : Bool => if i then (fskFirst b).bind (fun _ => fskRest rn) else (fskFirst a).bind (fun _ => fskRest rn) := by
    funext i
    rw [fsk_split]
    cases i <;> rfl
  rw [e]
  exact h

/-- The first part of the MR-O-QPSK methods: everything up to the assignment of the chips. -/
noncomputable def oqpskFirst : Call → Thr OqpskObj Unit
  | .bits a => oqpskFillT a
  | .bytes a => (Thr.lift (toBinaryArray a)).bind fun m => oqpskFillT (bitsArg m)

noncomputable def oqpskRest : Thr OqpskObj (List ℂ × ℚ) :=
  (Thr.attr (·.cPPDU)).bind fun chips => Thr.get.bind fun o => Thr.lift (oqpskModulator o.params chips o.params.sps)

theorem oqpsk_split (c : Call) : oqpskRunT c = (oqpskFirst c).bind fun _ => oqpskRest := by
  cases c with
  | bits a => exact bind_assoc' _ _ _
  | bytes a =>
    show (Thr.lift (toBinaryArray a)).bind (fun m => (oqpskChipsT (bitsArg m)).bind _) = _
    unfold oqpskFirst
    rw [bind_assoc']
    congr 1
    funext m
    exact bind_assoc' _ _ _

theorem oqpskFirst_keeps (c : Call) : (oqpskFirst c).Keeps OqpskObj.params := by
  have key : ∀ a, (oqpskFillT a).Keeps OqpskObj.params := by
    intro a
    unfold oqpskFillT
    dsimp only
    repeat' keeps1
  cases c with
  | bits a => exact key a
  | bytes a => exact Keeps.bind (keeps_lift _) fun _ => key _

/-- **C113 (MR-O-QPSK, one object in two threads).** -/
theorem C113_oqpsk_race (o : OqpskObj) (a b : Call) (x y : List ℂ × ℚ) (ha : ((oqpskRun a).call o).1 = .ok x) (hb : ((oqpskRun b).call o).1 = .ok y) :
    ∃ sched : List Bool, let c := sched.foldl stepShared (fun i : Bool => oqpskRunT (if i then b else a), o)
      c.1 false = .done (.ok y) ∧ c.1 true = .done (.ok y) := by
  rw [← oqpskRun_sim a o, oqpsk_split] at ha
  obtain ⟨v, s1, h1⟩ := ok_of_bind ha
  have hp : s1.params = o.params := by have := Keeps.run (oqpskFirst_keeps a) o; rw [h1] at this; exact this
  have hb1 : ((oqpskRun b).call s1).1 = .ok y := by
    rw [← hb]
    cases b with
    | bits a => have := (oqpskBitsToIQ_result a s1).1; rw [hp] at this; exact this.trans (oqpskBitsToIQ_result a o).1.symm
    | bytes a => have := (oqpskBytesToIQ_result a s1).1; rw [hp] at this; exact this.trans (oqpskBytesToIQ_result a o).1.symm
  rw [← oqpskRun_sim b s1, oqpsk_split] at hb1
  obtain ⟨sched, h⟩ := mixed (oqpskFirst a) (oqpskFirst b) oqpskRest (fun s => by
    show ((Thr.bind _ _).run s).2 = s
    rw [run_bind]
    unfold Thr.attr Thr.run
    simp only
    cases s.cPPDU <;> rfl) o v s1 h1 y hb1
  refine ⟨sched, ?_⟩
  have e : (fun i : Bool => oqpskRunT (if i then b else a)) = fun i : Bool => if i then (oqpskFirst b).bind (fun _ => oqpskRest) else (oqpskFirst a).bind (fun _ => oqpskRest) := by
    funext i
    rw [oqpsk_split]
    cases i <;> rfl
  rw [e]
  exact h

/-! #### MR-OFDM -/

/-- Evaluation of threads. -/
theorem run_bind' {σ α β : Type} (t : Thr σ α) (g : α → Thr σ β) (s : σ) : (t >>= g).run s =
    match t.run s with
    | (.ok v, s') => (g v).run s'
    | (.error e, s') => (.error e, s') := run_bind t g s
theorem run_lift {σ α : Type} (r : Res α) (s : σ) : (Thr.lift r : Thr σ α).run s = (r, s) := rfl
theorem run_get {σ : Type} (s : σ) : (Thr.get : Thr σ σ).run s = (.ok s, s) := rfl
theorem run_pure {σ α : Type} (v : α) (s : σ) : (pure v : Thr σ α).run s = (.ok v, s) := rfl
theorem run_modify {σ : Type} (f : σ → σ) (s : σ) : (Thr.modify f).run s = (.ok (), f s) := rfl
theorem run_attr {σ α : Type} (f : σ → Option α) (s : σ) : (Thr.attr f).run s = (match f s with | some v => .ok v | none => .error .AttributeError, s) := by
  unfold Thr.attr Thr.run
  simp only
  cases f s <;> rfl

/-- The first part of `bitsToIQ` on an acceptable message. -/
theorem ofdmFill_run {o : OfdmObj} (h : Supported o.params) {a : Arg} {m : Bits} (ha : checkBinaryArray a = .ok m) (h1 : 1 ≤ m.length / 8) (h2 : m.length / 8 ≤ 2047) :
    ∃ o', (ofdmFillT a).run o = (.ok (ofdmFs o.params, o.params, stfIQ o.params ++ ltfIQ o.params ++ symbolsIQ (headerSyms o.params (m.length / 8)),
      stateAfter (optPilots ℂ o.params.option) OfdmState.init (headerSymbols o.params)), o') ∧ o'.params = o.params := by
  have hh := headerM_ok h (n := m.length) h1 h2
  rw [← ofdmPhr_sim] at hh
  have e := (payload_enc h m).1
  unfold OfdmParams.payloadEncoded OfdmParams.payloadScrambled at e
  simp only at e
  unfold ofdmFillT ofdmPayloadFillT ofdmInterleaverT ofdmPaddingT
  simp only [run_bind', run_lift, run_get, run_modify, run_attr, run_pure, ha, stf_ok h, ltf_ok h, hh, e]
  exact ⟨_, rfl, rfl⟩

theorem ofdmPayload_run (p : OfdmParams) (m : OfdmState) (s : OfdmObj) : ((ofdmPayloadIQT p m).run s).2 = s := by
  unfold ofdmPayloadIQT
  simp only [run_bind', run_lift, run_attr]
  cases s.payload_interleaved <;> rfl

theorem header_length {p : OfdmParams} (h : Supported p) {n : Nat} (h1 : 1 ≤ n) (h2 : n ≤ 2047) :
    (stfIQ p ++ ltfIQ p ++ symbolsIQ (headerSyms p n)).length =
      5 * Ref.nfft p.option + 5 * Ref.nfft p.option / 2 + Ref.headerCount p * (5 * Ref.nfft p.option / 4) := by
  obtain ⟨f1, f2⟩ := fft_facts p.option (by have := option_cases h; simp; omega)
  obtain ⟨-, r2, -, -, -, -, r7, -⟩ := ref_tables p (mem_allSupported h)
  have g1 := goodMod h (lowestMcs_le p.option) ℂ
  have lenH : (symbolsIQ (headerSyms p n)).length = headerSymbols p * (5 * (fftSize p.option / 4)) := by
    unfold headerSyms
    rw [symbolsIQ_length (N := fftSize p.option) (by omega) f2 _ fun c hc => streamSymbols_size g1 _ _ _ hc, streamSymbols_length,
      headerCoded_length h h1 h2, Nat.mul_div_cancel _ g1.pos]
  rw [List.length_append, List.length_append, lenH, C67.stf_ref h, C67.ltf_ref h, r7, ← r2,
    show 5 * (fftSize p.option / 4) = 5 * fftSize p.option / 4 by omega]
  simp [Ref.stf, Ref.ltf, ← r2]

/-- **C113 (MR-OFDM, one object in two threads).**  For any two messages that the modulator accepts there is an interleaving in which the first call returns a frame with its own training
fields and header but the payload of the second message, without an exception; the second call is not affected. -/
theorem C113_ofdm_race (o : OfdmObj) (h : Supported o.params) (a b : Arg) (m n : Bits) (ha : checkBinaryArray a = .ok m) (hb : checkBinaryArray b = .ok n)
    (hm : 1 ≤ m.length / 8 ∧ m.length / 8 ≤ 2047) (hn : 1 ≤ n.length / 8 ∧ n.length / 8 ≤ 2047) :
    let p := o.params
    let H := 5 * Ref.nfft p.option + 5 * Ref.nfft p.option / 2 + Ref.headerCount p * (5 * Ref.nfft p.option / 4)
    ∃ sched : List Bool, let c := sched.foldl stepShared (fun i : Bool => ofdmModBitsToIQT (if i then b else a), o)
      c.1 false = .done (.ok ((Ref.frame p m).take H ++ (Ref.frame p n).drop H, Ref.sampleRate p.option)) ∧
      c.1 true = .done (.ok (Ref.frame p n, Ref.sampleRate p.option)) := by
  intro p H
  obtain ⟨s1, e1, hp1⟩ := ofdmFill_run h ha hm.1 hm.2
  obtain ⟨s2, e2, hp2⟩ := ofdmFill_run (o := s1) (by rw [hp1]; exact h) hb hn.1 hn.2
  rw [hp1] at e2 hp2
  obtain ⟨o3, e3, hp3⟩ := C67.C67_reference s1 (by rw [hp1]; exact h) b n hb hn.1 hn.2
  rw [hp1] at e3 hp3
  have fm := bitsToIQ_ok h ha hm.1 hm.2
  have fm' := C67.C67_reference o h a m ha hm.1 hm.2
  have frm : frameIQ p m = Ref.frame p m ∧ ofdmFs p = Ref.sampleRate p.option := by
    obtain ⟨u, hu, -⟩ := fm
    obtain ⟨w, hw, -⟩ := fm'
    rw [hu] at hw
    exact Prod.mk.inj (Except.ok.inj (Prod.mk.inj hw).1)
  have lm := header_length h (n := m.length / 8) hm.1 hm.2
  have ln := header_length h (n := n.length / 8) hn.1 hn.2
  rw [← ofdm_sim] at e3
  have e3' := e3
  change ((ofdmFillT b).bind _).run s1 = _ at e3'
  rw [run_bind, e2] at e3'
  simp only at e3'
  rw [run_bind'] at e3'
  have hq := ofdmPayload_run o.params (stateAfter (optPilots ℂ o.params.option) OfdmState.init (headerSymbols o.params)) s2
  generalize hz : (ofdmPayloadIQT o.params (stateAfter (optPilots ℂ o.params.option) OfdmState.init (headerSymbols o.params))).run s2 = z at e3' hq
  obtain ⟨r, s⟩ := z
  cases r with
  | error e => cases (Prod.mk.inj e3').1
  | ok pay =>
    simp only at hq
    subst hq
    obtain ⟨e4, e5⟩ := Prod.mk.inj e3'
    obtain ⟨e4, -⟩ := Prod.mk.inj (Except.ok.inj e4)
    have key : stfIQ o.params ++ ltfIQ o.params ++ symbolsIQ (headerSyms o.params (m.length / 8)) ++ pay = (Ref.frame p m).take H ++ (Ref.frame p n).drop H := by
      rw [← e4, List.drop_left' ln, ← frm.1]
      unfold frameIQ
      rw [List.take_left' lm]
    obtain ⟨sched, g1, g2⟩ := interrupted (fun i : Bool => ofdmModBitsToIQT (if i then b else a), o) false true (by decide) (ofdmFillT a) _ _ s1 rfl e1
    refine ⟨sched, ?_, ?_⟩
    · rw [g1]
      have es : ((ofdmModBitsToIQT b).run s1).2 = s := by rw [e3]; exact e5.symm
      simp only [if_true]
      rw [es, run_bind', hz]
      simp only
      rw [run_pure]
      simp only
      rw [key]
      exact congrArg (fun f => Thr.done (Except.ok (_, f))) frm.2
    · rw [g2]
      simp only [if_true]
      rw [e3]

theorem frame_parts {p : OfdmParams} (h : Supported p) {m : Bits} (hm : 1 ≤ m.length / 8 ∧ m.length / 8 ≤ 2047) : frameIQ p m = Ref.frame p m := by
  have e : checkBinaryArray (bitsArg m) = .ok m := C03.C03_identity m (by rintro rfl; simp at hm)
  obtain ⟨u, hu, -⟩ := bitsToIQ_ok (o := ⟨p, none, none, none, none, none, none, none, none, none, none⟩) h e hm.1 hm.2
  obtain ⟨w, hw, -⟩ := C67.C67_reference ⟨p, none, none, none, none, none, none, none, none, none, none⟩ h _ m e hm.1 hm.2
  rw [hu] at hw
  exact (Prod.mk.inj (Except.ok.inj (Prod.mk.inj hw).1)).1

/-- **C113 (MR-OFDM, consequence).**  If the two messages have the same number of bits and differ, the first call can return the complete frame of the other message, which is not its own frame. -/
theorem C113_ofdm_wrong (o : OfdmObj) (h : Supported o.params) (a b : Arg) (m n : Bits) (ha : checkBinaryArray a = .ok m) (hb : checkBinaryArray b = .ok n)
    (hl : m.length = n.length) (hne : m ≠ n) (hm : 1 ≤ m.length / 8 ∧ m.length / 8 ≤ 2047) :
    Ref.frame o.params n ≠ Ref.frame o.params m ∧
    ∃ sched : List Bool, let c := sched.foldl stepShared (fun i : Bool => ofdmModBitsToIQT (if i then b else a), o)
      c.1 false = .done (.ok (Ref.frame o.params n, Ref.sampleRate o.params.option)) ∧
      c.1 true = .done (.ok (Ref.frame o.params n, Ref.sampleRate o.params.option)) := by
  have hn : 1 ≤ n.length / 8 ∧ n.length / 8 ≤ 2047 := hl ▸ hm
  constructor
  · intro e
    rw [← frame_parts h hm, ← frame_parts h hn] at e
    exact hne (payloadCoded_inj h hl (frameIQ_inj h hn.1 hn.2 hm.1 hm.2 e).2.symm)
  · obtain ⟨sched, h1, h2⟩ := C113_ofdm_race o h a b m n ha hb hm hn
    refine ⟨sched, ?_, h2⟩
    refine h1.trans ?_
    have lm := header_length h (n := n.length / 8) hn.1 hn.2
    have e : (Ref.frame o.params m).take (5 * Ref.nfft o.params.option + 5 * Ref.nfft o.params.option / 2 + Ref.headerCount o.params * (5 * Ref.nfft o.params.option / 4)) =
        (Ref.frame o.params n).take (5 * Ref.nfft o.params.option + 5 * Ref.nfft o.params.option / 2 + Ref.headerCount o.params * (5 * Ref.nfft o.params.option / 4)) := by
      rw [← frame_parts h hm, ← frame_parts h hn]
      unfold frameIQ
      rw [hl, List.take_left' lm, List.take_left' lm]
    rw [e, List.take_append_drop]

/-! Non-vacuity: a supported configuration, two different acceptable messages; and MR-FSK messages whose samples differ. -/
example : Supported ⟨2, 3, 1, 2⟩ ∧ checkBinaryArray (bitsArg (List.replicate 24 true)) = .ok (List.replicate 24 true) ∧
    checkBinaryArray (bitsArg (List.replicate 24 false)) = .ok (List.replicate 24 false) ∧ List.replicate 24 true ≠ List.replicate 24 false :=
  ⟨by unfold Supported; decide, C03.C03_identity _ (by decide), C03.C03_identity _ (by decide), by decide⟩

example : ∃ x y, ((fskRun id (.bits (bitsArg (List.replicate 8 true)))).call { params := ⟨50000, 1, 0, .FSK2, false, 0, 0, false, false, 4⟩ }).1 = .ok x ∧
    ((fskRun id (.bits (bitsArg (List.replicate 16 true)))).call { params := ⟨50000, 1, 0, .FSK2, false, 0, 0, false, false, 4⟩ }).1 = .ok y ∧ x ≠ y := by
  refine ⟨_, _, (C69.C69_reference _ (by decide) _ _ (C03.C03_identity _ (by decide))).2 (by unfold C69.Refused; decide),
    (C69.C69_reference _ (by decide) _ _ (C03.C03_identity _ (by decide))).2 (by unfold C69.Refused; decide), fun e => ?_⟩
  have := congrArg (fun z => z.1.length) e
  unfold RefF.samples at this
  simp only [List.length_map, List.length_range] at this
  exact absurd this (by decide +kernel)

end SunPhy.C113
