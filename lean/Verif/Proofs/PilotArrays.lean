import Verif.Spec.PilotArrays
import Verif.Proofs.PyMLemmas
/-
Proofs for C118: references and values.
-/
namespace SunPhy.C118
open SunPhy Spec PyM
noncomputable section

/-- Where the pilot tones of a modulator are. -/
def IdxRel (m : PilotMem) (held : List Nat) (a : Nat) (src : Option Nat) (sets : List (List Int)) : Prop :=
  match src with
  | some j => held[j]? = some a
  | none => a < m.next ∧ a ∉ held ∧ (m.cell a).sets = sets

def ValRel (m : PilotMem) (held : List Nat) (b : Option Nat) (src : Option Nat) (values : PilotValues ℂ) : Prop :=
  match b, src with
  | some b, some j => held[j]? = some b
  | some b, none => b < m.next ∧ b ∉ held ∧ values = .array (m.cell b).vals
  | none, some _ => False
  | none, none => values = .pn9

def PilotRel (m : PilotMem) (held : List Nat) (nPilots : Nat) (u : PilotUser) : Option (Nat × Option Nat) → Option (Pilots ℂ) → Prop
  | none, none => True
  | some p, some pl => pl.nPilots = nPilots ∧ IdxRel m held p.1 u.indicesFrom pl.sets ∧ ValRel m held p.2 u.valuesFrom pl.values
  | _, _ => False

structure ObjRel (m : PilotMem) (held : List Nat) (o : PilotRefs) (u : PilotUser) : Prop where
  factor : o.factor = u.factor
  CP : o.CP = u.CP
  column : o.columnIndex = u.run.columnIndex
  pn9 : o.pn9 = u.run.pn9
  stored : o.stored = { u.run.stored with pilots := none }
  pilots : PilotRel m held o.nPilots u o.pilots u.run.stored.pilots

theorem getD_map {m : PilotMem} {held : List Nat} {j a : Nat} (h : held[j]? = some a) : (held.map m.cell).getD j .free = m.cell a := by
  rw [List.getD_eq_getElem?_getD, List.getElem?_map, h]
  rfl

theorem now_eq {m : PilotMem} {held : List Nat} {o : PilotRefs} {u : PilotUser} (h : ObjRel m held o u) : o.now m = u.now (held.map m.cell) := by
  obtain ⟨-, -, hc, hp, hs, hr⟩ := h
  obtain ⟨⟨s, ci, g⟩, f, cp, fi, fv⟩ := u
  obtain ⟨os, of, ocp, on, op, oc, og⟩ := o
  simp only at hc hp hs hr
  subst hc hp hs
  unfold PilotRefs.now PilotUser.now
  simp only
  cases op with
  | none =>
    cases hpl : s.pilots with
    | none => simp only [Option.map_none]; congr 1; rw [← hpl]
    | some pl => rw [hpl] at hr; exact hr.elim
  | some p =>
    cases hpl : s.pilots with
    | none => rw [hpl] at hr; exact hr.elim
    | some pl =>
      rw [hpl] at hr
      obtain ⟨a, b⟩ := p
      obtain ⟨hn, hi, hv⟩ := hr
      simp only at hn hi hv
      simp only [Option.map_some]
      rw [← hn]
      have key : ∀ (ci g : Int) (x y : List (List Int)) (v v' : PilotValues ℂ), x = y → v = v' →
          (⟨{ s with pilots := some ⟨x, pl.nPilots, v⟩ }, ci, g⟩ : OfdmRun ℂ) = ⟨{ s with pilots := some ⟨y, pl.nPilots, v'⟩ }, ci, g⟩ := by
        rintro ci g x _ v _ rfl rfl; rfl
      apply key
      · cases fi with
        | none => exact hi.2.2
        | some j => simp only; rw [getD_map hi]
      · cases b <;> cases fv
        · exact hv.symm
        · exact hv.elim
        · exact hv.2.2.symm
        · simp only; rw [getD_map hv]

/-- Memory grows; arrays of the program may change. -/
theorem ObjRel.mono {m m' : PilotMem} {held new : List Nat} {o : PilotRefs} {u : PilotUser} (h : ObjRel m held o u) (hn : m.next ≤ m'.next)
    (hnew : ∀ a ∈ new, m.next ≤ a) (hc : ∀ a < m.next, a ∉ held → m'.cell a = m.cell a) : ObjRel m' (held ++ new) o u := by
  obtain ⟨h1, h2, h3, h4, h5, h6⟩ := h
  refine ⟨h1, h2, h3, h4, h5, ?_⟩
  have key : ∀ a, a < m.next → a ∉ held → a < m'.next ∧ a ∉ held ++ new ∧ m'.cell a = m.cell a := by
    intro a ha hh
    refine ⟨by omega, fun hm => ?_, hc a ha hh⟩
    rcases List.mem_append.1 hm with hm | hm
    · exact hh hm
    · have := hnew a hm; omega
  have hget : ∀ (j a : Nat), held[j]? = some a → (held ++ new)[j]? = some a := by
    intro j a hj
    rw [List.getElem?_append_left (List.getElem?_eq_some_iff.1 hj).1, hj]
  revert h6
  cases o.pilots with
  | none => cases u.run.stored.pilots <;> exact id
  | some p =>
    cases u.run.stored.pilots with
    | none => exact id
    | some pl =>
      rintro ⟨hn, hi, hv⟩
      refine ⟨hn, ?_, ?_⟩
      · revert hi
        unfold IdxRel
        cases u.indicesFrom with
        | some j => exact hget j _
        | none =>
          rintro ⟨ha, hb, hs⟩
          obtain ⟨k1, k2, k3⟩ := key _ ha hb
          exact ⟨k1, k2, by rw [k3]; exact hs⟩
      · revert hv
        unfold ValRel
        cases p.2 with
        | none => cases u.valuesFrom <;> exact id
        | some b =>
          cases u.valuesFrom with
          | some j => exact hget j _
          | none =>
            rintro ⟨ha, hb, hs⟩
            obtain ⟨k1, k2, k3⟩ := key _ ha hb
            exact ⟨k1, k2, by rw [k3]; exact hs⟩

/-- The states of the two programs agree. -/
structure Rel (w : PilotHeap) (v : PilotWorld) : Prop where
  held : v.held = w.held.map w.mem.cell
  log : v.log = w.log
  nodup : w.held.Nodup
  lt : ∀ a ∈ w.held, a < w.mem.next
  objs : List.Forall₂ (ObjRel w.mem w.held) w.objs v.objs

/-- What the constructor stores of the pilots. -/
theorem init_pilots {c : ModulatorArgs} {ia : IndicesArg} {va : ValuesArg ℂ} {s : OfdmStored ℂ} (h : c.init ia va = .ok s) :
    ofdmCheckBoth ia va = .ok () ∧ ofdmCheckPilots ia va = .ok s.pilots := by
  unfold ModulatorArgs.init ofdmInit at h
  simp only [bind, Except.bind] at h
  cases h1 : ofdmCheckInt c.N_FFT <;> rw [h1] at h <;> simp only [reduceCtorEq] at h
  cases h2 : ofdmRequire (isPowerOfTwo _) <;> rw [h2] at h <;> simp only [reduceCtorEq] at h
  cases h3 : ofdmCheckStr c.modulation <;> rw [h3] at h <;> simp only [reduceCtorEq] at h
  cases h4 : ofdmCheckInt c.padding_left <;> rw [h4] at h <;> simp only [reduceCtorEq] at h
  cases h5 : ofdmCheckInt c.padding_right <;> rw [h5] at h <;> simp only [reduceCtorEq] at h
  cases h6 : ofdmCheckBoth ia va <;> rw [h6] at h <;> simp only [reduceCtorEq] at h
  cases h7 : ofdmCheckInt c.frequency_spreading <;> rw [h7] at h <;> simp only [reduceCtorEq] at h
  rename_i f
  cases h8 : ofdmRequire (decide (f = 1 ∨ f = 2 ∨ f = 4)) <;> rw [h8] at h <;> simp only [reduceCtorEq] at h
  cases h9 : ofdmCheckInt c.initial_pilot_set <;> rw [h9] at h <;> simp only [reduceCtorEq] at h
  cases h10 : ofdmCheckInt c.initial_pn9_seed <;> rw [h10] at h <;> simp only [reduceCtorEq] at h
  cases h11 : ofdmCheckPilots ia va <;> rw [h11] at h <;> simp only [reduceCtorEq] at h
  rename_i p
  cases h12 : getModulator _ <;> rw [h12] at h <;> simp only [reduceCtorEq] at h
  have := Except.ok.inj h
  subst this
  exact ⟨rfl, rfl⟩

/-- The pilot sets that an argument contains. -/
def argSets : IndicesArg → List (List Int)
  | .arr1 l => [l]
  | .arr2 _ cols => cols
  | _ => []

/-- The pilot values that an argument contains. -/
def argValues : ValuesArg ℂ → PilotValues ℂ
  | .str _ => .pn9
  | .arr v => .array v
  | _ => .array []

theorem init_none {c : ModulatorArgs} {ia : IndicesArg} {s : OfdmStored ℂ} (h : c.init ia .none = .ok s) : ia = .none ∧ s.pilots = none := by
  obtain ⟨h1, h2⟩ := init_pilots h
  refine ⟨?_, (Except.ok.inj h2).symm⟩
  cases ia <;> first | rfl | (exact absurd h1 (by unfold ofdmCheckBoth; exact fun h => by cases h))

theorem init_some {c : ModulatorArgs} {ia : IndicesArg} {va : ValuesArg ℂ} {s : OfdmStored ℂ} (h : c.init ia va = .ok s) (hv : va ≠ .none) :
    ia ≠ .none ∧ ∃ pl, s.pilots = some pl ∧ pl.sets = argSets ia ∧ pl.values = argValues va := by
  obtain ⟨h1, h2⟩ := init_pilots h
  have hne : ia ≠ .none := by
    rintro rfl
    cases va <;> first | exact hv rfl | cases h1
  refine ⟨hne, ?_⟩
  generalize s.pilots = q at h2
  unfold ofdmCheckPilots at h2
  simp only [bind, Except.bind, pure, Except.pure] at h2
  cases va <;> cases ia <;> simp only [reduceCtorEq] at h2 <;> first | (exact absurd rfl hv) | (exact absurd rfl hne) | skip
  all_goals
    split at h2
    all_goals first | (cases h2; done) | skip
  all_goals
    first
    | (split at h2
       all_goals first | (cases h2; done) | (rename_i hx; cases hx; done) | skip
       all_goals (have := Except.ok.inj h2; subst this; exact ⟨_, rfl, rfl, rfl⟩))
    | (have := Except.ok.inj h2; subst this; exact ⟨_, rfl, rfl, rfl⟩)

theorem asArray_sets (c : PilotCell) : c.asArray.sets = c.sets := by
  cases c with
  | indices b a => cases a <;> rfl
  | _ => rfl
theorem asArray_vals (c : PilotCell) : c.asArray.vals = c.vals := by
  cases c with
  | values b a => cases a <;> rfl
  | _ => rfl

theorem push_old {m : PilotMem} (c : PilotCell) {a : Nat} (h : a < m.next) : (m.push c).cell a = m.cell a := if_neg (by omega)
theorem push_new (m : PilotMem) (c : PilotCell) : (m.push c).cell m.next = c := if_pos rfl

/-- What `referTo` does. -/
structure Referred (m : PilotMem) (a : Nat) (r : PilotMem × Nat) : Prop where
  next : m.next ≤ r.1.next
  old : ∀ b < m.next, r.1.cell b = m.cell b
  lt : r.2 < r.1.next
  sets : (r.1.cell r.2).sets = (m.cell a).sets
  vals : (r.1.cell r.2).vals = (m.cell a).vals
  which : if (m.cell a).isList then m.next ≤ r.2 else r.2 = a

theorem referred (m : PilotMem) (a : Nat) (h : a < m.next) : Referred m a (referTo m a) := by
  unfold referTo
  by_cases hl : (m.cell a).isList = true
  · rw [if_pos hl]
    refine ⟨Nat.le_succ _, fun b hb => push_old _ hb, Nat.lt_succ_self _, ?_, ?_, ?_⟩
    · show ((m.push (m.cell a).asArray).cell m.next).sets = _
      rw [push_new, asArray_sets]
    · show ((m.push (m.cell a).asArray).cell m.next).vals = _
      rw [push_new, asArray_vals]
    · rw [if_pos hl]
  · rw [if_neg hl]
    refine ⟨le_refl _, fun _ _ => rfl, h, rfl, rfl, ?_⟩
    rw [if_neg hl]

theorem indicesArg_some {look : Nat → Option PilotCell} {j : Nat} {ia : IndicesArg} (h : indicesArg look (some j) = some ia) :
    ia ≠ .none ∧ ∃ c, look j = some c ∧ c.sets = argSets ia := by
  unfold indicesArg at h
  simp only at h
  split at h
  all_goals first | (cases h; done) | skip
  all_goals
    rename_i he
    have := Option.some.inj h
    subst this
    exact ⟨by simp, _, he, rfl⟩

theorem valuesArg_held {look : Nat → Option PilotCell} {j : Nat} {va : ValuesArg ℂ} (h : valuesArg look (.held j) = some va) :
    va ≠ .none ∧ ∃ c, look j = some c ∧ argValues va = .array c.vals := by
  unfold valuesArg at h
  simp only at h
  split at h
  all_goals first | (cases h; done) | skip
  all_goals
    rename_i he
    have := Option.some.inj h
    subst this
    exact ⟨by simp, _, he, rfl⟩

/-- The new modulator. -/
theorem construct_rel {w : PilotHeap} {v : PilotWorld} (h : Rel w v) (args : ModulatorArgs) (indices : Option Nat) (values : ValuesFrom) {ia : IndicesArg} {va : ValuesArg ℂ}
    {s : OfdmStored ℂ} (hi : indicesArg (fun j => (w.held[j]?).map w.mem.cell) indices = some ia) (hv : valuesArg (fun j => (w.held[j]?).map w.mem.cell) values = some va)
    (hs : args.init ia va = .ok s) :
    w.mem.next ≤ (referPilots w.held w.mem indices values).1.next ∧ (∀ a < w.mem.next, (referPilots w.held w.mem indices values).1.cell a = w.mem.cell a) ∧
    ObjRel (referPilots w.held w.mem indices values).1 w.held
      { stored := { s with pilots := none }, factor := args.modulation_factor, CP := args.CP, nPilots := s.nPilots, pilots := (referPilots w.held w.mem indices values).2,
        columnIndex := s.initialPilotSet, pn9 := s.initialSeed }
      { run := s.start, factor := args.modulation_factor, CP := args.CP, indicesFrom := indices.bind (watch false v.held),
        valuesFrom := watchValues false v.held values } := by
  have hnp : ∀ pl, s.pilots = some pl → s.nPilots = pl.nPilots := by
    intro pl hpl
    unfold OfdmStored.nPilots
    rw [hpl]; rfl
  have hwatch : ∀ j a, w.held[j]? = some a → watch false v.held j = if (w.mem.cell a).isList then none else some j := by
    intro j a hj
    unfold watch
    rw [h.held, getD_map hj, Bool.false_or]
  have hmem : ∀ j a, w.held[j]? = some a → a < w.mem.next := fun j a hj => h.lt a (List.mem_of_getElem? hj)
  -- the array of the pilot tones
  have tones : ∀ j ia, indicesArg (fun j => (w.held[j]?).map w.mem.cell) (some j) = some ia →
      ∃ a, w.held[j]? = some a ∧ (w.mem.cell a).sets = argSets ia := by
    intro j ia hj
    obtain ⟨-, c, hc, hcs⟩ := indicesArg_some hj
    cases ha : w.held[j]? with
    | none => rw [ha] at hc; cases hc
    | some a =>
      rw [ha] at hc
      have := Option.some.inj hc
      exact ⟨a, rfl, by rw [← hcs, ← this]⟩
  cases indices with
  | none =>
    have hia : ia = .none := (Option.some.inj hi).symm
    have hva : va = .none := by
      by_contra hne
      exact (init_some hs hne).1 hia
    subst hva
    have hp := (init_none hs).2
    refine ⟨le_refl _, fun _ _ => rfl, rfl, rfl, rfl, rfl, rfl, ?_⟩
    show PilotRel _ _ _ _ none s.start.stored.pilots
    show PilotRel _ _ _ _ none s.pilots
    rw [hp]
    trivial
  | some j =>
    obtain ⟨a, ha, hsets⟩ := tones j ia hi
    have hia := (indicesArg_some hi).1
    have hR := referred w.mem a (hmem j a ha)
    have hidx : ∀ (m' : PilotMem), (referTo w.mem a).1.next ≤ m'.next → (∀ b < (referTo w.mem a).1.next, m'.cell b = (referTo w.mem a).1.cell b) →
        IdxRel m' w.held (referTo w.mem a).2 ((some j).bind (watch false v.held)) (argSets ia) := by
      intro m' hn hc
      have e : (some j).bind (watch false v.held) = if (w.mem.cell a).isList then none else some j := hwatch j a ha
      rw [e]
      have hw := hR.which
      by_cases hl : (w.mem.cell a).isList = true
      · rw [if_pos hl] at hw ⊢
        refine ⟨lt_of_lt_of_le hR.lt hn, fun hm => ?_, ?_⟩
        · have := h.lt _ hm; omega
        · rw [hc _ hR.lt, hR.sets, hsets]
      · rw [if_neg hl] at hw ⊢
        show w.held[j]? = some _
        rw [hw, ha]
    cases values with
    | none =>
      have hva : va = .none := (Option.some.inj hv).symm
      subst hva
      exact absurd (init_none hs).1 hia
    | str t =>
      have hva : va = .str t := (Option.some.inj hv).symm
      subst hva
      obtain ⟨-, pl, hpl, hps, hpv⟩ := init_some hs (by simp)
      have e : referPilots w.held w.mem (some j) (.str t) = ((referTo w.mem a).1, some ((referTo w.mem a).2, none)) := by
        unfold referPilots
        simp only [Option.bind_some, ha]
      rw [e]
      refine ⟨hR.next, hR.old, rfl, rfl, rfl, rfl, rfl, ?_⟩
      show PilotRel _ _ _ _ _ s.pilots
      rw [hpl]
      refine ⟨(hnp pl hpl).symm, ?_, hpv⟩
      rw [hps]
      exact hidx _ (le_refl _) fun _ _ => rfl
    | held k =>
      obtain ⟨hvne, c, hc, hcv⟩ := valuesArg_held hv
      obtain ⟨-, pl, hpl, hps, hpv⟩ := init_some hs hvne
      cases hb : w.held[k]? with
      | none => rw [hb] at hc; cases hc
      | some b =>
        rw [hb] at hc
        have hcb : w.mem.cell b = c := Option.some.inj hc
        have hbl : b < w.mem.next := hmem k b hb
        have hold : (referTo w.mem a).1.cell b = w.mem.cell b := hR.old b hbl
        have hQ := referred (referTo w.mem a).1 b (lt_of_lt_of_le hbl hR.next)
        have e : referPilots w.held w.mem (some j) (.held k) =
            ((referTo (referTo w.mem a).1 b).1, some ((referTo w.mem a).2, some (referTo (referTo w.mem a).1 b).2)) := by
          unfold referPilots
          simp only [Option.bind_some, ha, hb]
        rw [e]
        refine ⟨hR.next.trans hQ.next, fun x hx => (hQ.old x (lt_of_lt_of_le hx hR.next)).trans (hR.old x hx), rfl, rfl, rfl, rfl, rfl, ?_⟩
        show PilotRel _ _ _ _ _ s.pilots
        rw [hpl]
        refine ⟨(hnp pl hpl).symm, ?_, ?_⟩
        · rw [hps]
          exact hidx _ hQ.next hQ.old
        · show ValRel _ _ (some _) (watch false v.held k) _
          rw [hwatch k b hb]
          have hw := hQ.which
          rw [hold] at hw
          by_cases hl : (w.mem.cell b).isList = true
          · rw [if_pos hl] at hw ⊢
            refine ⟨hQ.lt, fun hm => ?_, ?_⟩
            · have := h.lt _ hm
              have := hR.next
              omega
            · rw [hpv, hcv, hQ.vals, hold, hcb]
          · rw [if_neg hl] at hw ⊢
            show w.held[k]? = some _
            rw [hw, hb]

theorem forall2_mono {α β : Type} {R S : α → β → Prop} {l : List α} {l' : List β} (h : List.Forall₂ R l l') (hRS : ∀ o u, R o u → S o u) : List.Forall₂ S l l' := by
  induction h with
  | nil => exact .nil
  | cons h _ ih => exact .cons (hRS _ _ h) ih

theorem forall2_append {α β : Type} {S : α → β → Prop} {l : List α} {l' : List β} (h : List.Forall₂ S l l') {o : α} {u : β} (hou : S o u) :
    List.Forall₂ S (l ++ [o]) (l' ++ [u]) := by
  induction h with
  | nil => exact .cons hou .nil
  | cons h _ ih => exact .cons h ih

theorem forall2_set {α β : Type} {S : α → β → Prop} {l : List α} {l' : List β} (h : List.Forall₂ S l l') (i : Nat) {o : α} {u : β} (hou : S o u) :
    List.Forall₂ S (l.set i o) (l'.set i u) := by
  induction h generalizing i with
  | nil => exact .nil
  | cons h hs ih =>
    cases i with
    | zero => exact .cons hou hs
    | succ i => exact .cons h (ih i)

theorem forall2_get {α β : Type} {S : α → β → Prop} {l : List α} {l' : List β} (h : List.Forall₂ S l l') (i : Nat) :
    match l[i]?, l'[i]? with | some o, some u => S o u | none, none => True | _, _ => False := by
  induction h generalizing i with
  | nil => trivial
  | cons h hs ih =>
    cases i with
    | zero => exact h
    | succ i => exact ih i

theorem get_held {w : PilotHeap} {v : PilotWorld} (h : Rel w v) (j : Nat) : v.held[j]? = (w.held[j]?).map w.mem.cell := by
  rw [h.held, List.getElem?_map]

theorem bitsToIQ_pilots (f : ℝ) (cp : ℚ) (x : BitsArg) (pad : Bool) (o : OfdmRun ℂ) : ((OfdmRun.bitsToIQ f cp x pad).call o).2.stored = o.stored := by
  unfold OfdmRun.bitsToIQ OfdmRun.subcarriers
  simp only [call_bind, call_lift, call_get]
  cases ofdmSqueeze x with
  | error e => rfl
  | ok d =>
    simp only [seqR_ok, call_bind, call_lift, call_get]
    cases ofdmSplitFull o.stored.splitLength d pad with
    | error e => rfl
    | ok sp =>
      simp only [seqR_ok, call_bind, call_lift, call_get]
      cases ofdmMapFull (complexNumbers f) o.stored.modulation sp with
      | error e => rfl
      | ok mp =>
        simp only [seqR_ok, call_bind, call_lift, call_get]
        cases ofdmSpreadFull (complexNumbers f) o.stored.frequencySpreading mp with
        | error e => rfl
        | ok sd =>
          simp only [seqR_ok, call_bind, call_lift, call_get]
          have h : (o.addPilots (pilotOf (complexNumbers f)) sd).2.stored = o.stored := by
            unfold OfdmRun.addPilots
            cases ofdmAvailable o.stored.nFFT o.stored.paddingLeft o.stored.paddingRight with
            | error e => rfl
            | ok av =>
              simp only
              cases hp : o.stored.pilots with
              | none => rfl
              | some pl => simp only; split <;> rfl
          show (seqR (o.addPilots (pilotOf (complexNumbers f)) sd) _).2.stored = _
          generalize o.addPilots (pilotOf (complexNumbers f)) sd = r at h ⊢
          obtain ⟨r, o'⟩ := r
          cases r with
          | error e => exact h
          | ok c => exact h

/-- After a call the references are the same, and so are the arrays looked at. -/
theorem after_call {m : PilotMem} {held : List Nat} {o : PilotRefs} {u : PilotUser} (h : ObjRel m held o u) (r : OfdmRun ℂ) (hr : r.stored = (u.now (held.map m.cell)).stored) :
    ObjRel m held { o with columnIndex := r.columnIndex, pn9 := r.pn9 } { u with run := r } := by
  have hnow : (u.now (held.map m.cell)).stored = (o.now m).stored := by rw [now_eq h]
  rw [hnow] at hr
  obtain ⟨h1, h2, h3, h4, h5, h6⟩ := h
  refine ⟨h1, h2, rfl, rfl, ?_, ?_⟩
  · show o.stored = { r.stored with pilots := none }
    rw [hr]
    show o.stored = { o.stored with pilots := none }
    rw [h5]
  · show PilotRel m held o.nPilots _ o.pilots r.stored.pilots
    rw [hr]
    show PilotRel m held o.nPilots _ o.pilots (Option.map _ o.pilots)
    revert h6
    cases o.pilots with
    | none => exact fun _ => trivial
    | some p =>
      cases u.run.stored.pilots with
      | none => exact fun h => h.elim
      | some pl =>
        rintro ⟨hn, hi, hv⟩
        refine ⟨rfl, ?_, ?_⟩
        · revert hi
          unfold IdxRel
          cases u.indicesFrom with
          | some j => exact id
          | none => exact fun h => ⟨h.1, h.2.1, rfl⟩
        · revert hv
          obtain ⟨a, b⟩ := p
          unfold ValRel
          cases b with
          | none =>
            cases u.valuesFrom with
            | none => exact fun _ => rfl
            | some j => exact id
          | some b =>
            cases u.valuesFrom with
            | none => exact fun h => ⟨h.1, h.2.1, rfl⟩
            | some j => exact id

theorem getD_held {w : PilotHeap} {v : PilotWorld} (h : Rel w v) {i a : Nat} (hi : w.held[i]? = some a) : v.held.getD i .free = w.mem.cell a := by
  rw [h.held, getD_map hi]

theorem step_rel {w : PilotHeap} {v : PilotWorld} (h : Rel w v) (e : PilotEvent) : Rel (w.step e) (v.step false e) := by
  cases e with
  | make c =>
    refine ⟨?_, h.log, ?_, ?_, ?_⟩
    · show v.held ++ [c] = (w.held ++ [w.mem.next]).map (w.mem.push c).cell
      rw [List.map_append, List.map_congr_left fun a ha => push_old c (h.lt a ha), ← h.held]
      show _ = _ ++ [(w.mem.push c).cell w.mem.next]
      rw [push_new]
    · show (w.held ++ [w.mem.next]).Nodup
      rw [List.nodup_append]
      refine ⟨h.nodup, List.nodup_singleton _, fun a ha b hb => ?_⟩
      rw [List.mem_singleton] at hb
      have := h.lt a ha
      omega
    · intro a ha
      show a < w.mem.next + 1
      rcases List.mem_append.1 ha with ha | ha
      · have := h.lt a ha; omega
      · rw [List.mem_singleton] at ha; omega
    · refine forall2_mono h.objs fun o u hou => ObjRel.mono hou (Nat.le_succ _) (fun a ha => ?_) (fun a ha _ => push_old c ha)
      rw [List.mem_singleton] at ha
      omega
  | write i c =>
    unfold PilotHeap.step PilotWorld.step
    dsimp only
    cases hi : w.held[i]? with
    | none =>
      have hf : (v.held.getD i .free).fits c = false := by
        rw [List.getD_eq_getElem?_getD, get_held h, hi]
        cases c <;> rfl
      rw [hf]
      exact h
    | some a =>
      rw [getD_held h hi]
      dsimp only
      by_cases hf : (w.mem.cell a).fits c = true
      · rw [if_pos hf, if_pos hf]
        obtain ⟨hlen, ha⟩ := List.getElem?_eq_some_iff.1 hi
        have hmem : a ∈ w.held := List.mem_of_getElem? hi
        refine ⟨?_, h.log, h.nodup, h.lt, ?_⟩
        · show v.held.set i c = w.held.map (w.mem.put a c).cell
          rw [h.held]
          apply List.ext_getElem
          · rw [List.length_set, List.length_map, List.length_map]
          · intro k h1 h2
            rw [List.getElem_map, List.getElem_set]
            have hk' : k < w.held.length := by rw [List.length_map] at h2; exact h2
            show _ = if w.held[k] = a then c else w.mem.cell w.held[k]
            by_cases hk : i = k
            · subst hk
              rw [if_pos rfl, if_pos ha]
            · rw [if_neg hk, if_neg, List.getElem_map]
              intro e
              exact hk ((List.Nodup.getElem_inj_iff h.nodup).1 (ha.trans e.symm))
        · have := forall2_mono h.objs fun o u hou => ObjRel.mono (m' := w.mem.put a c) (new := []) hou (le_refl _) (fun a ha => by cases ha)
            (fun b _ hb => if_neg (by rintro rfl; exact hb hmem))
          rw [List.append_nil] at this
          exact this
      · rw [if_neg hf, if_neg hf]
        exact h
  | construct args indices values =>
    unfold PilotHeap.step PilotWorld.step
    dsimp only
    have hl : (fun j => v.held[j]?) = fun j => (w.held[j]?).map w.mem.cell := funext fun j => get_held h j
    rw [hl]
    cases hi : indicesArg (fun j => (w.held[j]?).map w.mem.cell) indices with
    | none => exact h
    | some ia =>
      cases hv : valuesArg (fun j => (w.held[j]?).map w.mem.cell) values with
      | none => exact h
      | some va =>
        dsimp only
        cases hs : args.init ia va with
        | error e =>
          refine ⟨h.held, ?_, h.nodup, h.lt, h.objs⟩
          show v.log ++ _ = w.log ++ _
          rw [h.log]
        | ok s =>
          obtain ⟨k1, k2, k3⟩ := construct_rel h args indices values hi hv hs
          dsimp only
          refine ⟨?_, ?_, h.nodup, fun a ha => lt_of_lt_of_le (h.lt a ha) k1, ?_⟩
          · show v.held = w.held.map _
            rw [h.held]
            exact List.map_congr_left fun a ha => (k2 a (h.lt a ha)).symm
          · show v.log ++ _ = w.log ++ _
            rw [h.log]
          · refine forall2_append ?_ k3
            have := forall2_mono h.objs fun o u hou => ObjRel.mono (m' := (referPilots w.held w.mem indices values).1) (new := []) hou k1 (fun a ha => by cases ha)
              (fun b hb _ => k2 b hb)
            rw [List.append_nil] at this
            exact this
  | call i j pad =>
    unfold PilotHeap.step PilotWorld.step
    dsimp only
    have hg := forall2_get h.objs i
    rw [get_held h j]
    cases hwo : w.objs[i]? with
    | none =>
      cases hvo : v.objs[i]? with
      | none => exact h
      | some u => rw [hwo, hvo] at hg; exact hg.elim
    | some o =>
      cases hvo : v.objs[i]? with
      | none => rw [hwo, hvo] at hg; exact hg.elim
      | some u =>
        rw [hwo, hvo] at hg
        dsimp only at hg
        cases hj : w.held[j]? with
        | none => exact h
        | some a =>
          simp only [Option.map_some]
          cases hc : w.mem.cell a with
          | indices b x => exact h
          | values b x => exact h
          | samples x => exact h
          | free => exact h
          | message x =>
            simp only
            have hcall : (OfdmRun.bitsToIQ o.factor o.CP x pad).call (o.now w.mem) = (OfdmRun.bitsToIQ u.factor u.CP x pad).call (u.now v.held) := by
              rw [hg.factor, hg.CP, now_eq hg, ← h.held]
            rw [hcall]
            have hst := bitsToIQ_pilots u.factor u.CP x pad (u.now v.held)
            generalize (OfdmRun.bitsToIQ u.factor u.CP x pad).call (u.now v.held) = r at hst
            obtain ⟨r, o'⟩ := r
            have hobj := after_call hg o' (by rw [← h.held]; exact hst)
            cases r with
            | error e =>
              refine ⟨h.held, ?_, h.nodup, h.lt, forall2_set h.objs i hobj⟩
              show v.log ++ _ = w.log ++ _
              rw [h.log]
            | ok iq =>
              have hR : Rel { w with objs := w.objs.set i { o with columnIndex := o'.columnIndex, pn9 := o'.pn9 }, log := w.log ++ [.done] }
                  { v with objs := v.objs.set i { u with run := o' }, log := v.log ++ [.done] } :=
                ⟨h.held, by show v.log ++ _ = w.log ++ _; rw [h.log], h.nodup, h.lt, forall2_set h.objs i hobj⟩
              dsimp only
              refine ⟨?_, hR.log, ?_, ?_, ?_⟩
              · show v.held ++ [.samples iq] = (w.held ++ [w.mem.next]).map (w.mem.push (.samples iq)).cell
                rw [List.map_append, List.map_congr_left fun a ha => push_old _ (h.lt a ha), ← h.held]
                show _ = _ ++ [(w.mem.push (.samples iq)).cell w.mem.next]
                rw [push_new]
              · show (w.held ++ [w.mem.next]).Nodup
                rw [List.nodup_append]
                refine ⟨h.nodup, List.nodup_singleton _, fun a ha b hb => ?_⟩
                rw [List.mem_singleton] at hb
                have := h.lt a ha
                omega
              · intro a ha
                show a < w.mem.next + 1
                rcases List.mem_append.1 ha with ha | ha
                · have := h.lt a ha; omega
                · rw [List.mem_singleton] at ha; omega
              · refine forall2_mono hR.objs fun o u hou => ObjRel.mono hou (Nat.le_succ _) (fun a ha => ?_) (fun a ha _ => push_old _ ha)
                rw [List.mem_singleton] at ha
                exact ha ▸ le_refl _
  | getters i =>
    unfold PilotHeap.step PilotWorld.step
    dsimp only
    have hg := forall2_get h.objs i
    cases hwo : w.objs[i]? with
    | none =>
      cases hvo : v.objs[i]? with
      | none => exact h
      | some u => rw [hwo, hvo] at hg; exact hg.elim
    | some o =>
      cases hvo : v.objs[i]? with
      | none => rw [hwo, hvo] at hg; exact hg.elim
      | some u =>
        rw [hwo, hvo] at hg
        dsimp only at hg ⊢
        refine ⟨h.held, ?_, h.nodup, h.lt, h.objs⟩
        show v.log ++ _ = w.log ++ _
        rw [h.log, hg.column, hg.pn9]

theorem run_rel (l : List PilotEvent) : Rel (PilotHeap.run l) (PilotWorld.runProgram false l) := by
  unfold PilotHeap.run PilotWorld.runProgram
  have h0 : Rel ⟨⟨0, fun _ => .free⟩, [], [], []⟩ ⟨[], [], []⟩ := ⟨rfl, rfl, List.nodup_nil, fun a ha => (by cases ha), .nil⟩
  generalize (⟨⟨0, fun _ => .free⟩, [], [], []⟩ : PilotHeap) = w at h0 ⊢
  generalize (⟨[], [], []⟩ : PilotWorld) = v at h0 ⊢
  induction l generalizing w v with
  | nil => exact h0
  | cons e l ih =>
    rw [List.foldl_cons, List.foldl_cons]
    exact ih _ _ (step_rel h0 e)

/-- A modulator that looks at arrays, and one that has copied them. -/
structure CopyRel (held : List PilotCell) (H : Nat → Prop) (u u' : PilotUser) : Prop where
  run : u.run = u'.run
  factor : u.factor = u'.factor
  CP : u.CP = u'.CP
  noIndices : u'.indicesFrom = none
  noValues : u'.valuesFrom = none
  indices : ∀ j, u.indicesFrom = some j → H j ∧ j < held.length ∧ (held.getD j .free).isList = false ∧ ∀ pl, u.run.stored.pilots = some pl → (held.getD j .free).sets = pl.sets
  values : ∀ j, u.valuesFrom = some j → H j ∧ j < held.length ∧ (held.getD j .free).isList = false ∧
    ∀ pl, u.run.stored.pilots = some pl → pl.values = .array (held.getD j .free).vals

theorem now_self {held : List PilotCell} {u : PilotUser} (hi : ∀ j, u.indicesFrom = some j → ∀ pl, u.run.stored.pilots = some pl → (held.getD j .free).sets = pl.sets)
    (hv : ∀ j, u.valuesFrom = some j → ∀ pl, u.run.stored.pilots = some pl → pl.values = .array (held.getD j .free).vals) : u.now held = u.run := by
  unfold PilotUser.now
  cases hp : u.run.stored.pilots with
  | none => rfl
  | some pl =>
    have key : ∀ (x : List (List Int)) (v : PilotValues ℂ), x = pl.sets → v = pl.values →
        ({ u.run with stored := { u.run.stored with pilots := some ⟨x, pl.nPilots, v⟩ } } : OfdmRun ℂ) = u.run := by
      rintro _ _ rfl rfl
      show ({ u.run with stored := { u.run.stored with pilots := some pl } } : OfdmRun ℂ) = u.run
      rw [← hp]
    apply key
    · cases hf : u.indicesFrom with
      | none => rfl
      | some j => exact hi j hf pl hp
    · cases hf : u.valuesFrom with
      | none => rfl
      | some j => exact (hv j hf pl hp).symm

theorem CopyRel.mono {held held' : List PilotCell} {H H' : Nat → Prop} {u u' : PilotUser} (h : CopyRel held H u u') (hH : ∀ j, H j → H' j) (hl : held.length ≤ held'.length)
    (hc : ∀ j, H j → j < held.length → (held.getD j .free).isList = false → held'.getD j .free = held.getD j .free) : CopyRel held' H' u u' := by
  refine ⟨h.run, h.factor, h.CP, h.noIndices, h.noValues, fun j hj => ?_, fun j hj => ?_⟩
  · obtain ⟨a, b, c, d⟩ := h.indices j hj
    rw [hc j a b c]
    exact ⟨hH j a, lt_of_lt_of_le b hl, c, d⟩
  · obtain ⟨a, b, c, d⟩ := h.values j hj
    rw [hc j a b c]
    exact ⟨hH j a, lt_of_lt_of_le b hl, c, d⟩

theorem fits_isList {a c : PilotCell} (h : a.fits c = true) : c.isList = a.isList := by
  cases a with
  | indices b x =>
    cases c with
    | indices b' y => cases b <;> cases b' <;> cases x <;> cases y <;> first | rfl | cases h
    | _ => cases b <;> cases x <;> cases h
  | values b x =>
    cases c with
    | values b' y => cases b <;> cases b' <;> cases x <;> cases y <;> first | rfl | cases h
    | _ => cases b <;> cases x <;> cases h
  | message x => cases c with
    | message y => rfl
    | _ => cases h
  | samples x => cases c with
    | samples y => rfl
    | _ => cases h
  | free => cases c <;> cases h

/-- The states of the two programs agree; `H` are the numbers handed over so far. -/
structure Rel2 (H : Nat → Prop) (w v : PilotWorld) : Prop where
  held : w.held = v.held
  log : w.log = v.log
  objs : List.Forall₂ (CopyRel w.held H) w.objs v.objs

theorem getD_append_left {held : List PilotCell} {c : PilotCell} {j : Nat} (h : j < held.length) : (held ++ [c]).getD j .free = held.getD j .free := by
  rw [List.getD_eq_getElem?_getD, List.getD_eq_getElem?_getD, List.getElem?_append_left h]

theorem step_rel2 {H : Nat → Prop} {w v : PilotWorld} (h : Rel2 H w v) (e : PilotEvent) (he : ∀ i c, e = .write i c → H i → c.isList = true) :
    Rel2 (fun i => H i ∨ HandsOver e i) (w.step false e) (v.step true e) := by
  cases e with
  | make c =>
    refine ⟨by show w.held ++ _ = v.held ++ _; rw [h.held], h.log, forall2_mono h.objs fun u u' hu => hu.mono (fun _ => Or.inl) ?_ fun j _ hj _ => getD_append_left hj⟩
    show _ ≤ (w.held ++ [c]).length
    rw [List.length_append]; omega
  | write i c =>
    unfold PilotWorld.step
    dsimp only
    rw [← h.held]
    by_cases hf : (w.held.getD i .free).fits c = true
    · rw [if_pos hf, if_pos hf]
      refine ⟨rfl, h.log, forall2_mono h.objs fun u u' hu => hu.mono (fun _ => Or.inl) ?_ fun j hj hlt hl => ?_⟩
      · show _ ≤ (w.held.set i c).length
        rw [List.length_set]
      · show (w.held.set i c).getD j .free = _
        have hne : i ≠ j := by
          rintro rfl
          have h1 := he i c rfl hj
          rw [fits_isList hf, hl] at h1
          cases h1
        rw [List.getD_eq_getElem?_getD, List.getElem?_set_ne hne, ← List.getD_eq_getElem?_getD]
    · rw [if_neg hf, if_neg hf]
      exact ⟨h.held, h.log, forall2_mono h.objs fun u u' hu => hu.mono (fun _ => Or.inl) (le_refl _) fun j _ _ _ => rfl⟩
  | construct args indices values =>
    have hmono : ∀ u u', CopyRel w.held H u u' → CopyRel w.held (fun i => H i ∨ HandsOver (.construct args indices values) i) u u' :=
      fun u u' hu => hu.mono (fun _ => Or.inl) (le_refl _) fun j _ _ _ => rfl
    unfold PilotWorld.step
    dsimp only
    rw [← h.held]
    cases hi : indicesArg (fun j => w.held[j]?) indices with
    | none => exact ⟨h.held, h.log, forall2_mono h.objs hmono⟩
    | some ia =>
      cases hv : valuesArg (fun j => w.held[j]?) values with
      | none => exact ⟨h.held, h.log, forall2_mono h.objs hmono⟩
      | some va =>
        dsimp only
        cases hs : args.init ia va with
        | error e =>
          dsimp only
          exact ⟨rfl, by show w.log ++ _ = v.log ++ _; rw [h.log], forall2_mono h.objs hmono⟩
        | ok s =>
          dsimp only
          refine ⟨rfl, by show w.log ++ _ = v.log ++ _; rw [h.log], forall2_append (forall2_mono h.objs hmono) ?_⟩
          have hwt : ∀ j, watch true w.held j = none := fun j => rfl
          have hwf : ∀ j k, watch false w.held j = some k → k = j ∧ (w.held.getD j .free).isList = false := by
            intro j k hk
            unfold watch at hk
            rw [Bool.false_or] at hk
            cases hl : (w.held.getD j .free).isList with
            | true => rw [hl] at hk; cases hk
            | false => rw [hl] at hk; exact ⟨(Option.some.inj hk).symm, rfl⟩
          have hget : ∀ j c, w.held[j]? = some c → j < w.held.length ∧ w.held.getD j .free = c := by
            intro j c hc
            refine ⟨(List.getElem?_eq_some_iff.1 hc).1, ?_⟩
            rw [List.getD_eq_getElem?_getD, hc]; rfl
          refine ⟨rfl, rfl, rfl, ?_, ?_, ?_, ?_⟩
          · cases indices with
            | none => rfl
            | some j => rfl
          · cases values <;> rfl
          · intro j hj
            cases indices with
            | none => cases hj
            | some k =>
              obtain ⟨rfl, hl⟩ := hwf k j hj
              obtain ⟨hia, c, hc, hcs⟩ := indicesArg_some hi
              obtain ⟨h1, h2⟩ := hget j c hc
              refine ⟨Or.inr ⟨args, some j, values, rfl, Or.inl rfl⟩, h1, hl, fun pl hpl => ?_⟩
              rw [h2, hcs]
              by_cases hva : va = .none
              · subst hva
                exact absurd (init_none hs).1 hia
              · obtain ⟨-, pl', hpl', e1, e2⟩ := init_some hs hva
                have : pl' = pl := Option.some.inj (hpl'.symm.trans hpl)
                rw [← this, e1]
          · intro j hj
            cases values with
            | none => cases hj
            | str t => cases hj
            | held k =>
              obtain ⟨rfl, hl⟩ := hwf k j hj
              obtain ⟨hva, c, hc, hcs⟩ := valuesArg_held hv
              obtain ⟨h1, h2⟩ := hget j c hc
              refine ⟨Or.inr ⟨args, indices, .held j, rfl, Or.inr rfl⟩, h1, hl, fun pl hpl => ?_⟩
              obtain ⟨-, pl', hpl', e1, e2⟩ := init_some hs hva
              have : pl' = pl := Option.some.inj (hpl'.symm.trans hpl)
              rw [h2, ← this, e2, hcs]
  | call i j pad =>
    have hmono : ∀ u u', CopyRel w.held H u u' → CopyRel w.held (fun k => H k ∨ HandsOver (.call i j pad) k) u u' :=
      fun u u' hu => hu.mono (fun _ => Or.inl) (le_refl _) fun j _ _ _ => rfl
    have h' : Rel2 (fun k => H k ∨ HandsOver (.call i j pad) k) w v := ⟨h.held, h.log, forall2_mono h.objs hmono⟩
    unfold PilotWorld.step
    dsimp only
    have hg := forall2_get h'.objs i
    rw [← h.held]
    cases hwo : w.objs[i]? with
    | none =>
      cases hvo : v.objs[i]? with
      | none => exact h'
      | some u => rw [hwo, hvo] at hg; exact hg.elim
    | some u =>
      cases hvo : v.objs[i]? with
      | none => rw [hwo, hvo] at hg; exact hg.elim
      | some u' =>
        rw [hwo, hvo] at hg
        dsimp only at hg
        cases hj : w.held[j]? with
        | none => exact h'
        | some c =>
          cases c with
          | indices b x => exact h'
          | values b x => exact h'
          | samples x => exact h'
          | free => exact h'
          | message x =>
            dsimp only
            have hnow : u.now w.held = u.run := now_self (fun j hj => (hg.indices j hj).2.2.2) (fun j hj => (hg.values j hj).2.2.2)
            have hnow' : u'.now w.held = u'.run := now_self (fun j hj => by rw [hg.noIndices] at hj; cases hj) (fun j hj => by rw [hg.noValues] at hj; cases hj)
            have hcall : (OfdmRun.bitsToIQ u'.factor u'.CP x pad).call (u'.now w.held) = (OfdmRun.bitsToIQ u.factor u.CP x pad).call (u.now w.held) := by
              rw [hg.factor, hg.CP, hnow, hnow', hg.run]
            rw [hcall]
            have hst := bitsToIQ_pilots u.factor u.CP x pad (u.now w.held)
            rw [hnow] at hst ⊢
            generalize (OfdmRun.bitsToIQ u.factor u.CP x pad).call u.run = r at hst
            obtain ⟨r, o'⟩ := r
            have hobj : CopyRel w.held (fun k => H k ∨ HandsOver (.call i j pad) k) { u with run := o' } { u' with run := o' } := by
              have hst' : o'.stored = u.run.stored := hst
              refine ⟨rfl, hg.factor, hg.CP, hg.noIndices, hg.noValues, fun k hk => ?_, fun k hk => ?_⟩
              · have := hg.indices k hk
                refine ⟨this.1, this.2.1, this.2.2.1, fun pl hpl => this.2.2.2 pl ?_⟩
                rw [← hst']; exact hpl
              · have := hg.values k hk
                refine ⟨this.1, this.2.1, this.2.2.1, fun pl hpl => this.2.2.2 pl ?_⟩
                rw [← hst']; exact hpl
            cases r with
            | error e =>
              dsimp only
              exact ⟨rfl, by show w.log ++ _ = v.log ++ _; rw [h.log], forall2_set h'.objs i hobj⟩
            | ok iq =>
              dsimp only
              refine ⟨rfl, by show w.log ++ _ = v.log ++ _; rw [h.log], ?_⟩
              refine forall2_mono (forall2_set h'.objs i hobj) fun u u' hu => hu.mono (fun _ => id) ?_ fun k _ hk _ => getD_append_left hk
              show _ ≤ (w.held ++ _).length
              rw [List.length_append]; omega
  | getters i =>
    have hmono : ∀ u u', CopyRel w.held H u u' → CopyRel w.held (fun k => H k ∨ HandsOver (.getters i) k) u u' :=
      fun u u' hu => hu.mono (fun _ => Or.inl) (le_refl _) fun j _ _ _ => rfl
    have h' : Rel2 (fun k => H k ∨ HandsOver (.getters i) k) w v := ⟨h.held, h.log, forall2_mono h.objs hmono⟩
    unfold PilotWorld.step
    dsimp only
    have hg := forall2_get h'.objs i
    cases hwo : w.objs[i]? with
    | none =>
      cases hvo : v.objs[i]? with
      | none => exact h'
      | some u => rw [hwo, hvo] at hg; exact hg.elim
    | some u =>
      cases hvo : v.objs[i]? with
      | none => rw [hwo, hvo] at hg; exact hg.elim
      | some u' =>
        rw [hwo, hvo] at hg
        dsimp only at hg ⊢
        refine ⟨h.held, ?_, h'.objs⟩
        show w.log ++ _ = v.log ++ _
        rw [h.log, hg.run]

theorem run_rel2 (l : List PilotEvent) (hl : Untouched l) :
    ∃ H, Rel2 H (PilotWorld.runProgram false l) (PilotWorld.runProgram true l) := by
  unfold PilotWorld.runProgram
  have h0 : Rel2 (fun _ => False) ⟨[], [], []⟩ ⟨[], [], []⟩ := ⟨rfl, rfl, .nil⟩
  have hH : ∀ i, (fun _ : Nat => False) i → ∀ c, PilotEvent.write i c ∈ l → c.isList = true := fun i h => h.elim
  generalize (fun _ : Nat => False) = H at h0 hH
  generalize (⟨[], [], []⟩ : PilotWorld) = v at h0 ⊢
  have key : ∀ (l : List PilotEvent) (w v : PilotWorld) (H : Nat → Prop), Rel2 H w v → Untouched l → (∀ i, H i → ∀ c, PilotEvent.write i c ∈ l → c.isList = true) →
      ∃ H, Rel2 H (l.foldl (PilotWorld.step false) w) (l.foldl (PilotWorld.step true) v) := by
    intro l
    induction l with
    | nil => exact fun w v H h _ _ => ⟨H, h⟩
    | cons e l ih =>
      intro w v H h hu hH
      rw [List.foldl_cons, List.foldl_cons]
      refine ih _ _ (fun i => H i ∨ HandsOver e i) (step_rel2 h e fun i c hec hi => hH i hi c (by rw [hec]; exact List.mem_cons_self)) ?_ ?_
      · intro l₁ e' l₂ hl' i hi c hc
        exact hu (e :: l₁) e' l₂ (by rw [hl']; rfl) i hi c hc
      · rintro i (hi | hi) c hc
        · exact hH i hi c (List.mem_cons_of_mem _ hc)
        · exact hu [] e l rfl i hi c hc
  exact key l v v H h0 hl hH

end
end SunPhy.C118
