import Verif.Spec.PilotShapes
import Verif.Props.C104
/-
C151 — pilot values in an array of any shape.
-/
namespace SunPhy.C151
open SunPhy Spec

section
variable {α : Type}

theorem check_nd (idx : IndicesArg) (d : Nat) (rest : List Nat) (data w : List α) (hw : w.length = d) :
    ofdmCheckPilotsNd idx (.arr (d :: rest) data) =
      (ofdmCheckPilots idx (.arr w)).map fun p => p.map fun p => { sets := p.sets, nPilots := p.nPilots, values := .array (d :: rest) data } := by
  subst hw
  cases idx with
  | none => rfl
  | notArray => rfl
  | arrOther => rfl
  | arr1 l =>
    unfold ofdmCheckPilotsNd ofdmCheckPilots
    simp only
    by_cases h1 : nonDecreasing l = true
    · rw [if_pos h1, if_pos h1]
      show (if w.length ≠ l.length then _ else _) = Except.map _ (if w.length ≠ l.length then _ else _)
      split <;> rfl
    · rw [if_neg h1, if_neg h1]; rfl
  | arr2 r cols =>
    unfold ofdmCheckPilotsNd ofdmCheckPilots
    simp only
    by_cases h1 : cols.all nonDecreasing = true
    · rw [if_pos h1, if_pos h1]
      show (if w.length ≠ r then _ else _) = Except.map _ (if w.length ≠ r then _ else _)
      split <;> rfl
    · rw [if_neg h1, if_neg h1]; rfl

theorem check_str (idx : IndicesArg) (s : String) :
    ofdmCheckPilotsNd idx (.str s : ValuesArgNd α) = (ofdmCheckPilots idx (.str s : ValuesArg α)).map fun p => p.map fun p => { sets := p.sets, nPilots := p.nPilots, values := .pn9 } := by
  cases idx with
  | none => rfl
  | notArray => rfl
  | arrOther => rfl
  | arr1 l =>
    unfold ofdmCheckPilotsNd ofdmCheckPilots
    simp only
    by_cases h1 : nonDecreasing l = true
    · rw [if_pos h1, if_pos h1]
      show (if s = "pn9" then _ else _) = Except.map _ (if s = "pn9" then _ else _)
      split <;> rfl
    · rw [if_neg h1, if_neg h1]; rfl
  | arr2 r cols =>
    unfold ofdmCheckPilotsNd ofdmCheckPilots
    simp only
    by_cases h1 : cols.all nonDecreasing = true
    · rw [if_pos h1, if_pos h1]
      show (if s = "pn9" then _ else _) = Except.map _ (if s = "pn9" then _ else _)
      split <;> rfl
    · rw [if_neg h1, if_neg h1]; rfl

theorem check_scalar (idx : IndicesArg) (data : List α) :
    ofdmCheckPilotsNd idx (.arr [] data) = (ofdmCheckPilots idx (.arr0 : ValuesArg α)).map fun p => p.map fun p => { sets := p.sets, nPilots := p.nPilots, values := .array [] data } := by
  cases idx with
  | none => rfl
  | notArray => rfl
  | arrOther => rfl
  | arr1 l =>
    unfold ofdmCheckPilotsNd ofdmCheckPilots
    simp only
    by_cases h1 : nonDecreasing l = true
    · rw [if_pos h1, if_pos h1]; rfl
    · rw [if_neg h1, if_neg h1]; rfl
  | arr2 r cols =>
    unfold ofdmCheckPilotsNd ofdmCheckPilots
    simp only
    by_cases h1 : cols.all nonDecreasing = true
    · rw [if_pos h1, if_pos h1]; rfl
    · rw [if_neg h1, if_neg h1]; rfl

theorem check_other (idx : IndicesArg) :
    ofdmCheckPilotsNd idx (.other : ValuesArgNd α) = (ofdmCheckPilots idx (.other : ValuesArg α)).map fun p => p.map fun p => { sets := p.sets, nPilots := p.nPilots, values := .pn9 } := by
  cases idx with
  | none => rfl
  | notArray => rfl
  | arrOther => rfl
  | arr1 l =>
    unfold ofdmCheckPilotsNd ofdmCheckPilots
    simp only
    by_cases h1 : nonDecreasing l = true
    · rw [if_pos h1, if_pos h1]; rfl
    · rw [if_neg h1, if_neg h1]; rfl
  | arr2 r cols =>
    unfold ofdmCheckPilotsNd ofdmCheckPilots
    simp only
    by_cases h1 : cols.all nonDecreasing = true
    · rw [if_pos h1, if_pos h1]; rfl
    · rw [if_neg h1, if_neg h1]; rfl

theorem init_nd (N mod pl pr fs : PyVal) (idx : IndicesArg) (valsNd : ValuesArgNd α) (vals : ValuesArg α) (v : PilotValuesNd α) (ips seed : PyVal)
    (hb : ofdmCheckBothNd idx valsNd = ofdmCheckBoth idx vals)
    (hc : ofdmCheckPilotsNd idx valsNd = (ofdmCheckPilots idx vals).map fun p => p.map fun p => { sets := p.sets, nPilots := p.nPilots, values := v }) :
    ofdmInitNd N mod pl pr fs idx valsNd ips seed = (ofdmInit N mod pl pr fs idx vals ips seed).map fun s => withValues s v := by
  unfold ofdmInitNd ofdmInit
  rw [hc, hb]
  cases ofdmCheckInt N with
  | error => rfl
  | ok n =>
  show (ofdmRequire (isPowerOfTwo n)).bind _ = Except.map _ ((ofdmRequire (isPowerOfTwo n)).bind _)
  cases ofdmRequire (isPowerOfTwo n) with
  | error => rfl
  | ok =>
  show (ofdmCheckStr mod).bind _ = Except.map _ ((ofdmCheckStr mod).bind _)
  cases ofdmCheckStr mod with
  | error => rfl
  | ok m =>
  show (ofdmCheckInt pl).bind _ = Except.map _ ((ofdmCheckInt pl).bind _)
  cases ofdmCheckInt pl with
  | error => rfl
  | ok l =>
  show (ofdmCheckInt pr).bind _ = Except.map _ ((ofdmCheckInt pr).bind _)
  cases ofdmCheckInt pr with
  | error => rfl
  | ok r =>
  show (ofdmCheckBoth idx _).bind _ = Except.map _ ((ofdmCheckBoth idx _).bind _)
  cases ofdmCheckBoth idx vals with
  | error => rfl
  | ok =>
  show (ofdmCheckInt fs).bind _ = Except.map _ ((ofdmCheckInt fs).bind _)
  cases ofdmCheckInt fs with
  | error => rfl
  | ok f =>
  show (ofdmRequire (decide (f = 1 ∨ f = 2 ∨ f = 4))).bind _ = Except.map _ ((ofdmRequire (decide (f = 1 ∨ f = 2 ∨ f = 4))).bind _)
  cases ofdmRequire (decide (f = 1 ∨ f = 2 ∨ f = 4)) with
  | error => rfl
  | ok =>
  show (ofdmCheckInt ips).bind _ = Except.map _ ((ofdmCheckInt ips).bind _)
  cases ofdmCheckInt ips with
  | error => rfl
  | ok i =>
  show (ofdmCheckInt seed).bind _ = Except.map _ ((ofdmCheckInt seed).bind _)
  cases ofdmCheckInt seed with
  | error => rfl
  | ok sd =>
  show (Except.map _ (ofdmCheckPilots idx _)).bind _ = Except.map _ ((ofdmCheckPilots idx _).bind _)
  cases ofdmCheckPilots idx vals with
  | error => rfl
  | ok p =>
  show (getModulator m).bind _ = Except.map _ ((getModulator m).bind _)
  cases getModulator m with
  | error => rfl
  | ok k => rfl

/-- **C151 (constructor).**  An array of pilot values of shape `(d, …)` is accepted or refused, with the same exception, as any flat list of `d` values is, and
the stored modulator differs from that of the flat list only in the values. -/
theorem C151_constructor (N mod pl pr fs : PyVal) (idx : IndicesArg) (d : Nat) (rest : List Nat) (data w : List α) (hw : w.length = d) (ips seed : PyVal) :
    ofdmInitNd N mod pl pr fs idx (.arr (d :: rest) data) ips seed =
      (ofdmInit N mod pl pr fs idx (.arr w) ips seed).map fun s => withValues s (.array (d :: rest) data) :=
  init_nd N mod pl pr fs idx _ _ _ ips seed (by cases idx <;> rfl) (check_nd idx d rest data w hw)

end

/-! ### The part before the pilots -/

section
variable {α : Type} [Mul α] [Zero α]

/-- Everything before the pilots. -/
def front (nb : Numbers α) (L : Int) (k : ModKind) (sf : Nat) (a : BitsArg) (pad : Bool) : Res (Mat α) :=
  (ofdmSqueeze a).bind fun data => (ofdmSplitFull L data pad).bind fun split => (ofdmMapFull nb k split).bind fun mapped => ofdmSpreadFull nb sf mapped

/-- An exception ends the call and leaves the object alone. -/
def follow {σ β : Type} (o : σ) (f : Mat α → Res β × σ) : Res (Mat α) → Res β × σ
  | .error e => (.error e, o)
  | .ok P => f P

theorem front_run (nb : Numbers α) (a : BitsArg) (pad : Bool) (o : OfdmRun α) :
    (OfdmRun.subcarriers nb a pad).call o =
      follow o (o.addPilots (pilotOf nb)) (front nb o.stored.splitLength o.stored.modulation o.stored.frequencySpreading a pad) := by
  unfold OfdmRun.subcarriers PyM.call front
  cases ofdmSqueeze a with
  | error => rfl
  | ok data =>
  show (PyM.lift (ofdmSplitFull o.stored.splitLength data pad) >>= _ : PyM _ _) o = _
  show _ = follow o (o.addPilots (pilotOf nb)) ((ofdmSplitFull o.stored.splitLength data pad).bind _)
  cases ofdmSplitFull o.stored.splitLength data pad with
  | error => rfl
  | ok split =>
  show (PyM.lift (ofdmMapFull nb o.stored.modulation split) >>= _ : PyM _ _) o = _
  show _ = follow o (o.addPilots (pilotOf nb)) ((ofdmMapFull nb o.stored.modulation split).bind _)
  cases ofdmMapFull nb o.stored.modulation split with
  | error => rfl
  | ok mapped =>
  show (PyM.lift (ofdmSpreadFull nb o.stored.frequencySpreading mapped) >>= _ : PyM _ _) o = _
  show _ = follow o (o.addPilots (pilotOf nb)) (ofdmSpreadFull nb o.stored.frequencySpreading mapped)
  cases ofdmSpreadFull nb o.stored.frequencySpreading mapped with
  | error => rfl
  | ok P => rfl

theorem front_run_nd (E : PyErr) (nb : Numbers α) (a : BitsArg) (pad : Bool) (o : OfdmRunNd α) :
    (OfdmRunNd.subcarriers E nb a pad).call o =
      follow o (o.addPilots E (pilotOf nb)) (front nb o.stored.splitLength o.stored.modulation o.stored.frequencySpreading a pad) := by
  unfold OfdmRunNd.subcarriers PyM.call front
  cases ofdmSqueeze a with
  | error => rfl
  | ok data =>
  show (PyM.lift (ofdmSplitFull o.stored.splitLength data pad) >>= _ : PyM _ _) o = _
  show _ = follow o (o.addPilots E (pilotOf nb)) ((ofdmSplitFull o.stored.splitLength data pad).bind _)
  cases ofdmSplitFull o.stored.splitLength data pad with
  | error => rfl
  | ok split =>
  show (PyM.lift (ofdmMapFull nb o.stored.modulation split) >>= _ : PyM _ _) o = _
  show _ = follow o (o.addPilots E (pilotOf nb)) ((ofdmMapFull nb o.stored.modulation split).bind _)
  cases ofdmMapFull nb o.stored.modulation split with
  | error => rfl
  | ok mapped =>
  show (PyM.lift (ofdmSpreadFull nb o.stored.frequencySpreading mapped) >>= _ : PyM _ _) o = _
  show _ = follow o (o.addPilots E (pilotOf nb)) (ofdmSpreadFull nb o.stored.frequencySpreading mapped)
  cases ofdmSpreadFull nb o.stored.frequencySpreading mapped with
  | error => rfl
  | ok P => rfl

/-! ### One value per pilot -/

theorem subarray_one {β : Type} (d : Nat) (rest : List Nat) (w : List β) (hr : rest.prod = 1) (hw : w.length = d) (i : Nat) :
    subarray (d :: rest) w i = w[i]?.map fun v => [v] := by
  unfold subarray
  simp only [hr, Nat.mul_one]
  by_cases hi : i < d
  · rw [if_pos hi, List.getElem?_eq_getElem (by omega), List.drop_eq_getElem_cons (by omega)]
    rfl
  · rw [if_neg hi, List.getElem?_eq_none (by omega)]; rfl

theorem insert_nd (E : PyErr) (N : Nat) (pv : Int → α) (d : Nat) (rest : List Nat) (w : List α) (hr : rest.prod = 1) (hw : w.length = d) (s : PilotLoopI α) (p : Int) :
    insertPilotNd E N pv (.array (d :: rest) w) s p = insertPilotI N pv (.array w) s p := by
  unfold insertPilotNd insertPilotI
  simp only
  rw [subarray_one d rest w hr hw, List.prod_cons, hr, Nat.mul_one, ← hw]
  cases w[s.valuesIndex]? with
  | none => rfl
  | some v => rfl

/-- Storing a pilot is the same with the values `v` as with the values `u`. -/
def Same (E : PyErr) (v : PilotValuesNd α) (u : PilotValues α) : Prop :=
  ∀ (N : Nat) (pv : Int → α) (s : PilotLoopI α) (p : Int), insertPilotNd E N pv v s p = insertPilotI N pv u s p

theorem same_pn9 (E : PyErr) : Same E (.pn9 : PilotValuesNd α) .pn9 := by
  intro N pv s p
  rfl

theorem same_scalar (E : PyErr) (data : List α) : Same E (.array [] data) (.array []) := by
  intro N pv s p
  rfl

theorem same_column (E : PyErr) (d : Nat) (rest : List Nat) (w : List α) (hr : rest.prod = 1) (hw : w.length = d) : Same E (.array (d :: rest) w) (.array w) :=
  fun N pv s p => insert_nd E N pv d rest w hr hw s p

theorem inserts_nd (E : PyErr) (N : Nat) (pv : Int → α) {v : PilotValuesNd α} {u : PilotValues α} (h : Same E v u) (ps : List Int) :
    ∀ s : PilotLoopI α, insertPilotsNd E N pv v s ps = insertPilotsI N pv u s ps := by
  induction ps with
  | nil => intro s; rfl
  | cons p ps ih =>
    intro s
    unfold insertPilotsNd insertPilotsI
    rw [h]
    cases insertPilotI N pv u s p with
    | mk r g => cases r with
      | error => rfl
      | ok s' => exact ih s'

theorem symbol_nd (E : PyErr) (N : Nat) (pv : Int → α) (pl : Pilots α) {v : PilotValuesNd α} (h : Same E v pl.values) (av : List Int) (vi : Nat) (idx g : Int) (col : List α) :
    addPilotsSymbolNd E N pv { sets := pl.sets, nPilots := pl.nPilots, values := v } av vi idx g col = addPilotsSymbolI N pv pl av vi idx g col := by
  unfold addPilotsSymbolNd addPilotsSymbolI
  simp only [inserts_nd E N pv h]
  rfl

theorem symbols_nd (E : PyErr) (N : Nat) (pv : Int → α) (pl : Pilots α) {v : PilotValuesNd α} (h : Same E v pl.values) (av : List Int) (cols : List (List α)) :
    ∀ (vi : Nat) (idx g : Int),
    addPilotsSymbolsNd E N pv { sets := pl.sets, nPilots := pl.nPilots, values := v } av vi idx g cols = addPilotsSymbolsI N pv pl av vi idx g cols := by
  induction cols with
  | nil => intro vi idx g; rfl
  | cons col cols ih =>
    intro vi idx g
    unfold addPilotsSymbolsNd addPilotsSymbolsI
    rw [symbol_nd E N pv pl h]
    cases addPilotsSymbolI N pv pl av vi idx g col with
    | mk r q => cases r with
      | error => rfl
      | ok c =>
        simp only
        rw [ih]
        rfl

theorem addPilots_nd (E : PyErr) (o : OfdmRun α) (pv : Int → α) {v : PilotValuesNd α} (h : ∀ pl, o.stored.pilots = some pl → Same E v pl.values) (P : Mat α) :
    (runWith v o).addPilots E pv P = ((o.addPilots pv P).1, runWith v (o.addPilots pv P).2) := by
  unfold OfdmRunNd.addPilots OfdmRun.addPilots
  simp only [runWith, withValues]
  cases ofdmAvailable o.stored.nFFT o.stored.paddingLeft o.stored.paddingRight with
  | error => rfl
  | ok av =>
    cases hp : o.stored.pilots with
    | none => simp only [Option.map_none, hp]
    | some pl =>
      simp only [Option.map_some]
      by_cases hn : pl.nPilots > 0
      · simp only [if_pos hn, symbols_nd E _ pv pl (h pl hp), hp, Option.map_some]
      · simp only [if_neg hn, hp, Option.map_some]

theorem nPilots_with (s : OfdmStored α) (v : PilotValuesNd α) : (withValues s v).nPilots = s.nPilots := by
  unfold OfdmStoredNd.nPilots OfdmStored.nPilots withValues
  cases s.pilots <;> rfl

theorem split_with (s : OfdmStored α) (v : PilotValuesNd α) : (withValues s v).splitLength = s.splitLength := by
  unfold OfdmStoredNd.splitLength OfdmStored.splitLength
  rw [nPilots_with]; rfl

theorem subcarriers_nd (E : PyErr) (nb : Numbers α) (o : OfdmRun α) {v : PilotValuesNd α} (h : ∀ pl, o.stored.pilots = some pl → Same E v pl.values) (a : BitsArg) (pad : Bool) :
    (OfdmRunNd.subcarriers E nb a pad).call (runWith v o) =
      (((OfdmRun.subcarriers nb a pad).call o).1, runWith v ((OfdmRun.subcarriers nb a pad).call o).2) := by
  rw [front_run, front_run_nd]
  show follow _ _ (front nb (withValues o.stored _).splitLength o.stored.modulation o.stored.frequencySpreading a pad) = _
  rw [split_with]
  cases front nb o.stored.splitLength o.stored.modulation o.stored.frequencySpreading a pad with
  | error => rfl
  | ok P => exact addPilots_nd E o _ h P

end

open Complex in
theorem bitsToIQ_nd (E : PyErr) (f : ℝ) (CP : ℚ) (a : BitsArg) (pad : Bool) (o : OfdmRunNd ℂ) :
    (OfdmRunNd.bitsToIQ E f CP a pad).call o =
      (((OfdmRunNd.subcarriers E (complexNumbers f) a pad).call o).1.map fun cols => cols.flatMap fun col => cyclicPrefix CP (ofdmIfft col),
        ((OfdmRunNd.subcarriers E (complexNumbers f) a pad).call o).2) := by
  unfold OfdmRunNd.bitsToIQ PyM.call
  rw [ExceptT.run_bind]
  show (StateT.bind _ _ o : _) = _
  unfold StateT.bind
  cases h : (ExceptT.run (OfdmRunNd.subcarriers E (complexNumbers f) a pad)) o with
  | mk r o' =>
    cases r with
    | error e => rfl
    | ok x => rfl

/-- **C151 (one value per pilot).**  If all dimensions behind the first have size one, the modulator behaves in every call as the one with the flat list of the same
values: same signal or same exception, and corresponding objects afterwards. -/
theorem C151_flat (E : PyErr) (f : ℝ) (CP : ℚ) (o : OfdmRun ℂ) (d : Nat) (rest : List Nat) (w : List ℂ) (hr : ∀ n ∈ rest, n = 1) (hw : w.length = d) (hv : HasValues o (.array w))
    (a : BitsArg) (pad : Bool) :
    (OfdmRunNd.bitsToIQ E f CP a pad).call (runWith (.array (d :: rest) w) o) =
      (((OfdmRun.bitsToIQ f CP a pad).call o).1, runWith (.array (d :: rest) w) ((OfdmRun.bitsToIQ f CP a pad).call o).2) := by
  have hr : rest.prod = 1 := List.prod_eq_one hr
  obtain ⟨pl, hp, hv⟩ := hv
  rw [bitsToIQ_nd, C103.bitsToIQ_eq, subcarriers_nd E _ o (fun q hq => by rw [hp] at hq; cases hq; rw [hv]; exact same_column E d rest w hr hw)]

/-- **C151 (other values).**  A string, an array without dimension, no pilots: constructor and calls are those of `Model/OfdmCtor.lean` and `Model/OfdmFull.lean`
(C70, C103). -/
theorem C151_other (E : PyErr) (f : ℝ) (CP : ℚ) (a : BitsArg) (pad : Bool) :
    (∀ (N mod pl pr fs : PyVal) (idx : IndicesArg) (ips seed : PyVal) (data : List ℂ),
      (∀ s, ofdmInitNd N mod pl pr fs idx (.str s : ValuesArgNd ℂ) ips seed = (ofdmInit N mod pl pr fs idx (.str s) ips seed).map fun s => withValues s .pn9) ∧
      ofdmInitNd N mod pl pr fs idx (.arr [] data) ips seed = (ofdmInit N mod pl pr fs idx .arr0 ips seed).map (fun s => withValues s (.array [] data)) ∧
      ofdmInitNd N mod pl pr fs idx (.none : ValuesArgNd ℂ) ips seed = (ofdmInit N mod pl pr fs idx .none ips seed).map (fun s => withValues s .pn9) ∧
      ofdmInitNd N mod pl pr fs idx (.other : ValuesArgNd ℂ) ips seed = (ofdmInit N mod pl pr fs idx .other ips seed).map (fun s => withValues s .pn9)) ∧
    (∀ o : OfdmRun ℂ, o.stored.pilots = none ∨ HasValues o .pn9 → (OfdmRunNd.bitsToIQ E f CP a pad).call (runWith .pn9 o) =
      (((OfdmRun.bitsToIQ f CP a pad).call o).1, runWith .pn9 ((OfdmRun.bitsToIQ f CP a pad).call o).2)) ∧
    (∀ (o : OfdmRun ℂ) (data : List ℂ), HasValues o (.array []) → (OfdmRunNd.bitsToIQ E f CP a pad).call (runWith (.array [] data) o) =
      (((OfdmRun.bitsToIQ f CP a pad).call o).1, runWith (.array [] data) ((OfdmRun.bitsToIQ f CP a pad).call o).2)) := by
  refine ⟨fun N mod pl pr fs idx ips seed data => ⟨fun s => ?_, ?_, ?_, ?_⟩, fun o h => ?_, fun o data h => ?_⟩
  · exact init_nd N mod pl pr fs idx _ _ _ ips seed (by cases idx <;> rfl) (check_str idx s)
  · exact init_nd N mod pl pr fs idx _ _ _ ips seed (by cases idx <;> rfl) (check_scalar idx data)
  · exact init_nd N mod pl pr fs idx _ _ _ ips seed (by cases idx <;> rfl) rfl
  · exact init_nd N mod pl pr fs idx _ _ _ ips seed (by cases idx <;> rfl) (check_other idx)
  · rw [bitsToIQ_nd, C103.bitsToIQ_eq, subcarriers_nd E _ o (fun q hq => by
      rcases h with h | ⟨pl, hp, hv⟩
      · rw [hq] at h; cases h
      · rw [hp] at hq; cases hq; rw [hv]; exact same_pn9 E)]
  · obtain ⟨pl, hp, hv⟩ := h
    rw [bitsToIQ_nd, C103.bitsToIQ_eq, subcarriers_nd E _ o (fun q hq => by rw [hp] at hq; cases hq; rw [hv]; exact same_scalar E data)]

/-! ### More or fewer values per pilot -/

section
variable {α : Type} [Mul α] [Zero α]

theorem insertI_length (N : Nat) (pv : Int → α) (vals : PilotValues α) (ps : List Int) : ∀ (s s' : PilotLoopI α) g, insertPilotsI N pv vals s ps = (.ok s', g) →
    s'.channels.length = s.channels.length := by
  induction ps with
  | nil => intro s s' g h; unfold insertPilotsI at h; cases h; rfl
  | cons p ps ih =>
    intro s s' g h
    unfold insertPilotsI at h
    cases hi : insertPilotI N pv vals s p with
    | mk r g' =>
      rw [hi] at h
      cases r with
      | error e => cases h
      | ok s1 =>
        simp only at h
        rw [ih s1 s' g h]
        unfold insertPilotI at hi
        simp only at hi
        split at hi
        · cases hi
        · split at hi
          · cases hi
          · split at hi
            · have hi := Except.ok.inj (Prod.mk.inj hi).1
              rw [← hi]
              simp
            · cases hi

/-- The first pilot of a symbol cannot be stored; the rows are checked first, with the same result as for flat values. -/
theorem insert_bad (E : PyErr) (N : Nat) (pv : Int → α) (d : Nat) (rest : List Nat) (data : List α) (hd : 0 < d) (hr : rest.prod ≠ 1) (hl : data.length = d * rest.prod)
    (vals : PilotValues α) (s : PilotLoopI α) (hs : s.valuesIndex = 0) (p : Int) (ps : List Int) :
    ∃ e, insertPilotsNd E N pv (.array (d :: rest) data) s (p :: ps) = (.error e, s.pn9) ∧
      (e = E ∨ ∃ g, insertPilotsI N pv vals s (p :: ps) = (.error e, g)) := by
  unfold insertPilotsNd insertPilotNd
  simp only [hs, subarray, if_pos hd, Nat.zero_mul, List.drop_zero]
  have hlen : (data.take rest.prod).length = rest.prod := by
    rw [List.length_take, hl]
    exact Nat.min_eq_left (Nat.le_mul_of_pos_left _ hd)
  by_cases hrow : p + (N : Int) / 2 ≥ N ∨ p + (N : Int) / 2 < -(N : Int)
  · rw [if_pos hrow]
    refine ⟨.IndexError, rfl, Or.inr ?_⟩
    unfold insertPilotsI insertPilotI
    simp only [hrow, if_true]
    cases vals with
    | pn9 => exact ⟨_, rfl⟩
    | array w =>
      simp only
      cases w[s.valuesIndex]? with
      | none => exact ⟨_, rfl⟩
      | some v => exact ⟨_, rfl⟩
  · rw [if_neg hrow]
    refine ⟨E, ?_, Or.inl rfl⟩
    generalize data.take rest.prod = sub at *
    match sub, hlen with
    | [], _ => rfl
    | [v], h => exact absurd h.symm hr
    | v :: v' :: l, _ => rfl

theorem addPilots_bad (E : PyErr) (o : OfdmRun α) (hb : Built o.stored) (pv : Int → α) (pl : Pilots α) (hp : o.stored.pilots = some pl) (hn : 0 < pl.nPilots)
    (rest : List Nat) (data : List α) (hr : rest.prod ≠ 1) (hl : data.length = pl.nPilots * rest.prod) (P : Mat α) :
    ((o.addPilots pv P).1 = .ok [] ∧ (runWith (.array (pl.nPilots :: rest) data) o).addPilots E pv P = (.ok [], runWith (.array (pl.nPilots :: rest) data) o)) ∨
    (∃ c cs, (o.addPilots pv P).1 = .ok (c :: cs) ∧ c.length = o.stored.nFFT ∧
      (runWith (.array (pl.nPilots :: rest) data) o).addPilots E pv P = (.error E, runWith (.array (pl.nPilots :: rest) data) o)) ∨
    (∃ e e', (o.addPilots pv P).1 = .error e ∧ (e' = E ∨ e' = e) ∧
      (runWith (.array (pl.nPilots :: rest) data) o).addPilots E pv P = (.error e', runWith (.array (pl.nPilots :: rest) data) o)) := by
  unfold OfdmRunNd.addPilots OfdmRun.addPilots
  simp only [runWith, withValues, hp, Option.map_some]
  cases ofdmAvailable o.stored.nFFT o.stored.paddingLeft o.stored.paddingRight with
  | error e => exact Or.inr (Or.inr ⟨e, e, rfl, Or.inr rfl, rfl⟩)
  | ok av =>
    simp only [if_pos hn]
    cases hc : P.columns with
    | nil => exact Or.inl ⟨rfl, rfl⟩
    | cons col cols =>
      right
      unfold addPilotsSymbolsNd addPilotsSymbolsI addPilotsSymbolNd addPilotsSymbolI
      simp only
      cases hset : pilotSetAt pl.sets o.columnIndex with
      | none => exact Or.inr ⟨_, _, rfl, Or.inr rfl, rfl⟩
      | some set =>
        simp only
        have hm : set ∈ pl.sets := by
          unfold pilotSetAt at hset
          split at hset
          · exact List.mem_of_getElem? hset
          · split at hset
            · exact List.mem_of_getElem? hset
            · cases hset
        have hsl := hb.sets pl hp set hm
        match set, hsl with
        | [], h => simp at h; omega
        | p :: ps, _ =>
        obtain ⟨e', h1, h2⟩ := insert_bad E o.stored.nFFT pv pl.nPilots rest data hn hr hl pl.values
          { channels := List.replicate o.stored.nFFT 0, available := av, pn9 := o.pn9, valuesIndex := 0 } rfl p ps
        rw [h1]
        simp only
        cases hi : insertPilotsI o.stored.nFFT pv pl.values { channels := List.replicate o.stored.nFFT 0, available := av, pn9 := o.pn9, valuesIndex := 0 } (p :: ps) with
        | mk r g =>
        rw [hi] at h2
        cases r with
        | error e =>
          refine Or.inr ⟨e, e', rfl, ?_, rfl⟩
          rcases h2 with h2 | ⟨g', h2⟩
          · exact Or.inl h2
          · exact Or.inr (Except.error.inj (Prod.mk.inj h2).1).symm
        | ok s1 =>
          have he : e' = E := by
            rcases h2 with h2 | ⟨g', h2⟩
            · exact h2
            · cases (Prod.mk.inj h2).1
          simp only
          cases hpl : placeData o.stored.nFFT s1.channels s1.available col with
          | error e => exact Or.inr ⟨e, e', rfl, Or.inl he, rfl⟩
          | ok ch =>
            simp only
            cases hrec : addPilotsSymbolsI o.stored.nFFT pv pl av s1.valuesIndex (if o.columnIndex + 1 ≥ pl.sets.length then 0 else o.columnIndex + 1) g cols with
            | mk r2 q =>
              cases r2 with
              | error e => exact Or.inr ⟨e, e', rfl, Or.inl he, rfl⟩
              | ok chs =>
                refine Or.inl ⟨ch, chs, rfl, ?_, by rw [he]⟩
                rw [C104.placeData_length hpl, insertI_length _ _ _ _ _ _ _ hi]
                simp

end

/-- **C151 (more or fewer values per pilot).**  If the sizes behind the first dimension do not multiply to one, no message can be sent: where the modulator with
one value per pilot would return samples, storing the first pilot raises numpy's exception `E`; where it would raise an exception, this one does
too (the same one, or `E`); only where it would return no samples (an empty message) this one returns none.  The object is never changed. -/
theorem C151_refused (E : PyErr) (f : ℝ) (CP : ℚ) (o : OfdmRun ℂ) (hb : Built o.stored) (pl : Pilots ℂ) (hp : o.stored.pilots = some pl) (hn : 0 < pl.nPilots)
    (rest : List Nat) (data : List ℂ) (hr : rest.prod ≠ 1) (hl : data.length = (pl.nPilots :: rest).prod) (a : BitsArg) (pad : Bool) :
    (((OfdmRun.bitsToIQ f CP a pad).call o).1 = .ok [] →
      (OfdmRunNd.bitsToIQ E f CP a pad).call (runWith (.array (pl.nPilots :: rest) data) o) = (.ok [], runWith (.array (pl.nPilots :: rest) data) o)) ∧
    (∀ iq, ((OfdmRun.bitsToIQ f CP a pad).call o).1 = .ok iq → iq ≠ [] →
      (OfdmRunNd.bitsToIQ E f CP a pad).call (runWith (.array (pl.nPilots :: rest) data) o) = (.error E, runWith (.array (pl.nPilots :: rest) data) o)) ∧
    (∀ e, ((OfdmRun.bitsToIQ f CP a pad).call o).1 = .error e → ∃ e', (e' = E ∨ e' = e) ∧
      (OfdmRunNd.bitsToIQ E f CP a pad).call (runWith (.array (pl.nPilots :: rest) data) o) = (.error e', runWith (.array (pl.nPilots :: rest) data) o)) := by
  have hN : 0 < o.stored.nFFT := by obtain ⟨k, hk⟩ := hb.power; rw [hk]; exact Nat.two_pow_pos k
  rw [bitsToIQ_nd, C103.bitsToIQ_eq, front_run, front_run_nd]
  have hf : front (complexNumbers f) (runWith (.array (pl.nPilots :: rest) data) o).stored.splitLength (runWith (.array (pl.nPilots :: rest) data) o).stored.modulation
      (runWith (.array (pl.nPilots :: rest) data) o).stored.frequencySpreading a pad =
      front (complexNumbers f) o.stored.splitLength o.stored.modulation o.stored.frequencySpreading a pad := by
    show front (complexNumbers f) (withValues o.stored _).splitLength o.stored.modulation o.stored.frequencySpreading a pad = _
    rw [split_with]
  rw [hf]
  cases front (complexNumbers f) o.stored.splitLength o.stored.modulation o.stored.frequencySpreading a pad with
  | error e =>
    refine ⟨fun h => ?_, fun iq h => ?_, fun e' h => ⟨e', Or.inr rfl, ?_⟩⟩
    · cases h
    · cases h
    · cases h; rfl
  | ok P =>
    simp only [follow]
    rcases addPilots_bad E o hb (pilotOf (complexNumbers f)) pl hp hn rest data hr (by simpa using hl) P with ⟨h1, h2⟩ | ⟨c, cs, h1, h2, h3⟩ | ⟨e, e', h1, h2, h3⟩
    · rw [h1, h2]
      refine ⟨fun _ => rfl, fun iq h hne => ?_, fun e h => ?_⟩
      · exact absurd (Except.ok.inj h).symm hne
      · cases h
    · rw [h1, h3]
      refine ⟨fun h => ?_, fun iq h hne => rfl, fun e h => ?_⟩
      · have h := Except.ok.inj h
        beta_reduce at h
        rw [List.flatMap_cons] at h
        have h := congrArg List.length h
        rw [List.length_append, List.length_nil] at h
        have := C104.cyclicPrefix_ge CP (ofdmIfft c)
        rw [ofdmIfft_length, h2] at this
        omega
      · cases h
    · rw [h1, h3]
      refine ⟨fun h => ?_, fun iq h => ?_, fun e'' h => ⟨e', ?_, rfl⟩⟩
      · cases h
      · cases h
      · rcases h2 with h2 | h2
        · exact Or.inl h2
        · right; rw [h2]; exact Except.error.inj h

/-- **C151 (new objects).**  A new object starts in the state of the one with flat values, and the stored modulators agree in everything but the values. -/
theorem C151_start {α : Type} (s : OfdmStored α) (v : PilotValuesNd α) : (withValues s v).start = runWith v s.start := rfl

/-! Non-vacuity: a modulator with two pilots; its values as a flat list, as a 2 × 1 array and as a 2 × 2 array; one symbol. -/

/-- The modulator with the flat list of values. -/
noncomputable def flat2 : OfdmStored ℂ := ⟨8, .BPSK, 1, 1, 1, some ⟨[[-2, 1]], 2, .array [1, -1]⟩, 0, 0⟩

theorem flat2_init : ofdmInit (.int 8) (.str "BPSK") (.int 1) (.int 1) (.int 1) (.arr1 [-2, 1]) (.arr [1, -1]) (.int 0) (.int 0) = .ok flat2 := rfl

example : ofdmInitNd (.int 8) (.str "BPSK") (.int 1) (.int 1) (.int 1) (.arr1 [-2, 1]) (.arr [2, 1] [1, -1]) (.int 0) (.int 0) = .ok (withValues flat2 (.array [2, 1] [1, -1])) := by
  rw [C151_constructor _ _ _ _ _ _ 2 [1] [1, -1] [1, -1] rfl, flat2_init]; rfl

example : ofdmInitNd (.int 8) (.str "BPSK") (.int 1) (.int 1) (.int 1) (.arr1 [-2, 1]) (.arr [2, 2] [1, -1, 0, 1]) (.int 0) (.int 0) = .ok (withValues flat2 (.array [2, 2] [1, -1, 0, 1])) := by
  rw [C151_constructor _ _ _ _ _ _ 2 [2] [1, -1, 0, 1] [1, -1] rfl, flat2_init]; rfl

theorem flat2_built : Built flat2 := C103.C103_built (.int 8) (.str "BPSK") (.int 1) (.int 1) (.int 1) (.arr1 [-2, 1]) (.arr [1, -1]) (.int 0) (.int 0) trivial _ rfl

theorem flat2_ready : Ready flat2.start [3] [1, 0, 1] false := by
  have hL : flat2.start.stored.splitLength = 3 := rfl
  refine ⟨rfl, by rw [hL]; decide, Or.inr (by rw [hL]; rfl), by decide, ⟨3, rfl, Or.inr (Or.inl rfl)⟩, ?_⟩
  intro pl hp h0 n hn
  cases hp
  rw [hL] at hn
  have hn2 : n < 1 := hn
  obtain rfl : n = 0 := by omega
  refine ⟨by decide, by decide, (by intro h; cases h), [-2, 1], rfl, by decide, ?_⟩
  show ∀ t ∈ ([-2, 1] : List Int), t ∈ allTones 8 ∧ t ≠ 0 ∧ ¬ isGuard 8 1 1 t
  decide

/-- The 2 × 1 array sends what the flat list sends; the 2 × 2 array sends nothing. -/
example (E : PyErr) : ∃ iq, ((OfdmRun.bitsToIQ 1 (1 / 4) (.arr [3] [1, 0, 1]) false).call flat2.start).1 = .ok iq ∧
    ((OfdmRunNd.bitsToIQ E 1 (1 / 4) (.arr [3] [1, 0, 1]) false).call (withValues flat2 (.array [2, 1] [1, -1])).start).1 = .ok iq ∧
    ∃ e, ((OfdmRunNd.bitsToIQ E 1 (1 / 4) (.arr [3] [1, 0, 1]) false).call (withValues flat2 (.array [2, 2] [1, -1, 0, 1])).start).1 = e ∧ (iq ≠ [] → e = .error E) := by
  obtain ⟨iq, h⟩ := ((C103.C103_accepts 1 (1 / 4) flat2.start flat2_built false).1 _ _).2 flat2_ready
  refine ⟨iq, h, ?_, _, rfl, fun hne => ?_⟩
  · have := congrArg Prod.fst (C151_flat E 1 (1 / 4) flat2.start 2 [1] [1, -1] (by simp) rfl ⟨_, rfl, rfl⟩ (.arr [3] [1, 0, 1]) false)
    exact this.trans h
  · exact congrArg Prod.fst ((C151_refused E 1 (1 / 4) flat2.start flat2_built _ rfl (by decide) [2] [1, -1, 0, 1] (by decide) (by rfl) (.arr [3] [1, 0, 1]) false).2.1 iq h hne)

end SunPhy.C151
