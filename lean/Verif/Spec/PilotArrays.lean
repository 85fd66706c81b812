import Verif.Model.MemoryPilots
/-
A program that uses `Ofdm_modulator`, without references.  Two versions: modulators that keep their own copy of the pilots (`copying = true`), and modulators that look at the arrays of the program
whenever they need a pilot (`copying = false`; only arrays, lists are copied in both versions).
-/
namespace SunPhy.Spec
open SunPhy
noncomputable section

/-- A modulator, and the numbers of the arrays it looks at. -/
structure PilotUser where
  run : OfdmRun ℂ
  factor : ℝ
  CP : ℚ
  indicesFrom : Option Nat
  valuesFrom : Option Nat

/-- The contents of the arrays that the program holds, the modulators, what the program has seen. -/
structure PilotWorld where
  objs : List PilotUser
  held : List PilotCell
  log : List Seen

/-- The modulator with the pilots that are in the arrays now. -/
def PilotUser.now (held : List PilotCell) (o : PilotUser) : OfdmRun ℂ :=
  match o.run.stored.pilots with
  | none => o.run
  | some pl =>
    { o.run with stored := { o.run.stored with pilots := some {
        sets := match o.indicesFrom with | none => pl.sets | some j => (held.getD j .free).sets
        nPilots := pl.nPilots
        values := match o.valuesFrom with | none => pl.values | some j => .array (held.getD j .free).vals } } }

/-- The array that a new modulator will look at (none if it has copied the contents). -/
def watch (copying : Bool) (held : List PilotCell) (j : Nat) : Option Nat := if copying || (held.getD j .free).isList then none else some j

def watchValues (copying : Bool) (held : List PilotCell) : ValuesFrom → Option Nat
  | .held j => watch copying held j
  | _ => none

def PilotWorld.step (copying : Bool) (w : PilotWorld) : PilotEvent → PilotWorld
  | .make c => { w with held := w.held ++ [c] }
  | .write i c => if (w.held.getD i .free).fits c then { w with held := w.held.set i c } else w
  | .construct args indices values =>
    match indicesArg (w.held[·]?) indices, valuesArg (w.held[·]?) values with
    | some ia, some va =>
      match args.init ia va with
      | .error e => { w with log := w.log ++ [.raised e] }
      | .ok s => { objs := w.objs ++ [{ run := s.start, factor := args.modulation_factor, CP := args.CP, indicesFrom := indices.bind (watch copying w.held),
                                        valuesFrom := watchValues copying w.held values }]
                   held := w.held, log := w.log ++ [.done] }
    | _, _ => w
  | .call i j pad =>
    match w.objs[i]?, w.held[j]? with
    | some o, some (.message x) =>
      match (OfdmRun.bitsToIQ o.factor o.CP x pad).call (o.now w.held) with
      | (.ok iq, o') => { objs := w.objs.set i { o with run := o' }, held := w.held ++ [.samples iq], log := w.log ++ [.done] }
      | (.error e, o') => { objs := w.objs.set i { o with run := o' }, held := w.held, log := w.log ++ [.raised e] }
    | _, _ => w
  | .getters i =>
    match w.objs[i]? with
    | some o => { w with log := w.log ++ [.state o.run.columnIndex o.run.pn9] }
    | none => w

def PilotWorld.runProgram (copying : Bool) (l : List PilotEvent) : PilotWorld := l.foldl (PilotWorld.step copying) ⟨[], [], []⟩

/-- The event hands the `i`-th array or list to a constructor. -/
def HandsOver (e : PilotEvent) (i : Nat) : Prop := ∃ args indices values, e = .construct args indices values ∧ (indices = some i ∨ values = .held i)

/-- No array is written to after it was handed to a constructor (lists may be). -/
def Untouched (l : List PilotEvent) : Prop :=
  ∀ l₁ e l₂, l = l₁ ++ e :: l₂ → ∀ i, HandsOver e i → ∀ c, .write i c ∈ l₂ → c.isList = true

end
end SunPhy.Spec
