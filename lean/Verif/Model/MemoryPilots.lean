import Verif.Model.OfdmFull
/-
`Ofdm_modulator` with the pilot arrays as *references*, and programs that use it.  The constructor copies lists (`np.asarray`), but it keeps the arrays it is given: `_pilots_indices` and
`_pilots_values` name arrays of the program, which can change them later.  `Model/OfdmFull.lean` is the same class with pilots that never change.

Simplifications: `_subcarriers` and arrays that are neither stored nor returned have no address; `modulation_factor` and `CP` are numbers; an array holds either pilot tones, or pilot values, or a message,
or a signal; a program changes entries of an array, not its shape.
-/
namespace SunPhy
noncomputable section

/-- Contents of an array or list that a program holds. -/
inductive PilotCell
  /-- pilot tones, in a list or in an array -/
  | indices (isList : Bool) (a : IndicesArg)
  /-- pilot values, in a list or in an array -/
  | values (isList : Bool) (a : ValuesArg ℂ)
  | message (a : BitsArg)
  | samples (s : List ℂ)
  | free

namespace PilotCell

/-- The pilot sets in an array (`reshape(-1, 1)` of a one-dimensional array is a view, `ofdm_modulator.py:125`). -/
def sets : PilotCell → List (List Int)
  | .indices _ (.arr1 l) => [l]
  | .indices _ (.arr2 _ cols) => cols
  | _ => []

/-- The pilot values in an array. -/
def vals : PilotCell → List ℂ
  | .values _ (.arr v) => v
  | _ => []

def isList : PilotCell → Bool
  | .indices b _ => b
  | .values b _ => b
  | _ => false

/-- `np.asarray` of a list (`ofdm_modulator.py:98-99`, `:104-105`). -/
def asArray : PilotCell → PilotCell
  | .indices _ a => .indices false a
  | .values _ a => .values false a
  | c => c

/-- Contents that can be written into an array (its shape stays) or into a list. -/
def fits : PilotCell → PilotCell → Bool
  | .indices false (.arr1 l), .indices false (.arr1 l') => l.length == l'.length
  | .indices false (.arr2 r c), .indices false (.arr2 r' c') => r == r' && c.length == c'.length && c'.all (·.length == r)
  | .indices true _, .indices true _ => true
  | .values false (.arr v), .values false (.arr v') => v.length == v'.length
  | .values true _, .values true _ => true
  | .message _, .message _ => true
  | .samples s, .samples s' => s.length == s'.length
  | _, _ => false

end PilotCell

/-- Memory: contents by address; `next` is the first unused address. -/
structure PilotMem where
  next : Nat
  cell : Nat → PilotCell

def PilotMem.push (m : PilotMem) (c : PilotCell) : PilotMem := ⟨m.next + 1, fun a => if a = m.next then c else m.cell a⟩
def PilotMem.put (m : PilotMem) (a : Nat) (c : PilotCell) : PilotMem := ⟨m.next, fun b => if b = a then c else m.cell b⟩

/-- Constructor arguments other than the pilots, `ofdm_modulator.py:19-21`. -/
structure ModulatorArgs where
  N_FFT : PyVal
  modulation : PyVal
  modulation_factor : ℝ
  CP : ℚ
  padding_left : PyVal
  padding_right : PyVal
  frequency_spreading : PyVal
  initial_pilot_set : PyVal
  initial_pn9_seed : PyVal

/-- The argument `pilots_values`: `None`, a string, or the `j`-th array of the program. -/
inductive ValuesFrom
  | none | str (s : String) | held (j : Nat)

/-- What a program does. -/
inductive PilotEvent
  /-- make an array or a list -/
  | make (c : PilotCell)
  /-- write into the `i`-th array or list that the program holds -/
  | write (i : Nat) (c : PilotCell)
  /-- `Ofdm_modulator(…, pilots_indices = arrays[j] or None, pilots_values = …)` -/
  | construct (args : ModulatorArgs) (indices : Option Nat) (values : ValuesFrom)
  /-- `objects[i].bitsToIQ(arrays[j], pad)`; a returned signal is held from now on -/
  | call (i j : Nat) (pad : Bool)
  /-- `objects[i].get_pilot_set_index()`, `objects[i].get_pn9_value()` -/
  | getters (i : Nat)

/-- What the program sees of a constructor, of a call and of the getters (returned signals are in the arrays). -/
inductive Seen
  | done | raised (e : PyErr) | state (pilotSet pn9 : Int)

/-- The pilot arguments that a constructor sees (`none`: an array of another kind; such programs are left out). -/
def indicesArg (look : Nat → Option PilotCell) : Option Nat → Option IndicesArg
  | none => some .none
  | some j => match look j with
    | some (.indices _ (.arr1 l)) => some (.arr1 l)
    | some (.indices _ (.arr2 r cols)) => some (.arr2 r cols)
    | some (.indices _ .arrOther) => some .arrOther
    | _ => none

def valuesArg (look : Nat → Option PilotCell) : ValuesFrom → Option (ValuesArg ℂ)
  | .none => some .none
  | .str s => some (.str s)
  | .held j => match look j with
    | some (.values _ (.arr v)) => some (.arr v)
    | some (.values _ .arr0) => some .arr0
    | _ => none

/-- `Ofdm_modulator.__init__`, `ofdm_modulator.py:66-152`. -/
def ModulatorArgs.init (c : ModulatorArgs) (indices : IndicesArg) (values : ValuesArg ℂ) : Res (OfdmStored ℂ) :=
  ofdmInit c.N_FFT c.modulation c.padding_left c.padding_right c.frequency_spreading indices values c.initial_pilot_set c.initial_pn9_seed

/-- An `Ofdm_modulator`: the stored numbers (`pilots` is not used), `_N_pilots`, and the addresses `_pilots_indices`, `_pilots_values` (none for `"pn9"`). -/
structure PilotRefs where
  stored : OfdmStored ℂ
  factor : ℝ
  CP : ℚ
  nPilots : Nat
  pilots : Option (Nat × Option Nat)
  columnIndex : Int
  pn9 : Int

/-- The modulator with the pilots that its references name at this moment (`ofdm_modulator.py:329-345` reads the arrays). -/
def PilotRefs.now (m : PilotMem) (o : PilotRefs) : OfdmRun ℂ :=
  { stored := { o.stored with pilots := o.pilots.map fun p =>
      { sets := (m.cell p.1).sets, nPilots := o.nPilots, values := match p.2 with | some b => .array (m.cell b).vals | none => .pn9 } }
    columnIndex := o.columnIndex, pn9 := o.pn9 }

/-- The program, with memory: modulators, the addresses of the arrays that the program holds, what the program has seen. -/
structure PilotHeap where
  mem : PilotMem
  objs : List PilotRefs
  held : List Nat
  log : List Seen

/-- The array that an attribute will name: the array itself, or a copy of a list. -/
def referTo (m : PilotMem) (a : Nat) : PilotMem × Nat := if (m.cell a).isList then (m.push (m.cell a).asArray, m.next) else (m, a)

/-- The references of a new modulator, `ofdm_modulator.py:98-127`. -/
def referPilots (held : List Nat) (m : PilotMem) (indices : Option Nat) (values : ValuesFrom) : PilotMem × Option (Nat × Option Nat) :=
  match indices.bind (held[·]?) with
  | none => (m, none)
  | some a =>
    let r := referTo m a
    match values with
    | .held j =>
      match held[j]? with
      | some b => let q := referTo r.1 b; (q.1, some (r.2, some q.2))
      | none => (m, none)
    | .str _ => (r.1, some (r.2, none))
    | .none => (m, none)

/-- One step. -/
def PilotHeap.step (w : PilotHeap) : PilotEvent → PilotHeap
  | .make c => { w with mem := w.mem.push c, held := w.held ++ [w.mem.next] }
  | .write i c =>
    match w.held[i]? with
    | some a => if (w.mem.cell a).fits c then { w with mem := w.mem.put a c } else w
    | none => w
  | .construct args indices values =>
    match indicesArg (fun j => (w.held[j]?).map w.mem.cell) indices, valuesArg (fun j => (w.held[j]?).map w.mem.cell) values with
    | some ia, some va =>
      match args.init ia va with
      | .error e => { w with log := w.log ++ [.raised e] }
      | .ok s =>
        let r := referPilots w.held w.mem indices values
        { mem := r.1, objs := w.objs ++ [{ stored := { s with pilots := none }, factor := args.modulation_factor, CP := args.CP, nPilots := s.nPilots, pilots := r.2,
                                           columnIndex := s.initialPilotSet, pn9 := s.initialSeed }]
          held := w.held, log := w.log ++ [.done] }
    | _, _ => w
  | .call i j pad =>
    match w.objs[i]?, w.held[j]? with
    | some o, some a =>
      match w.mem.cell a with
      | .message x =>
        match (OfdmRun.bitsToIQ o.factor o.CP x pad).call (o.now w.mem) with
        | (.ok iq, o') => { mem := w.mem.push (.samples iq), objs := w.objs.set i { o with columnIndex := o'.columnIndex, pn9 := o'.pn9 }
                            held := w.held ++ [w.mem.next], log := w.log ++ [.done] }
        | (.error e, o') => { w with objs := w.objs.set i { o with columnIndex := o'.columnIndex, pn9 := o'.pn9 }, log := w.log ++ [.raised e] }
      | _ => w
    | _, _ => w
  | .getters i =>
    match w.objs[i]? with
    | some o => { w with log := w.log ++ [.state o.columnIndex o.pn9] }
    | none => w

def PilotHeap.run (l : List PilotEvent) : PilotHeap := l.foldl PilotHeap.step ⟨⟨0, fun _ => .free⟩, [], [], []⟩

end
end SunPhy
