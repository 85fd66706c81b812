import Verif.Model.OfdmFull
/-
Model of `Ofdm_modulator` (`sun_phy/mr_ofdm/ofdm_modulator.py`) when `pilots_values` is an array of any number of dimensions.
`Model/OfdmCtor.lean` and `Model/OfdmFull.lean` treat strings, one-dimensional and 0-dimensional arrays.
-/
namespace SunPhy

/-- The argument `pilots_values`: `None`, a string, an array or list (`np.asarray`, `ofdm_modulator.py:104-105`) given by its shape and its entries in C
order, or anything else. -/
inductive ValuesArgNd (α : Type)
  | none | str (s : String) | arr (shape : List Nat) (data : List α) | other

/-- The stored pilot values, `ofdm_modulator.py:112-122`. -/
inductive PilotValuesNd (α : Type)
  | pn9 | array (shape : List Nat) (data : List α)

/-- The stored pilots, `ofdm_modulator.py:110`, `:122-127`. -/
structure PilotsNd (α : Type) where
  sets : List (List Int)
  nPilots : Nat
  values : PilotValuesNd α

/-- What the constructor stores (`ofdm_modulator.py:131-152`). -/
structure OfdmStoredNd (α : Type) where
  nFFT : Nat
  modulation : ModKind
  paddingLeft : Int
  paddingRight : Int
  frequencySpreading : Nat
  pilots : Option (PilotsNd α)
  initialPilotSet : Int
  initialSeed : Int

/-- The "Manage pilots" block, `ofdm_modulator.py:94-129`.  Only the first dimension of the values is compared with the number of pilots (`:119`), and
that of a 0-dimensional array is not looked at. -/
def ofdmCheckPilotsNd {α : Type} (idx : IndicesArg) (vals : ValuesArgNd α) : Res (Option (PilotsNd α)) :=
  match vals with
  | .none => .ok Option.none
  | vals => do
    match idx with
    | .notArray | .none => .error .ValueError
    | .arr1 l => if nonDecreasing l then pure () else .error .ValueError
    | .arr2 _ cols => if cols.all nonDecreasing then pure () else .error .ValueError
    | .arrOther => pure ()                          -- refused two checks later with the same exception
    match vals with
    | .other => .error .ValueError
    | _ => pure ()
    let (n, sets) ← (match idx with
      | .arr1 l => (.ok (l.length, [l]) : Res (Nat × List (List Int)))
      | .arr2 r cols => .ok (r, cols)
      | _ => .error .ValueError)
    match vals with
    | .str s => if s = "pn9" then .ok (some { sets := sets, nPilots := n, values := .pn9 }) else .error .AttributeError
    | .arr [] data => .ok (some { sets := sets, nPilots := n, values := .array [] data })
    | .arr (d :: rest) data => if d ≠ n then .error .ValueError else .ok (some { sets := sets, nPilots := n, values := .array (d :: rest) data })
    | _ => .error .ValueError

/-- `pilots_indices` and `pilots_values` must both be given or both be `None`, `ofdm_modulator.py:78-81`. -/
def ofdmCheckBothNd {α : Type} (idx : IndicesArg) (vals : ValuesArgNd α) : Res Unit :=
  match idx, vals with
  | .none, .none => .ok ()
  | .none, _ => .error .ValueError
  | _, .none => .error .ValueError
  | _, _ => .ok ()

/-- `Ofdm_modulator.__init__`, `ofdm_modulator.py:66-152`, the checks in program order (`get_modulator` at `:135` is last). -/
def ofdmInitNd {α : Type} (N_FFT modulation padding_left padding_right frequency_spreading : PyVal) (pilots_indices : IndicesArg)
    (pilots_values : ValuesArgNd α) (initial_pilot_set initial_pn9_seed : PyVal) : Res (OfdmStoredNd α) := do
  let n ← ofdmCheckInt N_FFT
  ofdmRequire (isPowerOfTwo n)
  let m ← ofdmCheckStr modulation
  let l ← ofdmCheckInt padding_left
  let r ← ofdmCheckInt padding_right
  ofdmCheckBothNd pilots_indices pilots_values
  let f ← ofdmCheckInt frequency_spreading
  ofdmRequire (decide (f = 1 ∨ f = 2 ∨ f = 4))
  let ips ← ofdmCheckInt initial_pilot_set
  let seed ← ofdmCheckInt initial_pn9_seed
  let p ← ofdmCheckPilotsNd pilots_indices pilots_values
  let k ← getModulator m
  return { nFFT := n.toNat, modulation := k, paddingLeft := l, paddingRight := r, frequencySpreading := f.toNat, pilots := p,
           initialPilotSet := ips, initialSeed := seed }

/-- The `Ofdm_modulator` object: what the constructor stored and the two attributes that change (`ofdm_modulator.py:131`, `:152`). -/
structure OfdmRunNd (α : Type) where
  stored : OfdmStoredNd α
  columnIndex : Int
  pn9 : Int

/-- The object right after `__init__`, `ofdm_modulator.py:131`, `:152`. -/
def OfdmStoredNd.start {α : Type} (s : OfdmStoredNd α) : OfdmRunNd α := ⟨s, s.initialPilotSet, s.initialSeed⟩

section
variable {α : Type}

/-- `_N_pilots`, `ofdm_modulator.py:110`, `:129`. -/
def OfdmStoredNd.nPilots (s : OfdmStoredNd α) : Nat := (s.pilots.map (·.nPilots)).getD 0

/-- `_message_split_length`, `ofdm_modulator.py:148-149`. -/
def OfdmStoredNd.splitLength (s : OfdmStoredNd α) : Int :=
  (((s.nFFT : Int) - s.nPilots - s.paddingLeft - s.paddingRight - 1) * s.modulation.bitsPerSymbol).tdiv s.frequencySpreading

/-- `self._pilots_values[i]`, `ofdm_modulator.py:341`: the entries of the subarray, or nothing (`IndexError`) if the array has no dimension or the index is
too large. -/
def subarray (shape : List Nat) (data : List α) (i : Nat) : Option (List α) :=
  match shape with
  | [] => none
  | d :: rest => if i < d then some ((data.drop (i * rest.prod)).take rest.prod) else none

/-- Body of the pilot loop, `ofdm_modulator.py:334-350`.  The index wraps at the number of entries of the whole array (`:343-344`).  Storing an array
(`:346`) is possible when it has one entry; otherwise numpy raises an exception, `castErr`, after it has checked the row. -/
def insertPilotNd (castErr : PyErr) (N : Nat) (pilotVal : Int → α) (values : PilotValuesNd α) (s : PilotLoopI α) (p : Int) : Res (PilotLoopI α) × Int :=
  let (val?, pn9', vi') : Option (List α) × Int × Nat :=
    match values with
    | .pn9 => let (b, g) := pn9NextI s.pn9; (some [pilotVal (sgn b)], g, s.valuesIndex)
    | .array shape data =>
      (subarray shape data s.valuesIndex, s.pn9, if s.valuesIndex + 1 ≥ shape.prod then 0 else s.valuesIndex + 1)
  match val? with
  | none => (.error .IndexError, pn9')
  | some sub =>
    let row : Int := p + (N : Int) / 2
    if row ≥ N ∨ row < -(N : Int) then (.error .IndexError, pn9')
    else
      let i := if row < 0 then (row + N).toNat else row.toNat
      match sub with
      | [v] =>
        if p ∈ s.available then
          (.ok { channels := s.channels.set i v, available := s.available.erase p, pn9 := pn9', valuesIndex := vi' }, pn9')
        else (.error .ValueError, pn9')
      | _ => (.error castErr, pn9')

/-- The pilot loop of one symbol, `ofdm_modulator.py:334-350`. -/
def insertPilotsNd (castErr : PyErr) (N : Nat) (pilotVal : Int → α) (values : PilotValuesNd α) : PilotLoopI α → List Int → Res (PilotLoopI α) × Int
  | s, [] => (.ok s, s.pn9)
  | s, p :: ps =>
    match insertPilotNd castErr N pilotVal values s p with
    | (.error e, g) => (.error e, g)
    | (.ok s', _) => insertPilotsNd castErr N pilotVal values s' ps

variable [Zero α]

/-- One iteration of the symbol loop, `ofdm_modulator.py:324-361`. -/
def addPilotsSymbolNd (castErr : PyErr) (N : Nat) (pilotVal : Int → α) (pl : PilotsNd α) (avail : List Int) (vi : Nat) (idx : Int) (g : Int) (col : List α) :
    Res (List α × Nat) × Int × Int :=
  match pilotSetAt pl.sets idx with
  | none => (.error .IndexError, idx, g)
  | some set =>
    match insertPilotsNd castErr N pilotVal pl.values { channels := List.replicate N 0, available := avail, pn9 := g, valuesIndex := vi } set with
    | (.error e, g') => (.error e, idx, g')
    | (.ok s1, g') =>
      let nxt := if idx + 1 ≥ pl.sets.length then 0 else idx + 1
      match placeData N s1.channels s1.available col with
      | .error e => (.error e, nxt, g')
      | .ok ch => (.ok (ch, s1.valuesIndex), nxt, g')

/-- The symbol loop, `ofdm_modulator.py:324-361`. -/
def addPilotsSymbolsNd (castErr : PyErr) (N : Nat) (pilotVal : Int → α) (pl : PilotsNd α) (avail : List Int) :
    Nat → Int → Int → List (List α) → Res (List (List α)) × Int × Int
  | _, idx, g, [] => (.ok [], idx, g)
  | vi, idx, g, col :: cols =>
    match addPilotsSymbolNd castErr N pilotVal pl avail vi idx g col with
    | (.error e, idx', g') => (.error e, idx', g')
    | (.ok (ch, vi'), idx', g') =>
      match addPilotsSymbolsNd castErr N pilotVal pl avail vi' idx' g' cols with
      | (.error e, r) => (.error e, r)
      | (.ok chs, r) => (.ok (ch :: chs), r)

/-- `_add_pilots_and_padding(message)`, `ofdm_modulator.py:274-366`. -/
def OfdmRunNd.addPilots (castErr : PyErr) (o : OfdmRunNd α) (pilotVal : Int → α) (M : Mat α) : Res (List (List α)) × OfdmRunNd α :=
  match ofdmAvailable o.stored.nFFT o.stored.paddingLeft o.stored.paddingRight with
  | .error e => (.error e, o)
  | .ok avail =>
    let plain : Res (List (List α)) :=
      if M.rows = avail.length ∨ M.rows = 1 then M.columns.mapM (placeData o.stored.nFFT (List.replicate o.stored.nFFT 0) avail)
      else .error .ValueError
    match o.stored.pilots with
    | some pl =>
      if pl.nPilots > 0 then
        let (r, idx, g) := addPilotsSymbolsNd castErr o.stored.nFFT pilotVal pl avail 0 o.columnIndex o.pn9 M.columns
        (r, { o with columnIndex := idx, pn9 := g })
      else (plain, o)
    | none => (plain, o)

end

section
variable {α : Type} [Mul α] [Zero α]

/-- `Ofdm_modulator.bitsToIQ(bits, pad)` up to and including `_add_pilots_and_padding`, `ofdm_modulator.py:414-460`. -/
def OfdmRunNd.subcarriers (castErr : PyErr) (nb : Numbers α) (a : BitsArg) (pad : Bool := false) : PyM (OfdmRunNd α) (List (List α)) := do
  let data ← PyM.lift (ofdmSqueeze a)
  let o ← get
  let split ← PyM.lift (ofdmSplitFull o.stored.splitLength data pad)
  let mapped ← PyM.lift (ofdmMapFull nb o.stored.modulation split)
  let spread ← PyM.lift (ofdmSpreadFull nb o.stored.frequencySpreading mapped)
  fun o => o.addPilots castErr (pilotOf nb) spread

end

open Complex in
/-- `Ofdm_modulator.bitsToIQ(bits, pad)`, `ofdm_modulator.py:414-466`. -/
noncomputable def OfdmRunNd.bitsToIQ (castErr : PyErr) (factor : ℝ) (CP : ℚ) (a : BitsArg) (pad : Bool := false) : PyM (OfdmRunNd ℂ) (List ℂ) := do
  let cols ← OfdmRunNd.subcarriers castErr (complexNumbers factor) a pad
  return cols.flatMap fun col => cyclicPrefix CP (ofdmIfft col)

end SunPhy
