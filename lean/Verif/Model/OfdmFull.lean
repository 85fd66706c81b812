import Verif.Model.OfdmCtor
import Verif.Model.ModulationsFull
import Verif.Model.Pn9Int
import Verif.Model.Signal
/-
Model of a running `Ofdm_modulator` (`sun_phy/mr_ofdm/ofdm_modulator.py`) for *every* tuple of arguments its constructor accepts
(`Model/OfdmCtor.lean`) and every array handed to `bitsToIQ`: negative paddings, negative or too large initial pilot set, any integer seed,
pilot tones anywhere, arrays of any shape with any entries, split lengths that do not fit.  `Model/OfdmMod.lean`, `OfdmSubcarriers.lean` and
`Signal.lean` are the restriction to binary messages and non-negative numbers used by `Mr_ofdm_modulator`; `Props/C103.lean` relates the two.
-/
namespace SunPhy

/-- The argument `bits` of `Ofdm_modulator.bitsToIQ`: an array (or a list, which `np.asarray` converts, `ofdm_modulator.py:432-433`), given by its
shape and its entries in C order, or anything else. -/
inductive BitsArg
  | arr (shape : List Nat) (data : List ℚ) | notArray

/-- The `Ofdm_modulator` object: what the constructor stored and the two attributes that change, `_pilots_column_index` (`:152`) and the
register of `_pseudo_random_sequence` (`:131`). -/
structure OfdmRun (α : Type) where
  stored : OfdmStored α
  columnIndex : Int
  pn9 : Int

/-- The object right after `__init__`, `ofdm_modulator.py:131`, `:152`. -/
def OfdmStored.start {α : Type} (s : OfdmStored α) : OfdmRun α := ⟨s, s.initialPilotSet, s.initialSeed⟩

section
variable {α : Type}

/-- `_N_pilots`, `ofdm_modulator.py:110`, `:129`. -/
def OfdmStored.nPilots (s : OfdmStored α) : Nat := (s.pilots.map (·.nPilots)).getD 0

/-- `_message_split_length`, `ofdm_modulator.py:148-149` (`int` truncates toward zero). -/
def OfdmStored.splitLength (s : OfdmStored α) : Int :=
  (((s.nFFT : Int) - s.nPilots - s.paddingLeft - s.paddingRight - 1) * s.modulation.bitsPerSymbol).tdiv s.frequencySpreading

/-- `np.squeeze` and the checks on the number of dimensions, `ofdm_modulator.py:432-440`: axes of size 1 are removed; exactly one must remain.
The entries of the 1-D array are those given. -/
def ofdmSqueeze : BitsArg → Res (List ℚ)
  | .arr shape data => if (shape.filter (· ≠ 1)).length = 1 then .ok data else .error .ValueError
  | .notArray => .error .ValueError

/-- The size check of `bitsToIQ` (`ofdm_modulator.py:441-443`) and `_split_message` (`:154-191`).  `np.mod(n, 0)` is 0, so a split length 0 passes
the check; it then makes the division fail when padding, and `reshape` otherwise.  A negative split length makes `np.zeros` or `reshape` fail.
Column `j` of the result is `bits[j*L:(j+1)*L]` (Fortran order). -/
def ofdmSplitFull (L : Int) (data : List ℚ) (pad : Bool) : Res (Mat ℚ) :=
  if L ≤ 0 then
    if pad ∧ L = 0 then .error .ZeroDivisionError else .error .ValueError
  else
    let L := L.toNat
    if data.length % L ≠ 0 ∧ ¬ pad then .error .ValueError
    else
      let missing := ceilDiv data.length L * L - data.length
      let data := if pad then data ++ List.replicate missing 0 else data
      .ok ⟨L, data.length / L, fun i j => data.getD (j * L + i) 0⟩

/-- `available_channels_global`, `ofdm_modulator.py:295-313`: only positive paddings are removed; `list.remove(0)` raises `ValueError` when DC
has been removed with the padding. -/
def ofdmAvailable (N : Nat) (padL padR : Int) : Res (List Int) :=
  let lo : Int := (-(N : Int)) / 2
  let hi : Int := (N : Int) / 2
  let l := (List.range (hi - lo).toNat).map fun (i : Nat) => lo + (i : Int)
  let l := if padL > 0 then l.drop (pyBound l.length padL) else l
  let l := if padR > 0 then l.take (pyBound l.length (-padR)) else l
  if (0 : Int) ∈ l then .ok (l.erase 0) else .error .ValueError

/-- Loop state of the pilot insertion for one symbol. -/
structure PilotLoopI (α : Type) where
  channels : List α
  available : List Int
  pn9 : Int
  valuesIndex : Nat

/-- Body of the pilot loop, `ofdm_modulator.py:334-350`: as `insertPilot`, with a generator register holding any integer. -/
def insertPilotI (N : Nat) (pilotVal : Int → α) (values : PilotValues α) (s : PilotLoopI α) (p : Int) : Res (PilotLoopI α) × Int :=
  let (val?, pn9', vi') : Option α × Int × Nat :=
    match values with
    | .pn9 => let (b, g) := pn9NextI s.pn9; (some (pilotVal (sgn b)), g, s.valuesIndex)
    | .array vals =>
      (vals[s.valuesIndex]?, s.pn9, if s.valuesIndex + 1 ≥ vals.length then 0 else s.valuesIndex + 1)
  match val? with
  | none => (.error .IndexError, pn9')
  | some v =>
    let row : Int := p + (N : Int) / 2
    if row ≥ N ∨ row < -(N : Int) then (.error .IndexError, pn9')
    else
      let i := if row < 0 then (row + N).toNat else row.toNat
      if p ∈ s.available then
        (.ok { channels := s.channels.set i v, available := s.available.erase p, pn9 := pn9', valuesIndex := vi' }, pn9')
      else (.error .ValueError, pn9')

/-- The pilot loop of one symbol, `ofdm_modulator.py:334-350`. -/
def insertPilotsI (N : Nat) (pilotVal : Int → α) (values : PilotValues α) : PilotLoopI α → List Int → Res (PilotLoopI α) × Int
  | s, [] => (.ok s, s.pn9)
  | s, p :: ps =>
    match insertPilotI N pilotVal values s p with
    | (.error e, g) => (.error e, g)
    | (.ok s', _) => insertPilotsI N pilotVal values s' ps

/-- `self._pilots_indices[:, self._pilots_column_index]`, `ofdm_modulator.py:329`, `:334`: negative indices count from the end, `IndexError` outside. -/
def pilotSetAt (sets : List (List Int)) (i : Int) : Option (List Int) :=
  if 0 ≤ i then sets[i.toNat]? else if -(sets.length : Int) ≤ i then sets[(i + sets.length).toNat]? else none

variable [Zero α]

/-- One iteration of the symbol loop, `ofdm_modulator.py:324-361`. -/
def addPilotsSymbolI (N : Nat) (pilotVal : Int → α) (pl : Pilots α) (avail : List Int) (vi : Nat) (idx : Int) (g : Int) (col : List α) :
    Res (List α × Nat) × Int × Int :=
  match pilotSetAt pl.sets idx with
  | none => (.error .IndexError, idx, g)
  | some set =>
    match insertPilotsI N pilotVal pl.values { channels := List.replicate N 0, available := avail, pn9 := g, valuesIndex := vi } set with
    | (.error e, g') => (.error e, idx, g')
    | (.ok s1, g') =>
      let nxt := if idx + 1 ≥ pl.sets.length then 0 else idx + 1
      match placeData N s1.channels s1.available col with
      | .error e => (.error e, nxt, g')
      | .ok ch => (.ok (ch, s1.valuesIndex), nxt, g')

/-- The symbol loop, `ofdm_modulator.py:324-361`. -/
def addPilotsSymbolsI (N : Nat) (pilotVal : Int → α) (pl : Pilots α) (avail : List Int) :
    Nat → Int → Int → List (List α) → Res (List (List α)) × Int × Int
  | _, idx, g, [] => (.ok [], idx, g)
  | vi, idx, g, col :: cols =>
    match addPilotsSymbolI N pilotVal pl avail vi idx g col with
    | (.error e, idx', g') => (.error e, idx', g')
    | (.ok (ch, vi'), idx', g') =>
      match addPilotsSymbolsI N pilotVal pl avail vi' idx' g' cols with
      | (.error e, r) => (.error e, r)
      | (.ok chs, r) => (.ok (ch :: chs), r)

/-- The columns of a two-dimensional array. -/
def Mat.columns {β : Type} (M : Mat β) : List (List β) := (List.range M.cols).map fun j => (List.range M.rows).map fun i => M.at' i j

/-- `_add_pilots_and_padding(message)`, `ofdm_modulator.py:274-366`.  Without pilots all columns are stored at once (`:363`), so the number of
rows is checked even when there is no column. -/
def OfdmRun.addPilots (o : OfdmRun α) (pilotVal : Int → α) (M : Mat α) : Res (List (List α)) × OfdmRun α :=
  match ofdmAvailable o.stored.nFFT o.stored.paddingLeft o.stored.paddingRight with
  | .error e => (.error e, o)
  | .ok avail =>
    let plain : Res (List (List α)) :=
      if M.rows = avail.length ∨ M.rows = 1 then M.columns.mapM (placeData o.stored.nFFT (List.replicate o.stored.nFFT 0) avail)
      else .error .ValueError
    match o.stored.pilots with
    | some pl =>
      if pl.nPilots > 0 then
        let (r, idx, g) := addPilotsSymbolsI o.stored.nFFT pilotVal pl avail 0 o.columnIndex o.pn9 M.columns
        (r, { o with columnIndex := idx, pn9 := g })
      else (plain, o)
    | none => (plain, o)

end

section
variable {α : Type} [Mul α] [Zero α]

/-- `_constellation_map(message)`, `ofdm_modulator.py:193-215`, with the modulator made by `get_modulator(modulation)` (`:135`). -/
def ofdmMapFull (nb : Numbers α) (k : ModKind) (M : Mat ℚ) : Res (Mat α) :=
  match (ModObj.mk k true 0).convert (.mat M) with
  | .ok (.mat R) => .ok (R.map fun z => nb.ofGI z * nb.factor)
  | .ok _ => .error .ValueError        -- does not occur: `convert` of a 2-D array is a 2-D array
  | .error e => .error e

/-- Rows stacked above each other (`np.block([[a], [b]])`). -/
def Mat.vcat {β : Type} (A B : Mat β) : Mat β := ⟨A.rows + B.rows, A.cols, fun i j => if i < A.rows then A.at' i j else B.at' (i - A.rows) j⟩

/-- `message * phase`, `phase = np.exp(1j*2*np.pi*ph(k)/4)` with `k` the row number from 1, `ofdm_modulator.py:241-245`, `:257-268`. -/
def Mat.phase (nb : Numbers α) (ph : Nat → Nat) (M : Mat α) : Mat α := ⟨M.rows, M.cols, fun i j => M.at' i j * nb.rot (ph (i + 1))⟩

/-- `_frequency_spread(message)`, `ofdm_modulator.py:217-272`. -/
def ofdmSpreadFull (nb : Numbers α) (sf : Nat) (M : Mat α) : Res (Mat α) :=
  if sf = 1 then .ok M
  else if sf = 2 then .ok ((M.phase nb fun k => 2 * k - 1).vcat M)
  else if sf = 4 then .ok ((M.phase nb fun k => 2 * k - 1).vcat ((M.phase nb fun k => 3 * k - 1).vcat (M.vcat (M.phase nb fun k => k - 1))))
  else .error .ValueError

/-- `Ofdm_modulator.bitsToIQ(bits, pad)` up to and including `_add_pilots_and_padding`, `ofdm_modulator.py:414-460`. -/
def OfdmRun.subcarriers (nb : Numbers α) (a : BitsArg) (pad : Bool := false) : PyM (OfdmRun α) (List (List α)) := do
  let data ← PyM.lift (ofdmSqueeze a)
  let o ← get
  let split ← PyM.lift (ofdmSplitFull o.stored.splitLength data pad)
  let mapped ← PyM.lift (ofdmMapFull nb o.stored.modulation split)
  let spread ← PyM.lift (ofdmSpreadFull nb o.stored.frequencySpreading mapped)
  fun o => o.addPilots (pilotOf nb) spread

end

open Complex in
/-- `Ofdm_modulator.bitsToIQ(bits, pad)`, `ofdm_modulator.py:414-466`, for a modulation factor and cyclic prefix fraction given to the
constructor. -/
noncomputable def OfdmRun.bitsToIQ (factor : ℝ) (CP : ℚ) (a : BitsArg) (pad : Bool := false) : PyM (OfdmRun ℂ) (List ℂ) := do
  let cols ← OfdmRun.subcarriers (complexNumbers factor) a pad
  return cols.flatMap fun col => cyclicPrefix CP (ofdmIfft col)

end SunPhy
