import Verif.Model.Pn9
import Verif.Model.Modulations
/-
Model of the bookkeeping of `sun_phy/mr_ofdm/ofdm_modulator.py` (`Ofdm_modulator`): symbol splitting, constellation
mapping, pilot / DC / guard placement and the persistent pilot state.  Frequency spreading, IFFT and cyclic prefix
are in `Model/Signal.lean`.  A 2-D array `(channels × symbols)` is a list of columns.
-/
namespace SunPhy

/-- `pilots_values`: the string `"pn9"` or an array of values (`ofdm_modulator.py:112-122`). -/
inductive PilotValues (α : Type) | pn9 | array (vals : List α)

/-- `pilots_indices` (as the list of its columns = pilot sets) with the pilot values. -/
structure Pilots (α : Type) where
  sets : List (List Int)
  nPilots : Nat                    -- `pilots_indices.shape[0]`
  values : PilotValues α

/-- Constructor parameters of `Ofdm_modulator` used by the bookkeeping (`ofdm_modulator.py:133-149`).  Paddings are
non-negative.  `pilots = none` models `pilots_values is None` (`_N_pilots = 0`). -/
structure OfdmCfg (α : Type) where
  nFFT : Nat
  modulation : ModKind
  paddingLeft : Nat
  paddingRight : Nat
  frequencySpreading : Nat
  pilots : Option (Pilots α)

/-- Mutable state of an `Ofdm_modulator`: `_pilots_column_index` and `_pseudo_random_sequence` (`:131`, `:152`). -/
structure OfdmState where
  pilotsColumnIndex : Nat
  pn9 : Pn9
  deriving DecidableEq, Repr

/-- Initial state, `ofdm_modulator.py:131`, `:152`. -/
def OfdmState.init (initialPilotSet : Nat := 0) (initialPn9Seed : Nat := 0x1FF) : OfdmState :=
  { pilotsColumnIndex := initialPilotSet, pn9 := Pn9.new initialPn9Seed }

/-- `get_pilot_set_index()`, `ofdm_modulator.py:502-514`. -/
def OfdmState.getPilotSetIndex (s : OfdmState) : Nat := s.pilotsColumnIndex
/-- `get_pn9_value()`, `ofdm_modulator.py:516-525`. -/
def OfdmState.getPn9Value (s : OfdmState) : Nat := s.pn9.getCurrentValue

section
variable {α : Type}

def OfdmCfg.nPilots (c : OfdmCfg α) : Nat := (c.pilots.map (·.nPilots)).getD 0

/-- `_message_split_length`, `ofdm_modulator.py:148-149`, returned by `get_number_of_bits_per_symbol()` (`:527-536`):
`int((N_FFT - N_pilots - padding_left - padding_right - DC) * N_bpsc / spreading)`, truncated toward zero. -/
def OfdmCfg.splitLength (c : OfdmCfg α) : Int :=
  (((c.nFFT : Int) - c.nPilots - c.paddingLeft - c.paddingRight - 1) * c.modulation.bitsPerSymbol).tdiv
    c.frequencySpreading

/-- `_split_message` with the size check of `bitsToIQ` (`ofdm_modulator.py:154-191`, `:441-446`): with
`pad = False` the size must be a multiple of the split length; with `pad = True` zeros are appended; then column `c` is
`bits[c*L:(c+1)*L]` (Fortran order).  A split length `≤ 0` makes `reshape` fail (`ValueError`), or `ZeroDivisionError`
when padding with split length 0. -/
def OfdmCfg.splitMessage (c : OfdmCfg α) (bits : Bits) (pad : Bool := false) : Res (List Bits) :=
  let L := c.splitLength
  if L ≤ 0 then
    if pad ∧ L = 0 then .error .ZeroDivisionError else .error .ValueError
  else
    let L := L.toNat
    if bits.length % L ≠ 0 ∧ ¬ pad then .error .ValueError
    else
      let missing := ceilDiv bits.length L * L - bits.length
      .ok (chunks L (if pad then bits ++ List.replicate missing false else bits))

/-- `available_channels_global` after guard tones and DC have been removed, `ofdm_modulator.py:295-313`;
`list.remove(0)` raises `ValueError` when 0 is absent. -/
def OfdmCfg.availableGlobal (c : OfdmCfg α) : Res (List Int) :=
  let lo : Int := (-(c.nFFT : Int)) / 2
  let hi : Int := (c.nFFT : Int) / 2
  let l := (List.range (hi - lo).toNat).map fun (i : Nat) => lo + (i : Int)
  let l := l.drop c.paddingLeft
  let l := if c.paddingRight > 0 then l.take (l.length - c.paddingRight) else l
  if (0 : Int) ∈ l then .ok (l.erase 0) else .error .ValueError

variable [Zero α]

/-- Loop state of the pilot insertion for one symbol. -/
structure PilotLoop (α : Type) where
  channels : List α
  available : List Int
  pn9 : Pn9
  valuesIndex : Nat

/-- Body of the loop of `ofdm_modulator.py:334-350` for one pilot tone `p`: choose the pilot value, store it at
`row_index = p + N_FFT//2` (`IndexError` outside the array, negative indices wrap) and remove the tone from the available
list (`ValueError` if it is not there).  The returned PN9 state is kept even when an exception is raised. -/
def insertPilot (N : Nat) (pilotVal : Int → α) (values : PilotValues α) (s : PilotLoop α) (p : Int) :
    Res (PilotLoop α) × Pn9 :=
  let (val?, pn9', vi') : Option α × Pn9 × Nat :=
    match values with
    | .pn9 => let (b, g) := s.pn9.next; (some (pilotVal (bpsk (b == 1))), g, s.valuesIndex)
    | .array vals =>
      (vals[s.valuesIndex]?, s.pn9, if s.valuesIndex + 1 ≥ vals.length then 0 else s.valuesIndex + 1)
  match val? with
  | none => (.error .IndexError, pn9')
  | some v =>
    let row : Int := p + (N : Int) / 2
    if row ≥ N ∨ row < -(N : Int) then (.error .IndexError, pn9')
    else
      let i := if row < 0 then (row + N).toNat else row.toNat
      if p ∈ s.available then
        (.ok { channels := s.channels.set i v, available := s.available.erase p, pn9 := pn9', valuesIndex := vi' }, pn9')
      else (.error .ValueError, pn9')

/-- The whole pilot loop of one symbol, `ofdm_modulator.py:334-350`. -/
def insertPilots (N : Nat) (pilotVal : Int → α) (values : PilotValues α) :
    PilotLoop α → List Int → Res (PilotLoop α) × Pn9
  | s, [] => (.ok s, s.pn9)
  | s, p :: ps =>
    match insertPilot N pilotVal values s p with
    | (.error e, g) => (.error e, g)
    | (.ok s', _) => insertPilots N pilotVal values s' ps

/-- `ifft_channels[[a + N//2 for a in available], c] = column`, `ofdm_modulator.py:360-361`, `:363`: lengths must agree
(or a single value is broadcast). -/
def placeData (N : Nat) (channels : List α) (available : List Int) (col : List α) : Res (List α) :=
  let put (vals : List α) := (available.zip vals).foldl (fun ch (a, v) => ch.set (a + (N : Int) / 2).toNat v) channels
  if col.length = available.length then .ok (put col)
  else match col with
    | [v] => .ok (put (List.replicate available.length v))
    | _ => .error .ValueError

/-- One iteration of the symbol loop, `ofdm_modulator.py:324-361`: column, `_pilots_values_index`, object state.
`_pilots_column_index` is advanced (with wrap-around) before the data is stored. -/
def addPilotsSymbol (c : OfdmCfg α) (pilotVal : Int → α) (pl : Pilots α) (availGlobal : List Int)
    (vi : Nat) (st : OfdmState) (col : List α) : Res (List α × Nat) × OfdmState :=
  match pl.sets[st.pilotsColumnIndex]? with
  | none => (.error .IndexError, st)
  | some set =>
    let s0 : PilotLoop α :=
      { channels := List.replicate c.nFFT 0, available := availGlobal, pn9 := st.pn9, valuesIndex := vi }
    match insertPilots c.nFFT pilotVal pl.values s0 set with
    | (.error e, g) => (.error e, { st with pn9 := g })
    | (.ok s1, g) =>
      let nxt := if st.pilotsColumnIndex + 1 ≥ pl.sets.length then 0 else st.pilotsColumnIndex + 1
      let st' : OfdmState := { pilotsColumnIndex := nxt, pn9 := g }
      match placeData c.nFFT s1.channels s1.available col with
      | .error e => (.error e, st')
      | .ok ch => (.ok (ch, s1.valuesIndex), st')

/-- The symbol loop of `ofdm_modulator.py:324-361`. -/
def addPilotsSymbols (c : OfdmCfg α) (pilotVal : Int → α) (pl : Pilots α) (availGlobal : List Int) :
    Nat → OfdmState → List (List α) → Res (List (List α)) × OfdmState
  | _, st, [] => (.ok [], st)
  | vi, st, col :: cols =>
    match addPilotsSymbol c pilotVal pl availGlobal vi st col with
    | (.error e, st') => (.error e, st')
    | (.ok (ch, vi'), st') =>
      match addPilotsSymbols c pilotVal pl availGlobal vi' st' cols with
      | (.error e, st'') => (.error e, st'')
      | (.ok chs, st'') => (.ok (ch :: chs), st'')

/-- `_add_pilots_and_padding(message)`, `ofdm_modulator.py:274-366`.  `pilotVal` embeds the BPSK pilot values ±1 into the
sample type. -/
def addPilotsAndPadding (c : OfdmCfg α) (pilotVal : Int → α) (st : OfdmState) (message : List (List α)) :
    Res (List (List α)) × OfdmState :=
  match c.availableGlobal with
  | .error e => (.error e, st)
  | .ok avail =>
    match c.pilots with
    | some pl =>
      if pl.nPilots > 0 then addPilotsSymbols c pilotVal pl avail 0 st message
      else (message.mapM (placeData c.nFFT (List.replicate c.nFFT 0) avail), st)
    | none => (message.mapM (placeData c.nFFT (List.replicate c.nFFT 0) avail), st)

end
end SunPhy
