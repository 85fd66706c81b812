import Verif.Model.Console
/-
What `Ofdm_modulator.bitsToIQ` writes to standard output: the methods of `Model/OfdmFull.lean` once more, with every `_print_verbose` in its place.
-/
namespace SunPhy

/-- Two texts left to the caller of the model: `str` of the modulation factor (a float) and of a one-dimensional integer array. -/
structure OfdmTexts where
  factor : String
  pilotSet : List Int → String

/-- `self._modulator.name`, `tools/modulations.py:212`. -/
def ModKind.show : ModKind → String
  | .BPSK => "BPSK" | .QPSK => "QPSK" | .QAM16 => "QAM16"

/-- `if c: raise e`. -/
def raiseIf {σ : Type} (c : Prop) [Decidable c] (e : PyErr) : PyM σ Unit := PyM.lift (if c then .error e else .ok ())

/-- The padding in `_split_message`, `ofdm_modulator.py:178-185`: `message.size / 0` raises `ZeroDivisionError`; with a negative split length the number of missing zeros is negative (and
`np.zeros` raises `ValueError`) unless the size is a multiple. -/
def ofdmPadP {σ : Type} (verbose : Bool) (L : Int) (data : List ℚ) : PyM (Console σ) (List ℚ) := do
  raiseIf (L = 0) .ZeroDivisionError
  raiseIf (L < 0 ∧ data.length % L.natAbs ≠ 0) .ValueError
  let missing := ceilDiv data.length L.natAbs * L.natAbs - data.length
  let message := data ++ List.replicate missing 0
  say verbose s!"    Padding message with {missing} zeros ({shape1 data.length} -> {shape1 message.length})"
  return message

/-- The size check of `bitsToIQ` (`ofdm_modulator.py:441-443`; `np.mod(n, 0)` is 0) and `_split_message` (`:154-191`): as `ofdmSplitFull`, with the lines printed before each exception
(`reshape` raises for a split length that is not positive). -/
def ofdmSplitP {σ : Type} (verbose : Bool) (L : Int) (data : List ℚ) (pad : Bool) : PyM (Console σ) (Mat ℚ) := do
  raiseIf (L ≠ 0 ∧ data.length % L.natAbs ≠ 0 ∧ ¬ pad) .ValueError
  say verbose "Splitting message..."
  let message ← (if pad then ofdmPadP verbose L data else pure data)
  raiseIf (L ≤ 0) .ValueError
  let M : Mat ℚ := ⟨L.toNat, message.length / L.toNat, fun i j => message.getD (j * L.toNat + i) 0⟩
  say verbose s!"    Splitting message from length {message.length} to {shape2 M.rows M.cols} ({M.rows} channels before mapping and {M.cols} OFDM symbols)"
  return M

section
variable {α : Type} [Mul α] [Zero α]

/-- `_constellation_map(message)`, `ofdm_modulator.py:193-215`. -/
def ofdmMapP {σ : Type} (verbose : Bool) (t : OfdmTexts) (nb : Numbers α) (k : ModKind) (M : Mat ℚ) : PyM (Console σ) (Mat α) := do
  say verbose s!"Constellation mapping using {k.show}..."
  say verbose s!"    Modulation factor is {t.factor}..."
  let R ← PyM.lift (ofdmMapFull nb k M)
  say verbose s!"    New message size {shape2 M.rows M.cols} -> {shape2 R.rows R.cols} ({R.rows} + pilots as IFFT channels and {R.cols} OFDM symbols)"
  return R

/-- `_frequency_spread(message)`, `ofdm_modulator.py:217-272`. -/
def ofdmSpreadP {σ : Type} (verbose : Bool) (nb : Numbers α) (sf : Nat) (M : Mat α) : PyM (Console σ) (Mat α) := do
  if sf = 1 then say verbose "Frequency spreading of 1 (no modification)"
  if sf = 2 then say verbose "Frequency spreading of 2 (2x repetition)"
  if sf = 4 then say verbose "Frequency spreading of 4 (4x repetition)"
  PyM.lift (ofdmSpreadFull nb sf M)

/-- `message_str` after the padding, `ofdm_modulator.py:286`, `:300-305`: an assignment to a slice replaces it by a list of possibly different size. -/
def guardDrawing (N : Nat) (padL padR : Int) : List Char :=
  let s := List.replicate N '-'
  let s := if padL > 0 then List.replicate padL.toNat '0' ++ s.drop padL.toNat else s
  if padR > 0 then s.take (s.length - padR.toNat) ++ List.replicate padR.toNat '0' else s

/-- `message_str[len(message_str)//2] = 'D'`, `ofdm_modulator.py:311`. -/
def dcDrawing (s : List Char) : List Char := s.set (s.length / 2) 'D'

/-- `message_str_i` after the pilot loop, `ofdm_modulator.py:326`, `:350`. -/
def pilotDrawing (N : Nat) (s : List Char) (tones : List Int) : List Char := tones.foldl (fun s p => s.set (p + (N : Int) / 2).toNat 'P') s

/-- The symbol loop, `ofdm_modulator.py:324-361`: as `addPilotsSymbolsI`. -/
def addPilotsSymbolsP (verbose : Bool) (t : OfdmTexts) (N : Nat) (pilotVal : Int → α) (pl : Pilots α) (avail : List Int) (drawing : List Char) :
    Nat → List (List α) → PyM (Console (OfdmRun α)) (List (List α))
  | _, [] => pure []
  | vi, col :: cols => do
    let o ← quietly get
    let set ← PyM.lift (match pilotSetAt pl.sets o.columnIndex with | some s => .ok s | none => .error .IndexError)
    say verbose s!"    Adding pilots at {t.pilotSet set} (set {o.columnIndex})"
    let r := insertPilotsI N pilotVal pl.values { channels := List.replicate N 0, available := avail, pn9 := o.pn9, valuesIndex := vi } set
    quietly (modify fun o => { o with pn9 := r.2 })
    let s ← PyM.lift r.1
    quietly (modify fun o => { o with columnIndex := o.columnIndex + 1 })
    if o.columnIndex + 1 ≥ pl.sets.length then
      quietly (modify fun o => { o with columnIndex := 0 })
      say verbose s!"    {String.ofList (pilotDrawing N drawing set)} ({N}x) (pilot set/index : 0)"
    let ch ← PyM.lift (placeData N s.channels s.available col)
    let chs ← addPilotsSymbolsP verbose t N pilotVal pl avail drawing s.valuesIndex cols
    return ch :: chs

/-- `_add_pilots_and_padding(message)`, `ofdm_modulator.py:274-366`. -/
def addPilotsP (verbose : Bool) (t : OfdmTexts) (pilotVal : Int → α) (M : Mat α) : PyM (Console (OfdmRun α)) (List (List α)) := do
  let s := (← quietly get).stored
  say verbose ("Adding OFDM " ++ (if s.nPilots ≠ 0 then "pilots, " else "") ++ "DC Tone and padding...")
  say verbose "  Message without pilots :"
  say verbose s!"    {String.ofList (List.replicate s.nFFT '-')} ({M.rows}x)"
  say verbose s!"  Adding padding ({s.paddingLeft}, {s.paddingRight})"
  let guards := guardDrawing s.nFFT s.paddingLeft s.paddingRight
  say verbose s!"    {String.ofList guards} ({M.rows}x)"
  say verbose "  Adding DC Tone"
  let drawing := dcDrawing guards
  say verbose s!"    {String.ofList drawing} ({s.nFFT}x)"
  let avail ← PyM.lift (ofdmAvailable s.nFFT s.paddingLeft s.paddingRight)
  let plain : PyM (Console (OfdmRun α)) (List (List α)) :=
    PyM.lift (if M.rows = avail.length ∨ M.rows = 1 then M.columns.mapM (placeData s.nFFT (List.replicate s.nFFT 0) avail) else .error .ValueError)
  match s.pilots with
  | some pl => if pl.nPilots > 0 then addPilotsSymbolsP verbose t s.nFFT pilotVal pl avail drawing 0 M.columns else plain
  | none => plain

/-- `Ofdm_modulator.bitsToIQ(bits, pad)` up to and including `_add_pilots_and_padding`, `ofdm_modulator.py:414-460`. -/
def OfdmRun.subcarriersP (verbose : Bool) (t : OfdmTexts) (nb : Numbers α) (a : BitsArg) (pad : Bool := false) : PyM (Console (OfdmRun α)) (List (List α)) := do
  let data ← PyM.lift (ofdmSqueeze a)
  let s := (← quietly get).stored
  let split ← ofdmSplitP verbose s.splitLength data pad
  let mapped ← ofdmMapP verbose t nb s.modulation split
  let spread ← ofdmSpreadP verbose nb s.frequencySpreading mapped
  addPilotsP verbose t (pilotOf nb) spread

end

/-- `Ofdm_modulator.bitsToIQ(bits, pad)`, `ofdm_modulator.py:414-466`. -/
noncomputable def OfdmRun.bitsToIQP (verbose : Bool) (t : OfdmTexts) (factor : ℝ) (CP : ℚ) (a : BitsArg) (pad : Bool := false) : PyM (Console (OfdmRun ℂ)) (List ℂ) := do
  let cols ← OfdmRun.subcarriersP verbose t (complexNumbers factor) a pad
  let N := (← quietly get).stored.nFFT
  say verbose "Applying iFFT to the signal..."
  if CP > 0 then
    say verbose "Adding cyclic prefix..."
    say verbose s!"    Signal {shape2 N cols.length} -> {shape2 (N - pyBound N (-⌊(N : ℚ) * CP⌋) + N) cols.length}"
  return cols.flatMap fun col => cyclicPrefix CP (ofdmIfft col)

end SunPhy
