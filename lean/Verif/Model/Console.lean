import Verif.Model.MrOfdmSignal
import Verif.Model.MrOqpskSignal
import Verif.Model.OfdmFull
/-
What the modulators write to standard output.  The methods of the three classes that print (`Ofdm_modulator`, `Mr_ofdm_modulator`, `Mr_o_qpsk_modulator`) are written here once more, with every
call of `print` and `_print_verbose` in its place; the other models leave them out.  (`Mr_fsk_modulator` contains one `print`, in the method `_PHR_mode_switch`, which raises before it gets there,
`C45_header_fails`, and which nothing calls.)  A line is the argument of one call of `print`.
-/
namespace SunPhy

/-- An object together with what has been printed so far. -/
structure Console (σ : Type) where
  obj : σ
  out : List String

section
variable {σ α : Type}

/-- A part of a method that prints nothing. -/
def quietly (m : PyM σ α) : PyM (Console σ) α := ExceptT.mk fun c => ((m.call c.obj).1, { c with obj := (m.call c.obj).2 })

/-- `print(s)`. -/
def printLine (s : String) : PyM (Console σ) Unit := ExceptT.mk fun c => (.ok (), { c with out := c.out ++ [s] })

/-- `_print_verbose(message)`: `ofdm_modulator.py:538-543`, `mr_ofdm_modulator.py:703-708`, `mr_o_qpsk_modulator.py:1164-1169`. -/
def say (verbose : Bool) (s : String) : PyM (Console σ) Unit := if verbose then printLine s else pure ()

end

/-- `str(a.shape)` for a one-dimensional array. -/
def shape1 (n : Nat) : String := s!"({n},)"
/-- `str(a.shape)` for a two-dimensional array. -/
def shape2 (r c : Nat) : String := s!"({r}, {c})"

/-! ### MR-O-QPSK -/

/-- `_TPC(message_binary, N)`, `mr_o_qpsk_modulator.py:705-752`, with the `print` of lines 743, 747, 750 (which do not look at the flag). -/
def tpcP {σ : Type} (verbose : Bool) (message : Bits) (N : Nat) : PyM (Console σ) (List (List Int)) := do
  let pad := message.length % 8
  let m := message ++ List.replicate pad false
  if pad > 0 then say verbose s!"Padding binary message with {pad} zeros ({m.length - pad} -> {m.length})"
  let mp := insertP m
  if mp.length % 3 ≠ 0 then throw .ValueError
  printLine s!"Splitting message {shape1 mp.length} -> {shape2 3 (mp.length / 3)}"
  let rows ← PyM.lift (hadamardEncoder N [everyNth 3 0 mp, everyNth 3 1 mp, everyNth 3 2 mp])
  match rows with
  | [r0, r1, r2] =>
    printLine s!"Applying Hadamard encoder {shape2 3 (mp.length / 3)} -> {shape2 3 r0.length}"
    let output := spcEncoder r0 r1 r2
    printLine s!"Applying SPC encodee {shape2 3 r0.length} -> {shape2 output.length (output.headD []).length}"
    return output
  | _ => throw .ValueError

/-- `_MDSSS(message, spreading_factor)`, `mr_o_qpsk_modulator.py:790-815`. -/
def mdsssP {σ : Type} (verbose : Bool) (message : Bits) (spreadingFactor : Nat) : PyM (Console σ) Bits := do
  let N := spreadingFactor / 4
  say verbose s!"TPC N = {N}"
  let bitstreams ← tpcP verbose message N
  say verbose s!"TPC Encoding {shape1 message.length} -> {shape2 bitstreams.length (bitstreams.headD []).length}"
  PyM.lift (spreadingMultiplexing bitstreams N)

/-- `f"{chip_rate/1e3:.2f}"`, `mr_o_qpsk_modulator.py:1044`, for a multiple of 10 (all entries of `DATA_RATE` are). -/
def kchip (rate : Nat) : String := s!"{rate / 1000}.{rate / 100 % 10}{rate / 10 % 10}"

/-- The part of `bitsToIQ` that computes `self._cPPDU`, `mr_o_qpsk_modulator.py:1082-1135`. -/
def oqpskChipsP (verbose : Bool) (bits : Arg) : PyM (Console OqpskObj) Bits := do
  let bits ← quietly (PyM.lift (checkBinaryArray bits))
  let p := (← quietly get).params
  quietly do
    -- SHR
    modify fun o => { o with shr_bde := some (bde p.shr false) }
    let sb ← PyM.attr (·.shr_bde)
    let cshr ← PyM.lift (dsss sb (shrSpreading p.band))
    modify fun o => { o with cSHR := some cshr }
    -- PHR
    let phr ← PyM.lift (p.phr (bits.length / 8))
    modify fun o => { o with phr_encoded := some (oqpskFec phr false) }
    let pe ← PyM.attr (·.phr_encoded)
    let pint ← PyM.lift (oqpskInterleaver pe false)
    modify fun o => { o with phr_interleaved := some pint }
    let pint ← PyM.attr (·.phr_interleaved)
    let sb ← PyM.attr (·.shr_bde)
    modify fun o => { o with phr_bde := some (bde pint (sb.getLastD false)) }
    let pb ← PyM.attr (·.phr_bde)
    let cphr ← PyM.lift (dsss pb (phrSpreading p.band))
    modify fun o => { o with cPHR := some cphr }
  -- PSDU
  if (0 ≤ p.rm ∧ p.rm ≤ 1) ∨ p.sm = 0 then
    quietly do
      modify fun o => { o with PSDU_encoded := some (oqpskFec bits true) }
      let e ← PyM.attr (·.PSDU_encoded)
      let il ← PyM.lift (oqpskInterleaver e true)
      modify fun o => { o with PSDU_interleaved := some il }
      let il ← PyM.attr (·.PSDU_interleaved)
      modify fun o => { o with PSDU_temp := some il }
  else
    quietly (modify fun o => { o with PSDU_temp := some bits })
  let spread ← do
    if p.sm = 0 then
      quietly do
        let useBde ← PyM.lift (psduBdeDsss p.band p.rm)
        let t ← PyM.attr (·.PSDU_temp)
        modify fun o => { o with PSDU_BDE := some (if useBde then bde t false else t) }
        let sp ← PyM.lift (psduSpreadingDsss p.band p.rm)
        let b ← PyM.attr (·.PSDU_BDE)
        match sp with
        | some codes => PyM.lift (dsss b codes)
        | none => pure b
    else
      let t ← quietly (PyM.attr (·.PSDU_temp))
      let f ← quietly (PyM.lift (mdsssFactor p.band p.rm))
      mdsssP verbose t f
  quietly do
    modify fun o => { o with cPSDU := some (p.insertPilots spread) }
    let cs ← PyM.attr (·.cSHR)
    let cp ← PyM.attr (·.cPHR)
    let cd ← PyM.attr (·.cPSDU)
    modify fun o => { o with cPPDU := some (cs ++ cp ++ cd) }
    PyM.attr (·.cPPDU)

noncomputable section

/-- `_o_qpsk_modulator(cPPDU, samples_per_symbol)`, `mr_o_qpsk_modulator.py:1019-1065`. -/
def oqpskModulatorP {σ : Type} (verbose : Bool) (p : OqpskParams) (chips : Bits) (sps : Nat) : PyM (Console σ) (List ℂ × ℚ) := do
  let chipRate ← PyM.lift (dataRate p.sm p.band p.rm)
  let Tc : ℝ := 1 / (chipRate : ℝ)
  say verbose s!"Chip rate : {kchip chipRate} kchip/s"
  let s ← PyM.lift (oqpskUpsample chips sps)
  let out ← PyM.lift (convolveC s (oqpskPulse p.band Tc sps))
  return (out, (chipRate : ℚ) * sps)

/-- `bitsToIQ(bits)`, `mr_o_qpsk_modulator.py:1067-1140`. -/
def oqpskBitsToIQP (verbose : Bool) (bits : Arg) : PyM (Console OqpskObj) (List ℂ × ℚ) := do
  let chips ← oqpskChipsP verbose bits
  let p := (← quietly get).params
  oqpskModulatorP verbose p chips p.sps

/-- `bytesToIQ(bytes)`, `mr_o_qpsk_modulator.py:1142-1162`. -/
def oqpskBytesToIQP (verbose : Bool) (bytes : Arg) : PyM (Console OqpskObj) (List ℂ × ℚ) := do
  let m ← quietly (PyM.lift (toBinaryArray bytes))
  oqpskBitsToIQP verbose (bitsArg m)

/-! ### MR-OFDM -/

/-- `Fore.CYAN`. -/
def foreCyan : String := "\x1b[36m"
/-- `Fore.LIGHTBLUE_EX`. -/
def foreLightBlue : String := "\x1b[94m"
/-- `Fore.RESET`. -/
def foreReset : String := "\x1b[39m"

/-- `str(v)` of an integer argument (a `bool` prints as `True` or `False`). -/
def PyVal.show : PyVal → String
  | .int i => toString i
  | .bool b => if b then "True" else "False"
  | _ => ""

/-- `Mr_ofdm_modulator.__init__`, `mr_ofdm_modulator.py:254-316`: what the call returns or raises, and what it prints (lines 312-314, after all checks). -/
def mrOfdmInitP (verbose : Bool) (MCS OFDM_Option phyOFDMInterleaving scrambler : PyVal) : Res OfdmParams × List String :=
  match mrOfdmInit MCS OFDM_Option phyOFDMInterleaving scrambler with
  | .error e => (.error e, [])
  | .ok p => (.ok p, if verbose then [s!"{foreCyan}Instanciating a modulator with OFDM Option = {OFDM_Option.show} and MCS = {MCS.show}{foreReset}"] else [])

/-- The drawing printed by `_STF`, `mr_ofdm_modulator.py:336-344`. -/
def stfDrawing : String :=
  "\n          symbol 1   symbol 2   symbol 3   symbol 4\n        |CP++++++++|CP++++++++|CP++++++++|CP++++----|\n\n        +  : samples of the symbol (after IFFT)\n        CP : cyclic prefix\n        -  : negated samples (end of fourth symbol)\n        "

/-- `_STF()`, `mr_ofdm_modulator.py:318-372`. -/
def stfP (verbose : Bool) (p : OfdmParams) : PyM (Console OfdmObj) (List ℂ) := do
  say verbose "Creating STF...."
  say verbose stfDrawing
  let s ← PyM.lift (subcarriersToIQ (fftSize p.option) (1 / 4) (stfTable p.option))
  let mask : List ℂ := List.replicate (s.length / 5 * 3) 1 ++ List.replicate (s.length / 5 * 2) (-1)
  let fourth ← PyM.lift (bcast (· * ·) s mask)
  let signal := s ++ s ++ s ++ fourth
  say verbose s!"    STF signal is {signal.length} elements"
  return signal.map (· * (1.25 : ℂ))

/-- `_LTF()`, `mr_ofdm_modulator.py:374-410`. -/
def ltfP (verbose : Bool) (p : OfdmParams) : PyM (Console OfdmObj) (List ℂ) := do
  say verbose "Generating LTF..."
  say verbose "    LTF signal looks like : |CP----|----|"
  let s ← PyM.lift (subcarriersToIQ (fftSize p.option) 0 ((ltfTable p.option).map fun (v : Int) => ((v : Int) : ℂ)))
  let signal := s.drop (s.length / 2) ++ s ++ s
  say verbose s!"    LTF signal is {signal.length} elements"
  return signal

/-- `_padding(message)`, `mr_ofdm_modulator.py:494-520`. -/
def ofdmPaddingP (verbose : Bool) (message : Bits) : PyM (Console OfdmObj) Bits := do
  let p := (← quietly get).params
  let output ← quietly (ofdmPaddingM message)
  let nPad ← quietly (PyM.attr (·.N_PAD))
  say verbose s!"Adding {nPad} padding bits (0s) and 6 tail bits (0s) to the message ({message.length} + {nPad} + 6 -> {output.length})"
  say verbose s!"Message will use {ceilDiv (message.length + 6) p.nDbps} symbols ({p.nDbps} data bits per symbol)"
  return output

/-- `_PHR(message_length)`, `mr_ofdm_modulator.py:522-582`. -/
def ofdmPhrP (verbose : Bool) (messageLength : Nat) : PyM (Console OfdmObj) (List ℂ × OfdmState) := do
  let p := (← quietly get).params
  let low := lowestMcs p.option
  say verbose (foreLightBlue ++ "Generating PHY header...")
  let h ← quietly (PyM.lift (p.phyHeader messageLength))
  quietly (modify fun o => { o with PHY_header := some h })
  let h ← quietly (PyM.attr (·.PHY_header))
  say verbose (foreLightBlue ++ s!"header : {h.length} bits")
  let e ← quietly (PyM.lift (OfdmParams.encoder h (rateIs34 low)))
  quietly (modify fun o => { o with PHY_header_encoded := some e })
  let e ← quietly (PyM.attr (·.PHY_header_encoded))
  say verbose (foreLightBlue ++ s!"header after encoding : {e.length} bits")
  let i ← quietly (ofdmInterleaverM e low)
  quietly (modify fun o => { o with PHY_header_interleaved := some i })
  let i ← quietly (PyM.attr (·.PHY_header_interleaved))
  say verbose (foreLightBlue ++ s!"header after interleaving : {i.length} bits")
  let r := (ofdmBitsToIQ (p.ofdmCfg low ℂ) (kMod (mcsModulation low)) (1 / 4) i).call (OfdmState.init)
  let iq ← quietly (PyM.lift r.1)
  say verbose (foreLightBlue ++ s!"header complex (I+jQ) signal is {iq.length} samples" ++ foreReset)
  return (iq, r.2)

/-- `_payload(message, mod_phy)`, `mr_ofdm_modulator.py:584-634`. -/
def ofdmPayloadP (verbose : Bool) (message : Bits) (modPhy : OfdmState) : PyM (Console OfdmObj) (List ℂ) := do
  let p := (← quietly get).params
  let padded ← ofdmPaddingP verbose message
  quietly do
    modify fun o => { o with payload_pad := some padded }
    let padded ← PyM.attr (·.payload_pad)
    modify fun o => { o with payload_scrambled := some (SunPhy.scrambler padded (scramblingSeed p.scrambler)) }
    let nPad ← PyM.attr (·.N_PAD)
    let s ← PyM.attr (·.payload_scrambled)
    modify fun o => { o with payload_scrambled := some (setSlice s (-6 - (nPad : Int)) (-(nPad : Int)) false) }
    let s ← PyM.attr (·.payload_scrambled)
    let e ← PyM.lift (OfdmParams.encoder s (rateIs34 p.mcs))
    modify fun o => { o with payload_encoded := some e }
    let e ← PyM.attr (·.payload_encoded)
    let i ← ofdmInterleaverM e p.mcs
    modify fun o => { o with payload_interleaved := some i }
    let i ← PyM.attr (·.payload_interleaved)
    let r := (ofdmBitsToIQ (p.ofdmCfg p.mcs ℂ) (kMod (mcsModulation p.mcs)) (1 / 4) i).call
      (OfdmState.init modPhy.getPilotSetIndex modPhy.getPn9Value)
    PyM.lift r.1

/-- `bitsToIQ(bits)`, `mr_ofdm_modulator.py:636-675`. -/
def ofdmModBitsToIQP (verbose : Bool) (bits : Arg) : PyM (Console OfdmObj) (List ℂ × ℚ) := do
  let bits ← quietly (PyM.lift (checkBinaryArray bits))
  let p := (← quietly get).params
  let stf ← stfP verbose p
  let ltf ← ltfP verbose p
  let (phr, m) ← ofdmPhrP verbose bits.length
  quietly (modify fun o => { o with mod_phy := some m })
  let m ← quietly (PyM.attr (·.mod_phy))
  let payload ← ofdmPayloadP verbose bits m
  return (stf ++ ltf ++ phr ++ payload, fftSize p.option * (1 + 1 / 4) / (120 / 1000000))

/-- `bytesToIQ(bytes)`, `mr_ofdm_modulator.py:678-697`. -/
def ofdmModBytesToIQP (verbose : Bool) (bytes : Arg) : PyM (Console OfdmObj) (List ℂ × ℚ) := do
  let m ← quietly (PyM.lift (toBinaryArray bytes))
  ofdmModBitsToIQP verbose (bitsArg m)

end
end SunPhy
