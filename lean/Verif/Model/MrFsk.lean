import Verif.Model.Pn9
import Verif.Model.Bits
import Verif.Model.Fields
/-
Model of `sun_phy/mr_fsk/mr_fsk_modulator.py` (`Mr_fsk_modulator`), bit level.  The IQ stage is in
`Model/MrFskSignal.lean`.
-/
namespace SunPhy

/-- `Modulation`, `mr_fsk_modulator.py:13-15`. -/
inductive FskMod | FSK2 | FSK4
  deriving DecidableEq, Repr

/-- `SFD`, `mr_fsk_modulator.py:18-32`, keyed by (modulation, phyMRFSKSFD, is_coded). -/
def fskSfd : FskMod → Nat → Bool → Bits
  | .FSK2, 0, true => natBits 16 0b0110111101001110
  | .FSK2, 0, false => natBits 16 0b1001000001001110
  | .FSK2, _, true => natBits 16 0b0110001100101101
  | .FSK2, _, false => natBits 16 0b0111101000001110
  | .FSK4, 0, true => natBits 32 0b01111101111111110111010111111101
  | .FSK4, 0, false => natBits 32 0b11010111010101010111010111111101
  | .FSK4, _, true => natBits 32 0b01111101010111110101110111110111
  | .FSK4, _, false => natBits 32 0b01111111110111010101010111111101

/-- `np.tile(l, n)` for a 1-D array. -/
def tile {α} (l : List α) (n : Nat) : List α := (List.replicate n l).flatten

/-- `PREAMBLE_SEQUENCE`, `mr_fsk_modulator.py:35-38`. -/
def fskPreamble : FskMod → Bits
  | .FSK2 => tile [false, true] 4
  | .FSK4 => tile [false, true, true, true] 4

/-- `PHR_LENGTH`, `mr_fsk_modulator.py:40`. -/
def fskPhrLength : Nat := 2

/-- `RSC_TAIL_BITS`, `mr_fsk_modulator.py:43-52`.  (`KeyError` outside 0..7; the register never leaves that range,
`rscIter_lt`.) -/
def rscTailBits : Nat → Bits
  | 0b000 => [false, false, false] | 0b001 => [true, false, false]
  | 0b010 => [true, true, false] | 0b011 => [false, true, false]
  | 0b100 => [true, true, true] | 0b101 => [false, true, true]
  | 0b110 => [false, false, true] | _ => [true, false, true]

/-- `NRNSC_TAIL_BITS`, `mr_fsk_modulator.py:54`. -/
def nrnscTailBits : Bits := [false, false, false]

/-- Parameters stored by `Mr_fsk_modulator.__init__`, `mr_fsk_modulator.py:152-162`. -/
structure FskParams where
  symbolRate : Nat
  modIndex : Rat
  sfd : Nat
  modulation : FskMod
  fecEnabled : Bool
  fecScheme : Nat
  fcsType : Nat
  scramble : Bool
  interleaving : Bool
  preambleLength : Nat
  deriving DecidableEq

/-- `symbolRate` check, `mr_fsk_modulator.py:99-104`. -/
def fskCheckRate (v : PyVal) : Res Nat :=
  let i? : Option Int := match v with
    | .float q => some (truncRat q)
    | v => v.asInt?
  match i? with
  | none => .error .TypeError
  | some i => if i ≤ 0 then .error .ValueError else .ok i.toNat

/-- `FSKModulationIndex` check, `mr_fsk_modulator.py:106-109`. -/
def fskCheckIndex (v : PyVal) : Res Rat :=
  match v.asNum? with
  | none => .error .TypeError
  | some q => if 1 / 4 ≤ q ∧ q ≤ 5 / 2 then .ok q else .error .ValueError

/-- Integer argument restricted to `{0, 1}`: `mr_fsk_modulator.py:111-115` (`phyMRFSKSFD`), `:134-137`
(`phyFSKFECScheme`), `:139-142` (`macFCSType`). -/
def fskCheck01 (v : PyVal) : Res Nat :=
  match v.asInt? with
  | none => .error .TypeError
  | some i => if i = 0 ∨ i = 1 then .ok i.toNat else .error .ValueError

/-- `phyFSKPreambleLength` check, `mr_fsk_modulator.py:117-122`. -/
def fskCheckPreamble (v : PyVal) : Res Nat :=
  match v.asInt? with
  | none => .error .TypeError
  | some i => if 4 ≤ i ∧ i ≤ 1000 then .ok i.toNat else .error .ValueError

/-- `modulation` check, `mr_fsk_modulator.py:124-129`. -/
def fskCheckMod (v : PyVal) : Res FskMod :=
  match v with
  | .str s => if s = "2FSK" then .ok .FSK2 else if s = "4FSK" then .ok .FSK4 else .error .ValueError
  | _ => .error .TypeError

/-- `bool` arguments, `mr_fsk_modulator.py:131-132`, `:149-150`. -/
def fskCheckBool (v : PyVal) : Res Bool :=
  match v.asBool? with
  | none => .error .TypeError
  | some b => .ok b

/-- `phyFSKScramblePSDU`, `mr_fsk_modulator.py:144-147`: any int is converted to bool. -/
def fskCheckScramble (v : PyVal) : Res Bool :=
  match v.asInt? with
  | none => .error .TypeError
  | some i => .ok (i != 0)

/-- `Mr_fsk_modulator.__init__`, `mr_fsk_modulator.py:58-162`: the checks in program order. -/
def mrFskInit (symbolRate FSKModulationIndex phyMRFSKSFD modulation phyFSKFECEnabled phyFSKFECScheme macFCSType
    phyFSKScramblePSDU phyFSKFECInterleavingRSC phyFSKPreambleLength : PyVal) : Res FskParams := do
  let rate ← fskCheckRate symbolRate
  let h ← fskCheckIndex FSKModulationIndex
  let sfd ← fskCheck01 phyMRFSKSFD
  let pre ← fskCheckPreamble phyFSKPreambleLength
  let m ← fskCheckMod modulation
  let fec ← fskCheckBool phyFSKFECEnabled
  let scheme ← fskCheck01 phyFSKFECScheme
  let fcs ← fskCheck01 macFCSType
  let scr ← fskCheckScramble phyFSKScramblePSDU
  let il ← fskCheckBool phyFSKFECInterleavingRSC
  return { symbolRate := rate, modIndex := h, sfd := sfd, modulation := m, fecEnabled := fec, fecScheme := scheme,
           fcsType := fcs, scramble := scr, interleaving := il, preambleLength := pre }

/-- `M_iter_RSC(M, bi)`, `mr_fsk_modulator.py:267-277`: new register, `ui0`, `ui1`. -/
def rscIter (M : Nat) (bi : Bool) : Nat × Bool × Bool :=
  let M0 := (M >>> 2) &&& 0b001
  let M1 := (M >>> 1) &&& 0b001
  let M2 := M &&& 0b001
  let b := b2n bi
  let ui0 := b
  let ui1 := (b ^^^ M0 ^^^ M1 ^^^ M2) ^^^ M1 ^^^ M2
  (((b ^^^ M0 ^^^ M1 ^^^ M2) <<< 2) ||| (M0 <<< 1) ||| M1, ui0 == 1, ui1 == 1)

/-- `M_iter_NRNSC(M, bi)`, `mr_fsk_modulator.py:279-288`. -/
def nrnscIter (M : Nat) (bi : Bool) : Nat × Bool × Bool :=
  let M0 := (M >>> 2) &&& 0b001
  let M1 := (M >>> 1) &&& 0b001
  let M2 := M &&& 0b001
  let b := b2n bi
  ((b <<< 2) ||| (M0 <<< 1) ||| M1, (b ^^^ M0 ^^^ M1 ^^^ M2) == 0, (b ^^^ M1 ^^^ M2) == 0)

/-- Selection of the encoder by `phyFSKFECScheme`, `mr_fsk_modulator.py:305-308`. -/
def fskIter (scheme : Nat) (M : Nat) (bi : Bool) : Nat × Bool × Bool :=
  if scheme ≠ 0 then rscIter M bi else nrnscIter M bi

/-- The encoding loop, `mr_fsk_modulator.py:303-312` (also `:317-324`, `:326-333`): appends `ui1` then `ui0`. -/
def fskEncode (scheme : Nat) : Nat → Bits → Bits × Nat
  | M, [] => ([], M)
  | M, b :: bs =>
    let (M', ui0, ui1) := fskIter scheme M b
    let (out, M'') := fskEncode scheme M' bs
    (ui1 :: ui0 :: out, M'')

/-- `PAD_BITS`, `mr_fsk_modulator.py:292-298`. -/
def fskPadBits (dataSize : Nat) : Bits :=
  if dataSize / 8 % 2 = 0 then
    [false, true, false, true, true, false, false, false, false, true, false, true, true]
  else [false, true, false, true, true]

/-- `TAIL_BITS`, `mr_fsk_modulator.py:315`. -/
def fskTailBits (scheme M : Nat) : Bits := if scheme ≠ 0 then rscTailBits M else nrnscTailBits

/-- `_FEC(data, tail=True, pad=True)`, `mr_fsk_modulator.py:253-335`. -/
def fskFec (scheme : Nat) (data : Bits) (tail : Bool := true) (pad : Bool := true) : Bits :=
  let (out1, M1) := fskEncode scheme 0 data
  let (out2, M2) := if tail then fskEncode scheme M1 (fskTailBits scheme M1) else ([], M1)
  let out3 := if pad then (fskEncode scheme M2 (fskPadBits data.length)).1 else []
  out1 ++ out2 ++ out3

/-- `t = (15 - 4 * np.mod(k, 4) - np.floor(k / 4)).astype(int)`, `mr_fsk_modulator.py:357`. -/
def fskT (k : Nat) : Nat := 15 - 4 * (k % 4) - k / 4

/-- Loop body of `_interleaver` for one 32-bit block, `mr_fsk_modulator.py:359-363`:
`new_data[2*t:2*t+2] = block[2*k:2*k+2]` for `k = 0..15`. -/
def fskInterleaveBlock (block : Bits) : Bits :=
  (List.range 16).foldl
    (fun new k => (new.set (fskT k * 2) (block.getD (k * 2) false)).set (fskT k * 2 + 1) (block.getD (k * 2 + 1) false))
    (List.replicate 32 false)

/-- `_interleaver(data)`, `mr_fsk_modulator.py:337-365`: `reshape(-1, 32)` raises `ValueError` on other sizes. -/
def fskInterleaver (data : Bits) : Res Bits := do
  return (← reshapeRows 32 data).flatMap fskInterleaveBlock

namespace FskParams

/-- `_SHR()`, `mr_fsk_modulator.py:180-195`. -/
def shr (p : FskParams) : Bits :=
  tile (fskPreamble p.modulation) p.preambleLength ++ fskSfd p.modulation p.sfd p.fecEnabled

/-- `_PHR(message_length)`, `mr_fsk_modulator.py:227-251`: numpy refuses to store more than 11 digits in
`signal[5:]`. -/
def phr (p : FskParams) (messageLength : Nat) : Res Bits := do
  let signal := List.replicate (fskPhrLength * 8) false
  let signal := signal.set 0 false
  let signal := setSlice signal 1 3 false
  let signal := signal.set 3 (p.fcsType == 1)
  let signal := signal.set 4 p.scramble
  assignSlice signal 5 16 (toBin messageLength 11)

end FskParams

/-- `Mr_fsk_modulator` object: parameters and the attributes written by `bitsToIQ`
(`mr_fsk_modulator.py:456-490`; `none` = attribute not set yet). -/
structure FskObj where
  params : FskParams
  PHR_PSDU : Option Bits := none
  PHR_PSDU_encoded : Option Bits := none
  PHR_PSDU_interleaved : Option Bits := none
  PHR_PSDU_scrambled : Option Bits := none
  binarySignal : Option Bits := none

/-- The part of `bitsToIQ` that computes `self._binarySignal`, `mr_fsk_modulator.py:454-490`. -/
def fskBinary (bits : Arg) : PyM FskObj Bits := do
  let bits ← PyM.lift (checkBinaryArray bits)
  let p := (← get).params
  let phr ← PyM.lift (p.phr (bits.length / 8))
  modify fun o => { o with PHR_PSDU := some (phr ++ bits) }
  let symbolLength ← do
    if p.fecEnabled then
      let d ← PyM.attr (·.PHR_PSDU)
      modify fun o => { o with PHR_PSDU_encoded := some (fskFec p.fecScheme d) }
      if p.interleaving then
        let e ← PyM.attr (·.PHR_PSDU_encoded)
        let il ← PyM.lift (fskInterleaver e)
        modify fun o => { o with PHR_PSDU_interleaved := some il }
        let il ← PyM.attr (·.PHR_PSDU_interleaved)
        modify fun o => { o with PHR_PSDU := some il }
      else
        let e ← PyM.attr (·.PHR_PSDU_encoded)
        modify fun o => { o with PHR_PSDU := some e }
      pure 2
    else pure 1
  if p.scramble then
    let start := fskPhrLength * symbolLength * 8
    let cur ← PyM.attr (·.PHR_PSDU)
    modify fun o => { o with PHR_PSDU_scrambled := some cur }
    let scr ← PyM.attr (·.PHR_PSDU_scrambled)
    modify fun o => { o with PHR_PSDU_scrambled := some (scr.take start ++ scrambler (scr.drop start)) }
    let scr ← PyM.attr (·.PHR_PSDU_scrambled)
    modify fun o => { o with PHR_PSDU := some scr }
  let d ← PyM.attr (·.PHR_PSDU)
  modify fun o => { o with binarySignal := some (p.shr ++ d) }
  PyM.attr (·.binarySignal)

/-- `message.reshape(-1, step)` of `_FSKModulator`, `mr_fsk_modulator.py:416-421`: the groups of 1 (2FSK) or 2 (4FSK) bits
(`ValueError` for 4FSK and an odd number of bits). -/
def fskSymbols (m : FskMod) (message : Bits) : Res (List Bits) :=
  reshapeRows (match m with | .FSK2 => 1 | .FSK4 => 2) message

/-- Result of `modeSwitchToIQ`: the method falls off its end, i.e. returns `None`. -/
inductive PyNone | none
  deriving DecidableEq

/-- `modeSwitchToIQ(modeSwitchParameterEntry, new_mode_fec)`, `mr_fsk_modulator.py:516-532`: only checks its argument. -/
def modeSwitchToIQ (modeSwitchParameterEntry _newModeFec : PyVal) : Res PyNone :=
  match modeSwitchParameterEntry.asInt? with
  | some i => if 0 ≤ i ∧ i ≤ 3 then .ok .none else .error .ValueError
  | none => .error .TypeError

/-- `_PHR_mode_switch(modeSwitchParameterEntry, …)`, `mr_fsk_modulator.py:197-225`, up to the first exception: the array has
`PHR_LENGTH = 2` entries (not bits), `signal[1:3]` therefore has one entry and the two digits of
`_bin(entry, 2)` cannot be stored. -/
def phrModeSwitch (modeSwitchParameterEntry : Nat) : Res Bits := do
  let signal := List.replicate fskPhrLength false
  let signal := signal.set 0 true
  let _signal ← assignSlice signal 1 (2 + 1) (toBin modeSwitchParameterEntry 2)
  .error .IndexError -- `signal[3] = …` is outside the array (never reached)

end SunPhy
