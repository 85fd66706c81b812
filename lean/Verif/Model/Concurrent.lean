import Verif.Model.MrFskSignal
import Verif.Model.MrOqpskSignal
import Verif.Model.MrOfdmSignal
/-
Concurrent calls.  A method body as a sequence of atomic accesses to the attributes of `self`: Python threads can be switched between any two of them (between bytecodes); computations on
local values are not visible to other threads.  `MrFsk*.lean`, `MrOqpsk*.lean` and `MrOfdm*.lean` contain the same method bodies without the possibility of a switch; `Props/C113.lean`
proves that a body that is not interrupted gives the same result.

Simplifications: the constructor parameters are read in one access (nothing changes them after construction); the attributes `_s`, `_s_t`, `_pulse_t`, `_pulse` (MR-O-QPSK) and
`_phr_subcarriers`, `_payload_subcarriers` (MR-OFDM) are not shared attributes here, and an assignment to a slice of an attribute replaces the stored array (two names for one array, which
occur only for MR-FSK `_PHR_PSDU_scrambled`/`_PHR_PSDU`, are not modelled).  So the schedules here are some of those of Python when calls share an object, and all of them when they do not.
-/
namespace SunPhy

/-- What is left of a method call: finished (with a value or an exception), an attribute to be read, or an attribute to be written. -/
inductive Thr (σ α : Type) where
  | done (r : Res α)
  | read (k : σ → Thr σ α)
  | write (f : σ → σ) (k : Thr σ α)

namespace Thr
variable {σ α β : Type}

def bind : Thr σ α → (α → Thr σ β) → Thr σ β
  | .done (.ok v), g => g v
  | .done (.error e), _ => .done (.error e)
  | .read k, g => .read fun s => (k s).bind g
  | .write f k, g => .write f (k.bind g)

instance : Monad (Thr σ) where
  pure v := .done (.ok v)
  bind := bind

def lift (r : Res α) : Thr σ α := .done r
def get : Thr σ σ := .read fun s => .done (.ok s)
def modify (f : σ → σ) : Thr σ Unit := .write f (.done (.ok ()))

/-- Reading an attribute; `AttributeError` if it was never assigned. -/
def attr (f : σ → Option α) : Thr σ α := .read fun s => match f s with | some v => .done (.ok v) | none => .done (.error .AttributeError)

/-- The call without interruption. -/
def run : Thr σ α → σ → Res α × σ
  | .done r, s => (r, s)
  | .read k, s => (k s).run s
  | .write f k, s => k.run (f s)

/-- One atomic access. -/
def next : Thr σ α → σ → Thr σ α × σ
  | .done r, s => (.done r, s)
  | .read k, s => (k s, s)
  | .write f k, s => (k, f s)

end Thr

/-- Calls on different objects (of possibly different classes): one access of call `i`. -/
def stepOwn {ι : Type} [DecidableEq ι] {σ α : ι → Type} (c : (i : ι) → Thr (σ i) (α i) × σ i) (i : ι) : (i : ι) → Thr (σ i) (α i) × σ i :=
  Function.update c i ((c i).1.next (c i).2)

/-- Calls on the same object: call `i` makes one access. -/
def stepShared {ι : Type} [DecidableEq ι] {σ α : Type} (c : (ι → Thr σ α) × σ) (i : ι) : (ι → Thr σ α) × σ :=
  (Function.update c.1 i ((c.1 i).next c.2).1, ((c.1 i).next c.2).2)

/-- `Mr_fsk_modulator.bitsToIQ` up to the assignment of `self._binarySignal`, `mr_fsk_modulator.py:454-490`. -/
def fskFillT (bits : Arg) : Thr FskObj Unit := do
  let bits ← Thr.lift (checkBinaryArray bits)
  let p := (← Thr.get).params
  let phr ← Thr.lift (p.phr (bits.length / 8))
  Thr.modify fun o => { o with PHR_PSDU := some (phr ++ bits) }
  let symbolLength ← do
    if p.fecEnabled then
      let d ← Thr.attr (·.PHR_PSDU)
      Thr.modify fun o => { o with PHR_PSDU_encoded := some (fskFec p.fecScheme d) }
      if p.interleaving then
        let e ← Thr.attr (·.PHR_PSDU_encoded)
        let il ← Thr.lift (fskInterleaver e)
        Thr.modify fun o => { o with PHR_PSDU_interleaved := some il }
        let il ← Thr.attr (·.PHR_PSDU_interleaved)
        Thr.modify fun o => { o with PHR_PSDU := some il }
      else
        let e ← Thr.attr (·.PHR_PSDU_encoded)
        Thr.modify fun o => { o with PHR_PSDU := some e }
      pure 2
    else pure 1
  if p.scramble then
    let start := fskPhrLength * symbolLength * 8
    let cur ← Thr.attr (·.PHR_PSDU)
    Thr.modify fun o => { o with PHR_PSDU_scrambled := some cur }
    let scr ← Thr.attr (·.PHR_PSDU_scrambled)
    Thr.modify fun o => { o with PHR_PSDU_scrambled := some (scr.take start ++ scrambler (scr.drop start)) }
    let scr ← Thr.attr (·.PHR_PSDU_scrambled)
    Thr.modify fun o => { o with PHR_PSDU := some scr }
  let d ← Thr.attr (·.PHR_PSDU)
  Thr.modify fun o => { o with binarySignal := some (p.shr ++ d) }

/-- The same, and reading it back, `mr_fsk_modulator.py:454-495`. -/
def fskBinaryT (bits : Arg) : Thr FskObj Bits := do
  fskFillT bits
  Thr.attr (·.binarySignal)

/-- `Mr_o_qpsk_modulator.bitsToIQ` up to the assignment of `self._cPPDU`, `mr_o_qpsk_modulator.py:1082-1133`. -/
def oqpskFillT (bits : Arg) : Thr OqpskObj Unit := do
  let bits ← Thr.lift (checkBinaryArray bits)
  let p := (← Thr.get).params
  Thr.modify fun o => { o with shr_bde := some (bde p.shr false) }
  let sb ← Thr.attr (·.shr_bde)
  let cshr ← Thr.lift (dsss sb (shrSpreading p.band))
  Thr.modify fun o => { o with cSHR := some cshr }
  let phr ← Thr.lift (p.phr (bits.length / 8))
  Thr.modify fun o => { o with phr_encoded := some (oqpskFec phr false) }
  let pe ← Thr.attr (·.phr_encoded)
  let pint ← Thr.lift (oqpskInterleaver pe false)
  Thr.modify fun o => { o with phr_interleaved := some pint }
  let pint ← Thr.attr (·.phr_interleaved)
  let sb ← Thr.attr (·.shr_bde)
  Thr.modify fun o => { o with phr_bde := some (bde pint (sb.getLastD false)) }
  let pb ← Thr.attr (·.phr_bde)
  let cphr ← Thr.lift (dsss pb (phrSpreading p.band))
  Thr.modify fun o => { o with cPHR := some cphr }
  if (0 ≤ p.rm ∧ p.rm ≤ 1) ∨ p.sm = 0 then
    Thr.modify fun o => { o with PSDU_encoded := some (oqpskFec bits true) }
    let e ← Thr.attr (·.PSDU_encoded)
    let il ← Thr.lift (oqpskInterleaver e true)
    Thr.modify fun o => { o with PSDU_interleaved := some il }
    let il ← Thr.attr (·.PSDU_interleaved)
    Thr.modify fun o => { o with PSDU_temp := some il }
  else
    Thr.modify fun o => { o with PSDU_temp := some bits }
  let spread ← do
    if p.sm = 0 then
      let useBde ← Thr.lift (psduBdeDsss p.band p.rm)
      let t ← Thr.attr (·.PSDU_temp)
      Thr.modify fun o => { o with PSDU_BDE := some (if useBde then bde t false else t) }
      let sp ← Thr.lift (psduSpreadingDsss p.band p.rm)
      let b ← Thr.attr (·.PSDU_BDE)
      match sp with
      | some codes => Thr.lift (dsss b codes)
      | none => pure b
    else
      let t ← Thr.attr (·.PSDU_temp)
      let f ← Thr.lift (mdsssFactor p.band p.rm)
      Thr.lift (mdsss t f)
  Thr.modify fun o => { o with cPSDU := some (p.insertPilots spread) }
  let cs ← Thr.attr (·.cSHR)
  let cp ← Thr.attr (·.cPHR)
  let cd ← Thr.attr (·.cPSDU)
  Thr.modify fun o => { o with cPPDU := some (cs ++ cp ++ cd) }

/-- The same, and reading it back, `mr_o_qpsk_modulator.py:1082-1135`. -/
def oqpskChipsT (bits : Arg) : Thr OqpskObj Bits := do
  oqpskFillT bits
  Thr.attr (·.cPPDU)

noncomputable section

/-- `Mr_fsk_modulator.bitsToIQ(bits)`, `mr_fsk_modulator.py:438-495`. -/
def fskBitsToIQT (rn : Rat → Rat) (bits : Arg) : Thr FskObj (List ℂ × ℚ) := do
  let b ← fskBinaryT bits
  Thr.lift (fskModulator rn (← Thr.get).params b 20)

/-- `Mr_o_qpsk_modulator.bitsToIQ(bits)`, `mr_o_qpsk_modulator.py:1067-1140`. -/
def oqpskBitsToIQT (bits : Arg) : Thr OqpskObj (List ℂ × ℚ) := do
  let chips ← oqpskChipsT bits
  let p := (← Thr.get).params
  Thr.lift (oqpskModulator p chips p.sps)

/-- `_interleaver(x, MCS)` as a method, `mr_ofdm_modulator.py:441-492`. -/
def ofdmInterleaverT (x : Bits) (MCS : Nat) : Thr OfdmObj Bits := do
  let p := (← Thr.get).params
  Thr.modify fun o => { o with ij := some (p.intlIJ MCS) }
  return p.interleaver x MCS

/-- `_padding(message)` as a method, `mr_ofdm_modulator.py:494-520`. -/
def ofdmPaddingT (message : Bits) : Thr OfdmObj Bits := do
  let p := (← Thr.get).params
  Thr.modify fun o => { o with N_PAD := some (p.padding message).2 }
  return (p.padding message).1

/-- `_PHR(message_length)`, `mr_ofdm_modulator.py:522-582`. -/
def ofdmPhrT (messageLength : Nat) : Thr OfdmObj (List ℂ × OfdmState) := do
  let p := (← Thr.get).params
  let low := lowestMcs p.option
  let h ← Thr.lift (p.phyHeader messageLength)
  Thr.modify fun o => { o with PHY_header := some h }
  let h ← Thr.attr (·.PHY_header)
  let e ← Thr.lift (OfdmParams.encoder h (rateIs34 low))
  Thr.modify fun o => { o with PHY_header_encoded := some e }
  let e ← Thr.attr (·.PHY_header_encoded)
  let i ← ofdmInterleaverT e low
  Thr.modify fun o => { o with PHY_header_interleaved := some i }
  let i ← Thr.attr (·.PHY_header_interleaved)
  let r := (ofdmBitsToIQ (p.ofdmCfg low ℂ) (kMod (mcsModulation low)) (1 / 4) i).call (OfdmState.init)
  let iq ← Thr.lift r.1
  return (iq, r.2)

/-- `_payload(message, mod_phy)` up to the assignment of `self._payload_interleaved`, `mr_ofdm_modulator.py:600-613`. -/
def ofdmPayloadFillT (p : OfdmParams) (message : Bits) : Thr OfdmObj Unit := do
  let padded ← ofdmPaddingT message
  Thr.modify fun o => { o with payload_pad := some padded }
  let padded ← Thr.attr (·.payload_pad)
  Thr.modify fun o => { o with payload_scrambled := some (SunPhy.scrambler padded (scramblingSeed p.scrambler)) }
  let nPad ← Thr.attr (·.N_PAD)
  let s ← Thr.attr (·.payload_scrambled)
  Thr.modify fun o => { o with payload_scrambled := some (setSlice s (-6 - (nPad : Int)) (-(nPad : Int)) false) }
  let s ← Thr.attr (·.payload_scrambled)
  let e ← Thr.lift (OfdmParams.encoder s (rateIs34 p.mcs))
  Thr.modify fun o => { o with payload_encoded := some e }
  let e ← Thr.attr (·.payload_encoded)
  let i ← ofdmInterleaverT e p.mcs
  Thr.modify fun o => { o with payload_interleaved := some i }

/-- The rest of `_payload(message, mod_phy)`, `mr_ofdm_modulator.py:614-634`. -/
def ofdmPayloadIQT (p : OfdmParams) (modPhy : OfdmState) : Thr OfdmObj (List ℂ) := do
  let i ← Thr.attr (·.payload_interleaved)
  let r := (ofdmBitsToIQ (p.ofdmCfg p.mcs ℂ) (kMod (mcsModulation p.mcs)) (1 / 4) i).call
    (OfdmState.init modPhy.getPilotSetIndex modPhy.getPn9Value)
  Thr.lift r.1

/-- `Mr_ofdm_modulator.bitsToIQ(bits)` until the coded payload is stored, `mr_ofdm_modulator.py:655-664`, `:584-613`: the sampling frequency, the parameters, the training fields and header, the state of the inner modulator. -/
def ofdmFillT (bits : Arg) : Thr OfdmObj (ℚ × OfdmParams × List ℂ × OfdmState) := do
  let bits ← Thr.lift (checkBinaryArray bits)
  let p := (← Thr.get).params
  let stf ← Thr.lift p.stf
  let ltf ← Thr.lift p.ltf
  let r ← ofdmPhrT bits.length
  Thr.modify fun o => { o with mod_phy := some r.2 }
  let m ← Thr.attr (·.mod_phy)
  let q := (← Thr.get).params
  ofdmPayloadFillT q bits
  return (fftSize p.option * (1 + 1 / 4) / (120 / 1000000), q, stf ++ ltf ++ r.1, m)

/-- `Mr_ofdm_modulator.bitsToIQ(bits)`, `mr_ofdm_modulator.py:636-675`. -/
def ofdmModBitsToIQT (bits : Arg) : Thr OfdmObj (List ℂ × ℚ) := do
  let x ← ofdmFillT bits
  let payload ← ofdmPayloadIQT x.2.1 x.2.2.2
  return (x.2.2.1 ++ payload, x.1)

/-- `Mr_fsk_modulator.bytesToIQ(bytes)`, `mr_fsk_modulator.py:497-514`. -/
def fskBytesToIQT (rn : Rat → Rat) (bytes : Arg) : Thr FskObj (List ℂ × ℚ) := do
  let m ← Thr.lift (toBinaryArray bytes)
  fskBitsToIQT rn (bitsArg m)

/-- `Mr_o_qpsk_modulator.bytesToIQ(bytes)`, `mr_o_qpsk_modulator.py:1142-1162`. -/
def oqpskBytesToIQT (bytes : Arg) : Thr OqpskObj (List ℂ × ℚ) := do
  let m ← Thr.lift (toBinaryArray bytes)
  oqpskBitsToIQT (bitsArg m)

/-- `Mr_ofdm_modulator.bytesToIQ(bytes)`, `mr_ofdm_modulator.py:678-697`. -/
def ofdmModBytesToIQT (bytes : Arg) : Thr OfdmObj (List ℂ × ℚ) := do
  let m ← Thr.lift (toBinaryArray bytes)
  ofdmModBitsToIQT (bitsArg m)

end
end SunPhy
