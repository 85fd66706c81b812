import Verif.Model.MrFskSignal
import Verif.Model.MrOqpskSignal
import Verif.Model.MrOfdmSignal
/-
Memory: the three modulators once more, with arrays as *references*.  Elsewhere in the model an attribute holds the contents of an array; here it holds an
address, `self._a = self._b` makes two attributes name one array, and assignments like `x[i:] = …` change the contents of an existing array.  `Props/C117.lean`
shows that no program can observe the difference.

Memory is a map from addresses to the contents of arrays and of the mutable objects that can be handed over as a message.  `next` is the first unused address.
Simplifications: temporary arrays that are neither stored nor returned have no address unless they are written in place; the element-wise writes of a loop into one
array are one write of the final contents; attributes that the other models leave out (`_s`, `_pulse`, …) are left out here.
-/
namespace SunPhy
open Complex

/-- An address. -/
notation "Addr" => Nat

/-- Contents of an array or of a message object. -/
inductive Cell
  /-- an object that can be handed over as a message (list, bytes, array) -/
  | msg (a : Arg)
  /-- an array of bits made by the library -/
  | bits (b : Bits)
  /-- an array of indices -/
  | nats (l : List Nat)
  /-- a table of pilot sets -/
  | sets (l : List (List Int))
  /-- a two-dimensional array of subcarriers (columns) -/
  | columns (l : List (List ℂ))
  /-- a complex signal -/
  | samples (s : List ℂ)
  /-- never used -/
  | free

structure Mem where
  next : Addr
  cell : Addr → Cell

namespace Mem

/-- A new array. -/
def push (m : Mem) (c : Cell) : Mem := ⟨m.next + 1, fun a => if a = m.next then c else m.cell a⟩
/-- New contents of an existing array. -/
def put (m : Mem) (a : Addr) (c : Cell) : Mem := ⟨m.next, fun b => if b = a then c else m.cell b⟩

def bits (m : Mem) (a : Addr) : Bits := match m.cell a with | .bits b => b | _ => []
def nats (m : Mem) (a : Addr) : List Nat := match m.cell a with | .nats b => b | _ => []
def sets (m : Mem) (a : Addr) : List (List Int) := match m.cell a with | .sets b => b | _ => []
def samples (m : Mem) (a : Addr) : List ℂ := match m.cell a with | .samples b => b | _ => []
/-- What a method sees of an argument (a signal or another array of the library is no message). -/
def msg (m : Mem) (a : Addr) : Arg := match m.cell a with | .msg x => x | _ => .other

end Mem

/-- Memory and one object. -/
structure HS (σ : Type) where
  mem : Mem
  obj : σ

/-- Method bodies with memory. -/
abbrev HM (σ : Type) (α : Type) := PyM (HS σ) α

section
variable {σ : Type}

/-- Create an array. -/
def newArray (c : Cell) : HM σ Addr := do
  let s ← get
  modify fun s => { s with mem := s.mem.push c }
  return s.mem.next

/-- Write into an array. -/
def writeArray (a : Addr) (c : Cell) : HM σ Unit := modify fun s => { s with mem := s.mem.put a c }

/-- Read memory. -/
def readArray {α : Type} (f : Mem → α) : HM σ α := do return f (← get).mem

/-- Read an attribute: an address (`AttributeError` if it was never assigned). -/
def refAttr {α : Type} (f : σ → Option α) : HM σ α := PyM.attr fun s => f s.obj

/-- Assign attributes. -/
def assign (f : σ → σ) : HM σ Unit := modify fun s => { s with obj := f s.obj }

/-- `check_binary_array(bits)`, `tools/bits.py:46-74`: `bits.astype(np.uint8)` is a new array. -/
def checkBinaryArrayH (a : Addr) : HM σ Addr := do
  let x ← readArray (·.msg a)
  let b ← PyM.lift (checkBinaryArray x)
  newArray (.bits b)

/-- `to_binary_array(arr)`, `tools/bits.py:79-120`: `np.array(bit_list)` is a new array. -/
def toBinaryArrayH (a : Addr) : HM σ Addr := do
  let x ← readArray (·.msg a)
  let b ← PyM.lift (toBinaryArray x)
  newArray (.msg (bitsArg b))

end

noncomputable section

/-! ### MR-FSK -/

/-- `Mr_fsk_modulator` with its attributes as references. -/
structure FskRefs where
  params : FskParams
  PHR_PSDU : Option Addr := none
  PHR_PSDU_encoded : Option Addr := none
  PHR_PSDU_interleaved : Option Addr := none
  PHR_PSDU_scrambled : Option Addr := none
  binarySignal : Option Addr := none

/-- `_interleaver(data)`, `mr_fsk_modulator.py:333-365`: writes into `np.zeros_like(data)`. -/
def fskInterleaverH (a : Addr) : HM FskRefs Addr := do
  let d ← readArray (·.bits a)
  let out ← newArray (.bits (List.replicate d.length false))
  let r ← PyM.lift (fskInterleaver d)
  writeArray out (.bits r)
  return out

/-- `bitsToIQ` up to `self._binarySignal`, `mr_fsk_modulator.py:454-490`.  `_PHR_PSDU` names one of the arrays `_PHR_PSDU_encoded`, `_PHR_PSDU_interleaved`,
`_PHR_PSDU_scrambled`; whitening writes into a copy. -/
def fskBinaryH (a : Addr) : HM FskRefs Addr := do
  let bits ← checkBinaryArrayH a
  let p := (← get).obj.params
  let b ← readArray (·.bits bits)
  let phr ← PyM.lift (p.phr (b.length / 8))
  let c ← newArray (.bits (phr ++ b))
  assign fun o => { o with PHR_PSDU := some c }
  let symbolLength ← do
    if p.fecEnabled then
      let d ← readArray (·.bits (← refAttr (·.PHR_PSDU)))
      let e ← newArray (.bits (fskFec p.fecScheme d))
      assign fun o => { o with PHR_PSDU_encoded := some e }
      if p.interleaving then
        let i ← fskInterleaverH (← refAttr (·.PHR_PSDU_encoded))
        assign fun o => { o with PHR_PSDU_interleaved := some i }
        let i ← refAttr (·.PHR_PSDU_interleaved)
        assign fun o => { o with PHR_PSDU := some i }
      else
        let e ← refAttr (·.PHR_PSDU_encoded)
        assign fun o => { o with PHR_PSDU := some e }
      pure 2
    else pure 1
  if p.scramble then
    let start := fskPhrLength * symbolLength * 8
    let cur ← readArray (·.bits (← refAttr (·.PHR_PSDU)))
    let cpy ← newArray (.bits cur)                                            -- `.copy()`
    assign fun o => { o with PHR_PSDU_scrambled := some cpy }
    let s ← refAttr (·.PHR_PSDU_scrambled)
    let scr ← readArray (·.bits s)
    writeArray s (.bits (scr.take start ++ scrambler (scr.drop start)))       -- `x[start:] = …`
    let s ← refAttr (·.PHR_PSDU_scrambled)
    assign fun o => { o with PHR_PSDU := some s }
  let d ← readArray (·.bits (← refAttr (·.PHR_PSDU)))
  let s ← newArray (.bits (p.shr ++ d))
  assign fun o => { o with binarySignal := some s }
  refAttr (·.binarySignal)

/-- `bitsToIQ(bits)`, `mr_fsk_modulator.py:438-495`: the signal is a new array. -/
def fskBitsToIQH (rn : Rat → Rat) (a : Addr) : HM FskRefs (Addr × ℚ) := do
  let s ← fskBinaryH a
  let b ← readArray (·.bits s)
  let (iq, fs) ← PyM.lift (fskModulator rn (← get).obj.params b 20)
  let out ← newArray (.samples iq)
  return (out, fs)

/-- `bytesToIQ(bytes)`, `mr_fsk_modulator.py:497-514`. -/
def fskBytesToIQH (rn : Rat → Rat) (a : Addr) : HM FskRefs (Addr × ℚ) := do
  let m ← toBinaryArrayH a
  fskBitsToIQH rn m

/-! ### MR-O-QPSK -/

/-- `Mr_o_qpsk_modulator` with its attributes as references. -/
structure OqpskRefs where
  params : OqpskParams
  shr_bde : Option Addr := none
  cSHR : Option Addr := none
  phr_encoded : Option Addr := none
  phr_interleaved : Option Addr := none
  phr_bde : Option Addr := none
  cPHR : Option Addr := none
  PSDU_encoded : Option Addr := none
  PSDU_interleaved : Option Addr := none
  PSDU_temp : Option Addr := none
  PSDU_BDE : Option Addr := none
  cPSDU : Option Addr := none
  cPPDU : Option Addr := none

/-- `_BDE(message, Eprevious)`, `mr_o_qpsk_modulator.py:560-591`: writes into `np.zeros_like(message)`. -/
def bdeH (x : Bits) (e : Bool) : HM OqpskRefs Addr := do
  let out ← newArray (.bits (List.replicate x.length false))
  writeArray out (.bits (bde x e))
  return out

/-- `bitsToIQ` up to `self._cPPDU`, `mr_o_qpsk_modulator.py:1082-1135`.  `_PSDU_temp` names `_PSDU_interleaved` or the array made by `check_binary_array`,
`_PSDU_BDE` may name `_PSDU_temp`. -/
def oqpskChipsH (a : Addr) : HM OqpskRefs Addr := do
  let bits ← checkBinaryArrayH a
  let p := (← get).obj.params
  -- SHR
  let x ← bdeH p.shr false
  assign fun o => { o with shr_bde := some x }
  let sb ← readArray (·.bits (← refAttr (·.shr_bde)))
  let cshr ← PyM.lift (dsss sb (shrSpreading p.band))
  let x ← newArray (.bits cshr)
  assign fun o => { o with cSHR := some x }
  -- PHR
  let b ← readArray (·.bits bits)
  let phr ← PyM.lift (p.phr (b.length / 8))
  let x ← newArray (.bits (oqpskFec phr false))
  assign fun o => { o with phr_encoded := some x }
  let pe ← readArray (·.bits (← refAttr (·.phr_encoded)))
  let pint ← PyM.lift (oqpskInterleaver pe false)
  let x ← newArray (.bits pint)
  assign fun o => { o with phr_interleaved := some x }
  let pint ← readArray (·.bits (← refAttr (·.phr_interleaved)))
  let sb ← readArray (·.bits (← refAttr (·.shr_bde)))
  let x ← bdeH pint (sb.getLastD false)
  assign fun o => { o with phr_bde := some x }
  let pb ← readArray (·.bits (← refAttr (·.phr_bde)))
  let cphr ← PyM.lift (dsss pb (phrSpreading p.band))
  let x ← newArray (.bits cphr)
  assign fun o => { o with cPHR := some x }
  -- PSDU
  if (0 ≤ p.rm ∧ p.rm ≤ 1) ∨ p.sm = 0 then
    let b ← readArray (·.bits bits)
    let x ← newArray (.bits (oqpskFec b true))
    assign fun o => { o with PSDU_encoded := some x }
    let e ← readArray (·.bits (← refAttr (·.PSDU_encoded)))
    let il ← PyM.lift (oqpskInterleaver e true)
    let x ← newArray (.bits il)
    assign fun o => { o with PSDU_interleaved := some x }
    let x ← refAttr (·.PSDU_interleaved)
    assign fun o => { o with PSDU_temp := some x }
  else
    assign fun o => { o with PSDU_temp := some bits }
  let spread ← do
    if p.sm = 0 then
      let useBde ← PyM.lift (psduBdeDsss p.band p.rm)
      let t ← refAttr (·.PSDU_temp)
      if useBde then
        let tv ← readArray (·.bits t)
        let x ← bdeH tv false
        assign fun o => { o with PSDU_BDE := some x }
      else
        assign fun o => { o with PSDU_BDE := some t }
      let sp ← PyM.lift (psduSpreadingDsss p.band p.rm)
      let b ← readArray (·.bits (← refAttr (·.PSDU_BDE)))
      match sp with
      | some codes => PyM.lift (dsss b codes)
      | none => pure b
    else
      let t ← readArray (·.bits (← refAttr (·.PSDU_temp)))
      let f ← PyM.lift (mdsssFactor p.band p.rm)
      PyM.lift (mdsss t f)
  let x ← newArray (.bits (List.replicate (p.insertPilots spread).length false))   -- `np.zeros(…)`
  writeArray x (.bits (p.insertPilots spread))
  assign fun o => { o with cPSDU := some x }
  let cs ← readArray (·.bits (← refAttr (·.cSHR)))
  let cp ← readArray (·.bits (← refAttr (·.cPHR)))
  let cd ← readArray (·.bits (← refAttr (·.cPSDU)))
  let x ← newArray (.bits (cs ++ cp ++ cd))
  assign fun o => { o with cPPDU := some x }
  refAttr (·.cPPDU)

/-- `bitsToIQ(bits)`, `mr_o_qpsk_modulator.py:1067-1140`: the signal is a new array. -/
def oqpskBitsToIQH (a : Addr) : HM OqpskRefs (Addr × ℚ) := do
  let c ← oqpskChipsH a
  let chips ← readArray (·.bits c)
  let p := (← get).obj.params
  let (iq, fs) ← PyM.lift (oqpskModulator p chips p.sps)
  let out ← newArray (.samples iq)
  return (out, fs)

/-- `bytesToIQ(bytes)`, `mr_o_qpsk_modulator.py:1142-1162`. -/
def oqpskBytesToIQH (a : Addr) : HM OqpskRefs (Addr × ℚ) := do
  let m ← toBinaryArrayH a
  oqpskBitsToIQH m

/-! ### MR-OFDM -/

/-- Addresses of the tables of the module: `PILOTS_INDICES`, `STF`, `LTF` for the four options, `mr_ofdm_modulator.py:33-223`. -/
def pilotsAddr (option : Nat) : Addr := option - 1
def stfAddr (option : Nat) : Addr := 4 + (option - 1)
def ltfAddr (option : Nat) : Addr := 8 + (option - 1)

/-- The memory after the modules have been imported. -/
def Mem.imported : Mem :=
  ⟨12, fun a => if a < 4 then .sets (pilotsIndices (a + 1)) else if a < 8 then .samples (stfTable (a - 3))
    else if a < 12 then .samples ((ltfTable (a - 7)).map fun (v : Int) => ((v : Int) : ℂ)) else .free⟩

/-- An `Ofdm_modulator`: pilot state, `_pilots_indices` (the table itself, not a copy, `ofdm_modulator.py:127`) and `_subcarriers` (a view of the array filled by
`_add_pilots_and_padding`, `:384`). -/
structure OfdmModRefs where
  state : OfdmState
  pilots_indices : Addr
  subcarriers : Option Addr := none

/-- `Mr_ofdm_modulator` with its attributes as references. -/
structure OfdmRefs where
  params : OfdmParams
  ij : Option Addr := none
  N_PAD : Option Nat := none
  PHY_header : Option Addr := none
  PHY_header_encoded : Option Addr := none
  PHY_header_interleaved : Option Addr := none
  phr_subcarriers : Option Addr := none
  payload_pad : Option Addr := none
  payload_scrambled : Option Addr := none
  payload_encoded : Option Addr := none
  payload_interleaved : Option Addr := none
  mod_phy : Option OfdmModRefs := none

/-- `_STF()`, `mr_ofdm_modulator.py:318-372`: reads the table, `output` is a new array. -/
def ofdmStfH (p : OfdmParams) : HM OfdmRefs Addr := do
  let table ← readArray (·.samples (stfAddr p.option))
  let s ← PyM.lift (subcarriersToIQ (fftSize p.option) (1 / 4) table)
  let mask : List ℂ := List.replicate (s.length / 5 * 3) 1 ++ List.replicate (s.length / 5 * 2) (-1)
  let fourth ← PyM.lift (bcast (· * ·) s mask)
  newArray (.samples ((s ++ s ++ s ++ fourth).map (· * (1.25 : ℂ))))

/-- `_LTF()`, `mr_ofdm_modulator.py:374-410`. -/
def ofdmLtfH (p : OfdmParams) : HM OfdmRefs Addr := do
  let table ← readArray (·.samples (ltfAddr p.option))
  let s ← PyM.lift (subcarriersToIQ (fftSize p.option) 0 table)
  newArray (.samples (s.drop (s.length / 2) ++ s ++ s))

/-- `_interleaver(x, MCS)`, `mr_ofdm_modulator.py:441-492`: `_ij` is a new array, the result is written into `np.zeros_like(x)`. -/
def ofdmInterleaverH (a : Addr) (MCS : Nat) : HM OfdmRefs Addr := do
  let p := (← get).obj.params
  let x ← readArray (·.bits a)
  let ij ← newArray (.nats (p.intlIJ MCS))
  assign fun o => { o with ij := some ij }
  let out ← newArray (.bits (List.replicate x.length false))
  writeArray out (.bits (p.interleaver x MCS))
  return out

/-- `Ofdm_modulator.bitsToIQ(bits)` for the modulators made in `_PHR` and `_payload` (`ofdm_modulator.py:414-466`): the pilot tones are read from the table named by
`_pilots_indices`; `_subcarriers` and the signal are new arrays. -/
def ofdmModulatorH (MCS : Nat) (pilots : Addr) (st : OfdmState) (bits : Bits) : HM OfdmRefs (Addr × OfdmModRefs) := do
  let p := (← get).obj.params
  let sets ← readArray (·.sets pilots)
  let c : OfdmCfg ℂ := { p.ofdmCfg MCS ℂ with pilots := some { sets := sets, nPilots := ((sets[0]?).getD []).length, values := .pn9 } }
  let r := (ofdmSubcarriers c (complexNumbers (kMod (mcsModulation MCS))) bits).call st
  let cols ← PyM.lift r.1
  let sub ← newArray (.columns cols)
  let out ← newArray (.samples (cols.flatMap fun col => cyclicPrefix (1 / 4) (ofdmIfft col)))
  return (out, { state := r.2, pilots_indices := pilots, subcarriers := some sub })

/-- `_PHR(message_length)`, `mr_ofdm_modulator.py:522-582`. -/
def ofdmPhrH (messageLength : Nat) : HM OfdmRefs (Addr × OfdmModRefs) := do
  let p := (← get).obj.params
  let low := lowestMcs p.option
  let h ← PyM.lift (p.phyHeader messageLength)
  let x ← newArray (.bits h)
  assign fun o => { o with PHY_header := some x }
  let h ← readArray (·.bits (← refAttr (·.PHY_header)))
  let e ← PyM.lift (OfdmParams.encoder h (rateIs34 low))
  let x ← newArray (.bits e)
  assign fun o => { o with PHY_header_encoded := some x }
  let i ← ofdmInterleaverH (← refAttr (·.PHY_header_encoded)) low
  assign fun o => { o with PHY_header_interleaved := some i }
  let i ← readArray (·.bits (← refAttr (·.PHY_header_interleaved)))
  let (iq, m) ← ofdmModulatorH low (pilotsAddr p.option) OfdmState.init i
  assign fun o => { o with phr_subcarriers := m.subcarriers }
  return (iq, m)

/-- `_payload(message, mod_phy)`, `mr_ofdm_modulator.py:584-634`: the tail bits are set to zero in place. -/
def ofdmPayloadH (message : Addr) (modPhy : OfdmModRefs) : HM OfdmRefs Addr := do
  let p := (← get).obj.params
  let b ← readArray (·.bits message)
  assign fun o => { o with N_PAD := some (p.padding b).2 }
  let x ← newArray (.bits (p.padding b).1)
  assign fun o => { o with payload_pad := some x }
  let padded ← readArray (·.bits (← refAttr (·.payload_pad)))
  let x ← newArray (.bits (SunPhy.scrambler padded (scramblingSeed p.scrambler)))
  assign fun o => { o with payload_scrambled := some x }
  let nPad ← refAttr (·.N_PAD)
  let s ← refAttr (·.payload_scrambled)
  let sv ← readArray (·.bits s)
  writeArray s (.bits (setSlice sv (-6 - (nPad : Int)) (-(nPad : Int)) false))
  let sv ← readArray (·.bits (← refAttr (·.payload_scrambled)))
  let e ← PyM.lift (OfdmParams.encoder sv (rateIs34 p.mcs))
  let x ← newArray (.bits e)
  assign fun o => { o with payload_encoded := some x }
  let i ← ofdmInterleaverH (← refAttr (·.payload_encoded)) p.mcs
  assign fun o => { o with payload_interleaved := some i }
  let i ← readArray (·.bits (← refAttr (·.payload_interleaved)))
  let (iq, _) ← ofdmModulatorH p.mcs (pilotsAddr p.option) (OfdmState.init modPhy.state.getPilotSetIndex modPhy.state.getPn9Value) i
  return iq

/-- `bitsToIQ(bits)`, `mr_ofdm_modulator.py:636-675`: `np.block` makes a new array. -/
def ofdmBitsToIQH (a : Addr) : HM OfdmRefs (Addr × ℚ) := do
  let bits ← checkBinaryArrayH a
  let p := (← get).obj.params
  let stf ← ofdmStfH p
  let ltf ← ofdmLtfH p
  let b ← readArray (·.bits bits)
  let (phr, m) ← ofdmPhrH b.length
  assign fun o => { o with mod_phy := some m }
  let m ← refAttr (·.mod_phy)
  let payload ← ofdmPayloadH bits m
  let s ← readArray (·.samples stf)
  let l ← readArray (·.samples ltf)
  let h ← readArray (·.samples phr)
  let y ← readArray (·.samples payload)
  let out ← newArray (.samples (s ++ l ++ h ++ y))
  return (out, fftSize p.option * (1 + 1 / 4) / (120 / 1000000))

/-- `bytesToIQ(bytes)`, `mr_ofdm_modulator.py:678-697`. -/
def ofdmBytesToIQH (a : Addr) : HM OfdmRefs (Addr × ℚ) := do
  let m ← toBinaryArrayH a
  ofdmBitsToIQH m

end
end SunPhy
