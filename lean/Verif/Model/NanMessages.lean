import Verif.Model.SpecialFloats
/-
`bitsToIQ` of the MR-OFDM and MR-FSK modulators after a message with a NaN has passed `check_binary_array` (`tools/bits.py:46-74`): the values handed on are octets, not bits.
`Model/MrOfdm*.lean` and `Model/MrFsk*.lean` are the case of bits.  A list of octets is a `List Nat`.  The attributes that hold the padded and the scrambled message are not kept
(nothing reads them in a later call, C32).
-/
namespace SunPhy

/-- `check_binary_array(bits)`, `tools/bits.py:46-74`: the entries of the array of `uint8` as natural numbers. -/
def checkOctets (u8 : Entry → Int) (a : ArgS) : Res (List Nat) := (checkBinaryArrayS u8 a).map fun l => l.map Int.toNat

/-- `operations.scrambler(message, pn9_seed=511)`, `tools/operations.py:10-30`: bitwise xor of the octets with the generator values. -/
def scramblerV (message : List Nat) (pn9Seed : Nat := 511) : List Nat :=
  List.zipWith (· ^^^ ·) ((Pn9.new pn9Seed).nextN message.length).1 message

/-! ### MR-OFDM -/

namespace OfdmParams

/-- `_padding(message)`, `mr_ofdm_modulator.py:494-520`. -/
def paddingV (p : OfdmParams) (message : List Nat) : List Nat × Nat :=
  let nSym := ceilDiv (message.length + 6) p.nDbps
  let nData := nSym * p.nDbps
  let nPad := nData - (message.length + 6)
  (message ++ List.replicate nPad 0 ++ List.replicate 6 0, nPad)

/-- `_payload_scrambled`, `mr_ofdm_modulator.py:602-608`. -/
def payloadScrambledV (p : OfdmParams) (message : List Nat) : List Nat :=
  let (padded, nPad) := p.paddingV message
  setSlice (SunPhy.scramblerV padded (scramblingSeed p.scrambler)) (-6 - (nPad : Int)) (-(nPad : Int)) 0

/-- `_encoder(x, rate)`, `mr_ofdm_modulator.py:412-439`: `Rate_one_half.single` starts with `1 if input_bit > 0 else 0` (`rate_encoder.py:39`). -/
def encoderV (x : List Nat) (is34 : Bool) : Res Bits := encoder (x.map fun v => decide (0 < v)) is34

end OfdmParams

noncomputable section

/-- `_payload(message, mod_phy)`, `mr_ofdm_modulator.py:584-634`. -/
def ofdmPayloadV (message : List Nat) (modPhy : OfdmState) : PyM OfdmObj (List ℂ) := do
  let p := (← get).params
  modify fun o => { o with N_PAD := some (p.paddingV message).2 }
  let e ← PyM.lift (OfdmParams.encoderV (p.payloadScrambledV message) (rateIs34 p.mcs))
  modify fun o => { o with payload_encoded := some e }
  let e ← PyM.attr (·.payload_encoded)
  let i ← ofdmInterleaverM e p.mcs
  modify fun o => { o with payload_interleaved := some i }
  let i ← PyM.attr (·.payload_interleaved)
  let r := (ofdmBitsToIQ (p.ofdmCfg p.mcs ℂ) (kMod (mcsModulation p.mcs)) (1 / 4) i).call
    (OfdmState.init modPhy.getPilotSetIndex modPhy.getPn9Value)
  PyM.lift r.1

/-- `Mr_ofdm_modulator.bitsToIQ(bits)`, `mr_ofdm_modulator.py:636-675`. -/
def ofdmModBitsToIQS (u8 : Entry → Int) (bits : ArgS) : PyM OfdmObj (List ℂ × ℚ) := do
  let bits ← PyM.lift (checkOctets u8 bits)
  let p := (← get).params
  let stf ← PyM.lift p.stf
  let ltf ← PyM.lift p.ltf
  let (phr, m) ← ofdmPhrM bits.length
  modify fun o => { o with mod_phy := some m }
  let m ← PyM.attr (·.mod_phy)
  let payload ← ofdmPayloadV bits m
  return (stf ++ ltf ++ phr ++ payload, fftSize p.option * (1 + 1 / 4) / (120 / 1000000))

end

/-! ### MR-FSK -/

/-- `M_iter_RSC(M, bi)`, `mr_fsk_modulator.py:267-277`: new register, `ui0`, `ui1`; nothing reduces `bi` to one bit. -/
def rscIterV (M bi : Nat) : Nat × Nat × Nat :=
  let M0 := (M >>> 2) &&& 0b001
  let M1 := (M >>> 1) &&& 0b001
  let M2 := M &&& 0b001
  let ui0 := bi
  let ui1 := (bi ^^^ M0 ^^^ M1 ^^^ M2) ^^^ M1 ^^^ M2
  (((bi ^^^ M0 ^^^ M1 ^^^ M2) <<< 2) ||| (M0 <<< 1) ||| M1, ui0, ui1)

/-- `M_iter_NRNSC(M, bi)`, `mr_fsk_modulator.py:279-288`: `not` gives a bool. -/
def nrnscIterV (M bi : Nat) : Nat × Nat × Nat :=
  let M0 := (M >>> 2) &&& 0b001
  let M1 := (M >>> 1) &&& 0b001
  let M2 := M &&& 0b001
  ((bi <<< 2) ||| (M0 <<< 1) ||| M1, b2n ((bi ^^^ M0 ^^^ M1 ^^^ M2) == 0), b2n ((bi ^^^ M1 ^^^ M2) == 0))

/-- Selection of the encoder by `phyFSKFECScheme`, `mr_fsk_modulator.py:305-308`. -/
def fskIterV (scheme : Nat) (M bi : Nat) : Nat × Nat × Nat := if scheme ≠ 0 then rscIterV M bi else nrnscIterV M bi

/-- The encoding loop, `mr_fsk_modulator.py:303-312`. -/
def fskEncodeV (scheme : Nat) : Nat → List Nat → List Nat × Nat
  | M, [] => ([], M)
  | M, b :: bs =>
    let (M', ui0, ui1) := fskIterV scheme M b
    let (out, M'') := fskEncodeV scheme M' bs
    (ui1 :: ui0 :: out, M'')

/-- `TAIL_BITS`, `mr_fsk_modulator.py:315`: the dictionary has the keys 0…7, another register value raises `KeyError`. -/
def fskTailV (scheme M : Nat) : Res (List Nat) :=
  if scheme ≠ 0 then (if M < 8 then .ok ((rscTailBits M).map b2n) else .error .KeyError) else .ok (nrnscTailBits.map b2n)

/-- `_FEC(data)`, `mr_fsk_modulator.py:253-335`; the values fit in a `uint8`. -/
def fskFecV (scheme : Nat) (data : List Nat) : Res (List Nat) := do
  let (out1, M1) := fskEncodeV scheme 0 data
  let t ← fskTailV scheme M1
  let (out2, M2) := fskEncodeV scheme M1 t
  return out1 ++ out2 ++ (fskEncodeV scheme M2 ((fskPadBits data.length).map b2n)).1

/-- One block of `_interleaver`, `mr_fsk_modulator.py:359-363`. -/
def fskInterleaveBlockV (block : List Nat) : List Nat :=
  (List.range 16).foldl
    (fun new k => (new.set (fskT k * 2) (block.getD (k * 2) 0)).set (fskT k * 2 + 1) (block.getD (k * 2 + 1) 0))
    (List.replicate 32 0)

/-- `_interleaver(data)`, `mr_fsk_modulator.py:337-365`. -/
def fskInterleaverV (data : List Nat) : Res (List Nat) := do
  return (← reshapeRows 32 data).flatMap fskInterleaveBlockV

/-- The values of `self._binarySignal` for a message of octets, `mr_fsk_modulator.py:456-490`. -/
def fskBinaryV (p : FskParams) (bits : List Nat) : Res (List Nat) := do
  let phr ← p.phr (bits.length / 8)
  let d := phr.map b2n ++ bits
  let d ← if p.fecEnabled then do
      let e ← fskFecV p.fecScheme d
      if p.interleaving then fskInterleaverV e else pure e
    else pure d
  let d := if p.scramble then
      let start := fskPhrLength * (if p.fecEnabled then 2 else 1) * 8
      d.take start ++ scramblerV (d.drop start)
    else d
  return p.shr.map b2n ++ d

/-- `str(x)` of an octet: its decimal digits. -/
def decimalDigits (n : Nat) : List Nat :=
  if n < 10 then [n] else if n < 100 then [n / 10, n % 10] else [n / 100, n / 10 % 10, n % 10]

/-- The dictionary `mod`, `mr_fsk_modulator.py:405-414`, in units of `fdev`: its keys are strings of digits and are the same for both modulations. -/
def fskKeyDeviation (key : List Nat) : Res ℚ :=
  if key = [0] then .ok (-1)
  else if key = [1] then .ok 1
  else if key = [0, 1] then .ok (-1)
  else if key = [0, 0] then .ok (-1 / 3)
  else if key = [1, 0] then .ok (1 / 3)
  else if key = [1, 1] then .ok 1
  else .error .KeyError

/-- `step`, `mr_fsk_modulator.py:416`. -/
def fskStepV : FskMod → Nat | .FSK2 => 1 | .FSK4 => 2

/-- `fdev`, `mr_fsk_modulator.py:399-403`. -/
def fskFdev (p : FskParams) : ℚ :=
  let deltaF := p.symbolRate * p.modIndex / 2
  match p.modulation with | .FSK2 => deltaF | .FSK4 => 3 * deltaF

noncomputable section
open Complex

/-- `_FSKModulator(message, samplesPerSymbol)`, `mr_fsk_modulator.py:367-434`: the key of a symbol is the concatenation of the decimal digits of its values. -/
def fskModulatorV (rn : Rat → Rat) (p : FskParams) (message : List Nat) (sps : Nat) : Res (List ℂ × ℚ) := do
  let syms ← reshapeRows (fskStepV p.modulation) message
  let devs ← syms.mapM fun val => fskKeyDeviation (val.flatMap decimalDigits)
  let freqs : List ℚ := devs.map fun d => d * fskFdev p
  let f : List ℚ := freqs.flatMap fun x => List.replicate sps x
  let t : List ℚ := (List.range (fskArangeLen rn p.symbolRate sps f.length)).map fun (i : Nat) => (i : ℚ) / (p.symbolRate * sps)
  let iq ← bcast (fun (f t : ℚ) => exp (2 * Real.pi * f * I * t)) f t
  return (iq, rn (1 / fskDt rn p.symbolRate sps))

/-- `Mr_fsk_modulator.bitsToIQ(bits)`, `mr_fsk_modulator.py:438-495`: value or exception as a function of the parameters. -/
def fskBitsToIQS (u8 : Entry → Int) (rn : Rat → Rat) (p : FskParams) (bits : ArgS) : Res (List ℂ × ℚ) := do
  let b ← checkOctets u8 bits
  fskModulatorV rn p (← fskBinaryV p b) 20

end
end SunPhy
