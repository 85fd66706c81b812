import Verif.Model.MrOfdm
import Verif.Model.Signal
import Verif.Model.Bits
/-
Model of the signal generation of `Mr_ofdm_modulator` (`sun_phy/mr_ofdm/mr_ofdm_modulator.py`) over exact complex numbers:
training fields, header, payload, complete frame, as methods of an object with mutable attributes.
-/
namespace SunPhy
open Complex

/-- `LTF`, `mr_ofdm_modulator.py:205-223`. -/
def ltfTable : Nat → List Int
  | 1 => [0, 0, 0, 0, 0, 0, 0, 0, 0, 0, 0, 0, -1, 1, 1, -1, -1, -1, -1, 1, 1, -1, -1, 1, 1, 1, -1, -1, 1, 1, -1, -1, -1, -1, -1, 1, 1, -1, -1, -1, -1, -1, 1, 1, -1, 1, -1, -1, 1, -1, 1, 1, 1, 1, -1, -1, 1, 1, -1, 1, 1, -1, 1, 1, 0, 1, -1, 1, -1, 1, 1, -1, -1, 1, -1, 1, 1, 1, 1, -1, 1, 1, 1, 1, 1, -1, 1, -1, 1, -1, 1, -1, 1, 1, -1, 1, -1, -1, -1, 1, 1, 1, 1, 1, 1, -1, -1, -1, -1, -1, -1, 1, -1, 1, 1, -1, 1, 0, 0, 0, 0, 0, 0, 0, 0, 0, 0, 0]
  | 2 => [0, 0, 0, 0, 0, 0, -1, -1, -1, -1, 1, 1, 1, -1, 1, -1, 1, -1, 1, 1, -1, -1, -1, 1, 1, -1, 1, 1, 1, -1, -1, -1, 0, 1, -1, 1, 1, -1, 1, -1, -1, 1, -1, 1, 1, -1, -1, 1, 1, -1, -1, -1, -1, -1, 1, -1, -1, -1, 1, 0, 0, 0, 0, 0]
  | 3 => [0, 0, 0, 1, -1, 1, -1, 1, 1, 1, 1, 1, 1, 1, 1, -1, 0, -1, -1, 1, -1, 1, 1, -1, -1, 1, 1, -1, -1, 1, 0, 0]
  | 4 => [0, 1, -1, 1, 1, -1, 1, 1, 0, -1, 1, 1, 1, -1, -1, -1]
  | _ => []

/-- Tones of the STF with positive amplitude, `mr_ofdm_modulator.py:87-107`. -/
def stfPlus : Nat → List Int
  | 1 => [-48, -40, -32, -24, -16, -8, 8, 16, 24, 32, 40, 48]
  | 2 => [-12, -8, -4, 4, 12, 16, 24]
  | 3 => [-12, -8, -4, 4, 8, 12]
  | 4 => [-6, -4, -2, 2, 4, 6]
  | _ => []

/-- Tones of the STF with negative amplitude, `mr_ofdm_modulator.py:94-95`. -/
def stfMinus : Nat → List Int
  | 2 => [-24, -20, -16, 8, 20]
  | _ => []

/-- Squared amplitude of the STF tones, `mr_ofdm_modulator.py:90`, `:95`, `:97`, `:102`, `:107`. -/
def stfPower : Nat → Rat
  | 1 => 104 / 12 | 2 => 52 / 12 | 3 => 26 / 6 | 4 => 14 / 6 | _ => 0

noncomputable section

/-- `STF[option]`, `mr_ofdm_modulator.py:86-116`: subcarriers in natural order (index `tone + N/2`). -/
def stfTable (opt : Nat) : List ℂ :=
  (List.range (fftSize opt)).map fun (i : Nat) =>
    let tone : Int := (i : Int) - (fftSize opt : Int) / 2
    if tone ∈ stfPlus opt then ((Real.sqrt (stfPower opt : ℝ) : ℝ) : ℂ)
    else if tone ∈ stfMinus opt then ((-Real.sqrt (stfPower opt : ℝ) : ℝ) : ℂ)
    else 0

/-- `K_MOD`, `mr_ofdm_modulator.py:149-153`. -/
def kMod : ModKind → ℝ
  | .BPSK => 1
  | .QPSK => 1 / Real.sqrt 2
  | .QAM16 => 1 / Real.sqrt 10

namespace OfdmParams

/-- `_STF()`, `mr_ofdm_modulator.py:318-372`. -/
def stf (p : OfdmParams) : Res (List ℂ) := do
  let s ← subcarriersToIQ (fftSize p.option) (1 / 4) (stfTable p.option)
  let mask : List ℂ := List.replicate (s.length / 5 * 3) 1 ++ List.replicate (s.length / 5 * 2) (-1)
  let fourth ← bcast (· * ·) s mask
  return (s ++ s ++ s ++ fourth).map (· * (1.25 : ℂ))

/-- `_LTF()`, `mr_ofdm_modulator.py:374-410`. -/
def ltf (p : OfdmParams) : Res (List ℂ) := do
  let s ← subcarriersToIQ (fftSize p.option) 0 ((ltfTable p.option).map fun (v : Int) => ((v : Int) : ℂ))
  return s.drop (s.length / 2) ++ s ++ s

end OfdmParams

/-- `Mr_ofdm_modulator` object: parameters and the attributes written by `bitsToIQ`, `mr_ofdm_modulator.py:486`, `:515`,
`:562-580`, `:602-613`, `:660`.  (`_phr_subcarriers` is only written and is not modelled.) -/
structure OfdmObj where
  params : OfdmParams
  ij : Option (List Nat) := none
  N_PAD : Option Nat := none
  PHY_header : Option Bits := none
  PHY_header_encoded : Option Bits := none
  PHY_header_interleaved : Option Bits := none
  payload_pad : Option Bits := none
  payload_scrambled : Option Bits := none
  payload_encoded : Option Bits := none
  payload_interleaved : Option Bits := none
  mod_phy : Option OfdmState := none

/-- `_interleaver(x, MCS)` as a method (stores `self._ij`), `mr_ofdm_modulator.py:441-492`. -/
def ofdmInterleaverM (x : Bits) (MCS : Nat) : PyM OfdmObj Bits := do
  let p := (← get).params
  modify fun o => { o with ij := some (p.intlIJ MCS) }
  return p.interleaver x MCS

/-- `_padding(message)` as a method (stores `self._N_PAD`), `mr_ofdm_modulator.py:494-520`. -/
def ofdmPaddingM (message : Bits) : PyM OfdmObj Bits := do
  let p := (← get).params
  modify fun o => { o with N_PAD := some (p.padding message).2 }
  return (p.padding message).1

/-- `_PHR(message_length)`, `mr_ofdm_modulator.py:522-582`: samples and the modulator used (its pilot state). -/
def ofdmPhrM (messageLength : Nat) : PyM OfdmObj (List ℂ × OfdmState) := do
  let p := (← get).params
  let low := lowestMcs p.option
  let h ← PyM.lift (p.phyHeader messageLength)
  modify fun o => { o with PHY_header := some h }
  let h ← PyM.attr (·.PHY_header)
  let e ← PyM.lift (OfdmParams.encoder h (rateIs34 low))
  modify fun o => { o with PHY_header_encoded := some e }
  let e ← PyM.attr (·.PHY_header_encoded)
  let i ← ofdmInterleaverM e low
  modify fun o => { o with PHY_header_interleaved := some i }
  let i ← PyM.attr (·.PHY_header_interleaved)
  let r := (ofdmBitsToIQ (p.ofdmCfg low ℂ) (kMod (mcsModulation low)) (1 / 4) i).call (OfdmState.init)
  let iq ← PyM.lift r.1
  return (iq, r.2)

/-- `_payload(message, mod_phy)`, `mr_ofdm_modulator.py:584-634`. -/
def ofdmPayloadM (message : Bits) (modPhy : OfdmState) : PyM OfdmObj (List ℂ) := do
  let p := (← get).params
  let padded ← ofdmPaddingM message
  modify fun o => { o with payload_pad := some padded }
  let padded ← PyM.attr (·.payload_pad)
  modify fun o => { o with payload_scrambled := some (SunPhy.scrambler padded (scramblingSeed p.scrambler)) }
  let nPad ← PyM.attr (·.N_PAD)
  let s ← PyM.attr (·.payload_scrambled)
  modify fun o => { o with payload_scrambled := some (setSlice s (-6 - (nPad : Int)) (-(nPad : Int)) false) }
  let s ← PyM.attr (·.payload_scrambled)
  let e ← PyM.lift (OfdmParams.encoder s (rateIs34 p.mcs))
  modify fun o => { o with payload_encoded := some e }
  let e ← PyM.attr (·.payload_encoded)
  let i ← ofdmInterleaverM e p.mcs
  modify fun o => { o with payload_interleaved := some i }
  let i ← PyM.attr (·.payload_interleaved)
  let r := (ofdmBitsToIQ (p.ofdmCfg p.mcs ℂ) (kMod (mcsModulation p.mcs)) (1 / 4) i).call
    (OfdmState.init modPhy.getPilotSetIndex modPhy.getPn9Value)
  PyM.lift r.1

/-- `bitsToIQ(bits)`, `mr_ofdm_modulator.py:636-675`: samples and sampling frequency. -/
def ofdmModBitsToIQ (bits : Arg) : PyM OfdmObj (List ℂ × ℚ) := do
  let bits ← PyM.lift (checkBinaryArray bits)
  let p := (← get).params
  let stf ← PyM.lift p.stf
  let ltf ← PyM.lift p.ltf
  let (phr, m) ← ofdmPhrM bits.length
  modify fun o => { o with mod_phy := some m }
  let m ← PyM.attr (·.mod_phy)
  let payload ← ofdmPayloadM bits m
  return (stf ++ ltf ++ phr ++ payload, fftSize p.option * (1 + 1 / 4) / (120 / 1000000))

/-- `bytesToIQ(bytes)`, `mr_ofdm_modulator.py:678-697`. -/
def ofdmModBytesToIQ (bytes : Arg) : PyM OfdmObj (List ℂ × ℚ) := do
  let m ← PyM.lift (toBinaryArray bytes)
  ofdmModBitsToIQ (bitsArg m)

end
end SunPhy
