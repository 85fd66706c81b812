import Verif.Model.MrOfdmSignal
import Verif.Model.PolyFloat
/-
The signal generation of `Ofdm_modulator` and `Mr_ofdm_modulator` with the arithmetic of a machine: products of complex numbers, divisions, square roots, exponentials and the
inverse FFT are what the machine computes (`FloatOps`), not their exact values.  `Model/Signal.lean` and `Model/MrOfdmSignal.lean` model the same code with exact numbers; C112 compares
the two.  The bit-level part (header, code, interleaver, scrambler, pilots) is shared.  Not modelled: overflow, underflow, the sign of zero.
-/
namespace SunPhy
open Complex
noncomputable section

/-- The numerical primitives that the program calls. -/
structure FloatOps where
  /-- product of two complex arrays, entry by entry (`ofdm_modulator.py:211`, `:245`, `:259-268`, `mr_ofdm_modulator.py:362`, `:368`) -/
  mul : ℂ → ℂ → ℂ
  /-- quotient of two real numbers (`mr_ofdm_modulator.py:90`, `:151`) -/
  div : ℝ → ℝ → ℝ
  /-- `np.sqrt` -/
  sqrt : ℝ → ℝ
  /-- `np.exp(1j*2*np.pi*m/4)` (`ofdm_modulator.py:243`, `:257`, `:261`, `:264`) -/
  rot : Nat → ℂ
  /-- `np.fft.ifft(x, norm='ortho')` (`ofdm_modulator.py:385`) -/
  ifft : List ℂ → List ℂ

/-- The complex numbers of a machine: multiplication is the machine's. -/
structure Num (M : FloatOps) where
  val : ℂ

instance (M : FloatOps) : Mul (Num M) := ⟨fun a b => ⟨M.mul a.val b.val⟩⟩
instance (M : FloatOps) : Zero (Num M) := ⟨⟨0⟩⟩

/-- Constellation points with small integer coordinates are exact; `factor` is the modulation factor as computed. -/
def floatNumbers (M : FloatOps) (factor : ℝ) : Numbers (Num M) where
  ofGI z := ⟨(z.re : ℂ) + (z.im : ℂ) * I⟩
  rot m := ⟨M.rot m⟩
  factor := ⟨factor⟩

/-- `_ifft` on one column, `ofdm_modulator.py:368-387`. -/
def ofdmIfftF (M : FloatOps) (channels : List ℂ) : List ℂ := M.ifft (ifftshift channels)

/-- `Ofdm_modulator.bitsToIQ(bits, pad)`, `ofdm_modulator.py:414-466`. -/
def ofdmBitsToIQF (M : FloatOps) (c : OfdmCfg (Num M)) (factor : ℝ) (CP : ℚ) (bits : Bits) (pad : Bool := false) : PyM OfdmState (List ℂ) := do
  let cols ← ofdmSubcarriers c (floatNumbers M factor) bits pad
  return cols.flatMap fun col => cyclicPrefix CP (ofdmIfftF M (col.map Num.val))

/-- `Ofdm_modulator.subcarriersToIQ(subcarriers)` for a 1-D array, `ofdm_modulator.py:468-500`. -/
def subcarriersToIQF (M : FloatOps) (nFFT : Nat) (CP : ℚ) (subcarriers : List ℂ) : Res (List ℂ) :=
  if subcarriers.length ≠ nFFT then .error .ValueError
  else .ok (cyclicPrefix CP (ofdmIfftF M subcarriers))

/-- Number of active tones and of STF tones: `np.sqrt(104/12)`, `np.sqrt(52/12)`, `np.sqrt(26/6)`, `np.sqrt(14/6)`, `mr_ofdm_modulator.py:90`, `:95`, `:97`, `:102`, `:107`. -/
def stfQuotient : Nat → ℝ × ℝ
  | 1 => (104, 12) | 2 => (52, 12) | 3 => (26, 6) | 4 => (14, 6) | _ => (0, 1)

/-- `STF[option]`, `mr_ofdm_modulator.py:86-116`. -/
def stfTableF (M : FloatOps) (opt : Nat) : List ℂ :=
  let amplitude := M.sqrt (M.div (stfQuotient opt).1 (stfQuotient opt).2)
  (List.range (fftSize opt)).map fun (i : Nat) =>
    let tone : Int := (i : Int) - (fftSize opt : Int) / 2
    if tone ∈ stfPlus opt then (amplitude : ℂ)
    else if tone ∈ stfMinus opt then ((-amplitude : ℝ) : ℂ)
    else 0

/-- `K_MOD`, `mr_ofdm_modulator.py:149-153`. -/
def kModF (M : FloatOps) : ModKind → ℝ
  | .BPSK => 1
  | .QPSK => M.div 1 (M.sqrt 2)
  | .QAM16 => M.div 1 (M.sqrt 10)

namespace OfdmParams

/-- `_STF()`, `mr_ofdm_modulator.py:318-372`. -/
def stfF (M : FloatOps) (p : OfdmParams) : Res (List ℂ) := do
  let s ← subcarriersToIQF M (fftSize p.option) (1 / 4) (stfTableF M p.option)
  let mask : List ℂ := List.replicate (s.length / 5 * 3) 1 ++ List.replicate (s.length / 5 * 2) (-1)
  let fourth ← bcast M.mul s mask
  return (s ++ s ++ s ++ fourth).map (M.mul · (1.25 : ℂ))

/-- `_LTF()`, `mr_ofdm_modulator.py:374-410`. -/
def ltfF (M : FloatOps) (p : OfdmParams) : Res (List ℂ) := do
  let s ← subcarriersToIQF M (fftSize p.option) 0 ((ltfTable p.option).map fun (v : Int) => ((v : Int) : ℂ))
  return s.drop (s.length / 2) ++ s ++ s

end OfdmParams

/-- `_PHR(message_length)`, `mr_ofdm_modulator.py:522-582`. -/
def ofdmPhrMF (M : FloatOps) (messageLength : Nat) : PyM OfdmObj (List ℂ × OfdmState) := do
  let p := (← get).params
  let low := lowestMcs p.option
  let h ← PyM.lift (p.phyHeader messageLength)
  modify fun o => { o with PHY_header := some h }
  let h ← PyM.attr (·.PHY_header)
  let e ← PyM.lift (OfdmParams.encoder h (rateIs34 low))
  modify fun o => { o with PHY_header_encoded := some e }
  let e ← PyM.attr (·.PHY_header_encoded)
  let i ← ofdmInterleaverM e low
  modify fun o => { o with PHY_header_interleaved := some i }
  let i ← PyM.attr (·.PHY_header_interleaved)
  let r := (ofdmBitsToIQF M (p.ofdmCfg low (Num M)) (kModF M (mcsModulation low)) (1 / 4) i).call (OfdmState.init)
  let iq ← PyM.lift r.1
  return (iq, r.2)

/-- `_payload(message, mod_phy)`, `mr_ofdm_modulator.py:584-634`. -/
def ofdmPayloadMF (M : FloatOps) (message : Bits) (modPhy : OfdmState) : PyM OfdmObj (List ℂ) := do
  let p := (← get).params
  let padded ← ofdmPaddingM message
  modify fun o => { o with payload_pad := some padded }
  let padded ← PyM.attr (·.payload_pad)
  modify fun o => { o with payload_scrambled := some (SunPhy.scrambler padded (scramblingSeed p.scrambler)) }
  let nPad ← PyM.attr (·.N_PAD)
  let s ← PyM.attr (·.payload_scrambled)
  modify fun o => { o with payload_scrambled := some (setSlice s (-6 - (nPad : Int)) (-(nPad : Int)) false) }
  let s ← PyM.attr (·.payload_scrambled)
  let e ← PyM.lift (OfdmParams.encoder s (rateIs34 p.mcs))
  modify fun o => { o with payload_encoded := some e }
  let e ← PyM.attr (·.payload_encoded)
  let i ← ofdmInterleaverM e p.mcs
  modify fun o => { o with payload_interleaved := some i }
  let i ← PyM.attr (·.payload_interleaved)
  let r := (ofdmBitsToIQF M (p.ofdmCfg p.mcs (Num M)) (kModF M (mcsModulation p.mcs)) (1 / 4) i).call
    (OfdmState.init modPhy.getPilotSetIndex modPhy.getPn9Value)
  PyM.lift r.1

/-- `bitsToIQ(bits)`, `mr_ofdm_modulator.py:636-675`: samples and sampling frequency.  The frequency is computed in double precision: `120e-6` is rounded, and
so is the quotient (`FFT_SIZE * (1 + CP)` is an integer). -/
def ofdmModBitsToIQF (M : FloatOps) (bits : Arg) : PyM OfdmObj (List ℂ × ℚ) := do
  let bits ← PyM.lift (checkBinaryArray bits)
  let p := (← get).params
  let stf ← PyM.lift (p.stfF M)
  let ltf ← PyM.lift (p.ltfF M)
  let (phr, m) ← ofdmPhrMF M bits.length
  modify fun o => { o with mod_phy := some m }
  let m ← PyM.attr (·.mod_phy)
  let payload ← ofdmPayloadMF M bits m
  return (stf ++ ltf ++ phr ++ payload, float64 (fftSize p.option * (1 + 1 / 4) / float64 (120 / 1000000)))

/-- `bytesToIQ(bytes)`, `mr_ofdm_modulator.py:678-697`. -/
def ofdmModBytesToIQF (M : FloatOps) (bytes : Arg) : PyM OfdmObj (List ℂ × ℚ) := do
  let m ← PyM.lift (toBinaryArray bytes)
  ofdmModBitsToIQF M (bitsArg m)

end
end SunPhy
