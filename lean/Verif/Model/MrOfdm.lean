import Verif.Model.Fields
import Verif.Model.RateEncoder
import Verif.Model.OfdmMod
/-
Model of `sun_phy/mr_ofdm/mr_ofdm_modulator.py` (`Mr_ofdm_modulator`), bit level.  The time-domain part is in
`Model/MrOfdmSignal.lean`.
-/
namespace SunPhy

/-- `FFT_SIZE`, `mr_ofdm_modulator.py:15-19`. -/
def fftSize : Nat → Nat | 1 => 128 | 2 => 64 | 3 => 32 | 4 => 16 | _ => 0

/-- `PILOTS_INDICES`, `mr_ofdm_modulator.py:33-85`: the list of pilot sets of each option (the arrays are transposed in
the code and then indexed by column). -/
def pilotsIndices : Nat → List (List Int)
  | 1 => [[-38, -26, -14, -2, 10, 22, 34, 46], [-46, -34, -22, -10, 2, 14, 26, 38],
          [-42, -30, -18, -6, 6, 18, 30, 42], [-50, -38, -26, -14, -2, 10, 22, 50],
          [-46, -34, -22, -10, 2, 14, 34, 46], [-42, -30, -18, -6, 6, 18, 26, 38],
          [-50, -38, -26, -14, -2, 30, 42, 50], [-46, -34, -22, -10, 10, 22, 34, 46],
          [-42, -30, -18, -6, 2, 14, 26, 38], [-50, -38, -26, 6, 18, 30, 42, 50],
          [-46, -34, -14, -2, 10, 22, 34, 46], [-42, -30, -22, -10, 2, 14, 26, 38],
          [-50, -18, -6, 6, 18, 30, 42, 50]]
  | 2 => [[-14, -2, 10, 22], [-22, -10, 2, 14], [-18, -6, 6, 18], [-26, -14, -2, 26],
          [-22, -10, 10, 22], [-18, -6, 2, 14], [-26, 6, 18, 26]]
  | 3 => [[-7, 7], [-11, 3], [-3, 11], [-9, 5], [-5, 9], [-13, 1], [-1, 13]]
  | 4 => [[-3, 5], [-7, 1], [-5, 3], [-1, 7]]
  | _ => []

/-- `MODULATION_AND_CODING_SCHEME`, `mr_ofdm_modulator.py:118-126`. -/
def mcsModulation : Nat → ModKind
  | 0 | 1 => .BPSK | 2 | 3 | 4 => .QPSK | _ => .QAM16

/-- `N_BPSC`, `mr_ofdm_modulator.py:128-136`. -/
def nBpsc : Nat → Nat | 0 | 1 => 1 | 2 | 3 | 4 => 2 | _ => 4

/-- `RATE`, `mr_ofdm_modulator.py:138-146`: `true` for "3/4", `false` for "1/2". -/
def rateIs34 : Nat → Bool | 4 | 6 => true | _ => false

/-- `ACTIVE_TONES`, `mr_ofdm_modulator.py:156-161`. -/
def activeTones : Nat → Nat | 1 => 104 | 2 => 52 | 3 => 26 | 4 => 14 | _ => 0

/-- `DATA_TONES`, `mr_ofdm_modulator.py:164-169`. -/
def dataTones : Nat → Nat | 1 => 96 | 2 => 48 | 3 => 24 | 4 => 12 | _ => 0

/-- `FREQUENCY_SPREADING`, `mr_ofdm_modulator.py:172-180`. -/
def freqSpreading : Nat → Nat | 0 => 4 | 1 | 2 => 2 | _ => 1

/-- `VALID_MCS_OFDM_COMBINATIONS`, `mr_ofdm_modulator.py:184-192`. -/
def validCombinations : List (List Bool) :=
  [[true, true, false, false], [true, true, true, false], [true, true, true, true], [true, true, true, true],
   [false, true, true, true], [false, true, true, true], [false, false, true, true]]

/-- `LOWEST_MCS_VALUE`, `mr_ofdm_modulator.py:194-199`. -/
def lowestMcs : Nat → Nat | 1 | 2 => 0 | 3 => 1 | _ => 2

/-- `SCRAMBLING_SEED`, `mr_ofdm_modulator.py:228-233`. -/
def scramblingSeed : Nat → Nat
  | 0 => 0b000010111 | 1 => 0b000011100 | 2 => 0b101110111 | _ => 0b101111100

/-- `PHR_N_SYMBOLS[phyOFDMInterleaving][OFDM_Option]`, `mr_ofdm_modulator.py:239-252`. -/
def phrNSymbols : Nat → Nat → Nat
  | 0, 1 => 3 | 0, _ => 6 | _, 1 => 4 | _, 2 => 8 | _, _ => 6

/-- Parameters of a constructed `Mr_ofdm_modulator`. -/
structure OfdmParams where
  mcs : Nat
  option : Nat
  interleaving : Nat
  scrambler : Nat
  deriving DecidableEq, Repr

/-- `Mr_ofdm_modulator.__init__`, checks of `mr_ofdm_modulator.py:273-298`, in order.  `VALID_…[MCS]` is a tuple of 7
rows, so index 7 raises `IndexError`. -/
def mrOfdmInit (MCS OFDM_Option phyOFDMInterleaving scrambler : PyVal) : Res OfdmParams :=
  match MCS.asInt? with
  | none => .error .ValueError
  | some mcs =>
    if ¬ (0 ≤ mcs ∧ mcs ≤ 7) then .error .ValueError else
    match OFDM_Option.asInt? with
    | none => .error .ValueError
    | some opt =>
      if ¬ (1 ≤ opt ∧ opt ≤ 4) then .error .ValueError else
      match validCombinations[mcs.toNat]? with
      | none => .error .IndexError
      | some row =>
        if row[(opt - 1).toNat]? ≠ some true then .error .UnsupportedError else
        match phyOFDMInterleaving.asInt? with
        | none => .error .ValueError
        | some il =>
          if ¬ (il = 0 ∨ il = 1) then .error .ValueError else
          match scrambler.asInt? with
          | none => .error .ValueError
          | some sc =>
            if ¬ (0 ≤ sc ∧ sc ≤ 3) then .error .ValueError else
            .ok { mcs := mcs.toNat, option := opt.toNat, interleaving := il.toNat, scrambler := sc.toNat }

namespace OfdmParams

/-- `_N_cbps`, `mr_ofdm_modulator.py:305`. -/
def nCbps (p : OfdmParams) : Nat := dataTones p.option * nBpsc p.mcs

/-- `int(x * self._rate)` with `_rate = 1/2 or 3/4`, `mr_ofdm_modulator.py:308-309`, `:558`. -/
def timesRate (p : OfdmParams) (x : Nat) : Nat := if rateIs34 p.mcs then x * 3 / 4 else x / 2

/-- `_N_dbps` = `bits_per_symbol()`, `mr_ofdm_modulator.py:309`, `:700-701`. -/
def nDbps (p : OfdmParams) : Nat := p.timesRate p.nCbps

/-- `_encoder(x, rate)`, `mr_ofdm_modulator.py:412-439`. -/
def encoder (x : Bits) (is34 : Bool) : Res Bits :=
  if is34 then (rate34Seq (rateHalfInit 0) x).map (·.1) else .ok (rateHalfOut (rateHalfInit 0) x)

/-- Block size `N_cbps` of the interleaver, `mr_ofdm_modulator.py:462-468` (exact: `N_FFT*N_bpsc/SF*3/4` is an integer for
all table values). -/
def intlBlock (p : OfdmParams) (MCS : Nat) : Nat :=
  if p.interleaving = 0 then fftSize p.option * nBpsc MCS / freqSpreading MCS * 3 / 4
  else fftSize p.option * nBpsc MCS * 3 / 4

/-- First permutation, `mr_ofdm_modulator.py:472-474`. -/
def intlI (nCbps nRow k : Nat) : Nat := nCbps * (k % nRow) / nRow + k / nRow

/-- Second permutation, `mr_ofdm_modulator.py:482-484`. -/
def intlJ (nCbps nRow s i : Nat) : Nat := s * (i / s) + (i + nCbps - nRow * i / nCbps) % s

/-- `self._ij = i_store[j]`, `mr_ofdm_modulator.py:470-486`. -/
def intlIJ (p : OfdmParams) (MCS : Nat) : List Nat :=
  let n := p.intlBlock MCS
  let nRow := 12 / freqSpreading MCS
  let s := max 1 (nBpsc MCS / 2)
  (List.range n).map fun k => intlI n nRow (intlJ n nRow s k)

/-- One iteration of the scatter `x_interleaved[s*K + ij] = x[s*K + k]`, `mr_ofdm_modulator.py:489-490`, on one block
(the target block starts as zeros; later writes win). -/
def scatterBlock (ij : List Nat) (blk : Bits) : Bits :=
  (ij.zip blk).foldl (fun out (i, b) => out.set i b) (List.replicate blk.length false)

/-- `_interleaver(x, MCS)`, `mr_ofdm_modulator.py:441-492`: `x.size // K` blocks are interleaved, a remainder shorter than
a block stays zero. -/
def interleaver (p : OfdmParams) (x : Bits) (MCS : Nat) : Bits :=
  let k := p.intlBlock MCS
  (chunks k x).flatMap (scatterBlock (p.intlIJ MCS)) ++ List.replicate (x.length % k) false

/-- `_padding(message)`, `mr_ofdm_modulator.py:494-520`: padded message and `self._N_PAD`. -/
def padding (p : OfdmParams) (message : Bits) : Bits × Nat :=
  let nSym := ceilDiv (message.length + 6) p.nDbps
  let nData := nSym * p.nDbps
  let nPad := nData - (message.length + 6)
  (message ++ List.replicate nPad false ++ List.replicate 6 false, nPad)

/-- `_payload_scrambled`, `mr_ofdm_modulator.py:602-608`: scramble, then
`x[-N_TAIL_BITS - N_PAD : -N_PAD] = 0` (with Python slice semantics: for `N_PAD = 0` the upper bound is index 0). -/
def payloadScrambled (p : OfdmParams) (message : Bits) : Bits :=
  let (padded, nPad) := p.padding message
  setSlice (SunPhy.scrambler padded (scramblingSeed p.scrambler)) (-6 - (nPad : Int)) (-(nPad : Int)) false

/-- `_payload_encoded`, `mr_ofdm_modulator.py:610`. -/
def payloadEncoded (p : OfdmParams) (message : Bits) : Res Bits :=
  encoder (p.payloadScrambled message) (rateIs34 p.mcs)

/-- `_payload_interleaved`, `mr_ofdm_modulator.py:612-613`. -/
def payloadInterleaved (p : OfdmParams) (message : Bits) : Res Bits :=
  (p.payloadEncoded message).map (p.interleaver · p.mcs)

/-- Guard tones on the left, `mr_ofdm_modulator.py:538-539`, `:615-616` (one less on the right). -/
def guard (p : OfdmParams) : Nat := (fftSize p.option - activeTones p.option) / 2

/-- `Ofdm_modulator` arguments for a given MCS, `mr_ofdm_modulator.py:545-554`, `:619-630`. -/
def ofdmCfg (p : OfdmParams) (MCS : Nat) (α : Type) : OfdmCfg α :=
  { nFFT := fftSize p.option
    modulation := mcsModulation MCS
    paddingLeft := p.guard
    paddingRight := p.guard - 1
    frequencySpreading := freqSpreading MCS
    pilots := some
      { sets := pilotsIndices p.option
        nPilots := (((pilotsIndices p.option)[0]?).getD []).length
        values := .pn9 } }

/-- `phr_length`, `mr_ofdm_modulator.py:558-560`.  NB: uses the rate of the *payload* MCS. -/
def phrLength (p : OfdmParams) : Nat :=
  p.timesRate (p.ofdmCfg (lowestMcs p.option) Unit).splitLength.toNat * phrNSymbols p.interleaving p.option

/-- `_PHY_header`, `mr_ofdm_modulator.py:541`, `:562-563`. -/
def phyHeader (p : OfdmParams) (messageLength : Nat) : Res Bits :=
  phrValue p.mcs (messageLength / 8) p.scrambler p.phrLength

/-- `_PHY_header_encoded`, `mr_ofdm_modulator.py:566`. -/
def phyHeaderEncoded (p : OfdmParams) (messageLength : Nat) : Res Bits := do
  encoder (← p.phyHeader messageLength) (rateIs34 (lowestMcs p.option))

/-- `_PHY_header_interleaved`, `mr_ofdm_modulator.py:569-570`. -/
def phyHeaderInterleaved (p : OfdmParams) (messageLength : Nat) : Res Bits := do
  return p.interleaver (← p.phyHeaderEncoded messageLength) (lowestMcs p.option)

end OfdmParams
end SunPhy
