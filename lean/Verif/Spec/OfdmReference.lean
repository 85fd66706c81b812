import Verif.Spec.Hamming
import Verif.Spec.OfdmInterleaver
import Verif.Spec.OfdmLayout
import Mathlib.Analysis.SpecialFunctions.Complex.Circle
import Mathlib.Analysis.SpecialFunctions.Trigonometric.Basic
/-
A reference MR-OFDM transmitter in closed form: every quantity is given by a formula in its index (which bit, which tone, which sample),
without loops or state.  Tables are written out again.  Nothing here uses the model's functions; only the record `OfdmParams` (the four
constructor arguments) and the type of bit lists are shared.
-/
namespace SunPhy.Ref
open SunPhy Spec Complex

/-! ### Bits -/

/-- The linear recurring sequence of `x^9 + x^5 + 1` with the nine bits of the seed as first terms, least significant first. -/
def lfsr (seed n : Nat) : Bool :=
  if n < 9 then seed.testBit n else lfsr seed (n - 9) ^^ lfsr seed (n - 4)
termination_by n

/-- Whitening sequence of a seed: the terms after the seed itself. -/
def key (seed k : Nat) : Bool := lfsr seed (k + 9)

/-- Value `v` in `w` bits, most significant first. -/
def field (w v : Nat) : Bits := (List.range w).map fun i => v.testBit (w - 1 - i)

/-- One clock of the CRC-8 shift register for `x^8 + x^2 + x + 1`, highest cell first. -/
def crcClock : Bits → Bool → Bits
  | [r7, r6, r5, r4, r3, r2, r1, r0], b =>
    let f := xor r7 b
    [r6, r5, r4, r3, r2, xor r1 f, xor r0 f, f]
  | r, _ => r

/-- CRC-8 with the register preset to ones and complemented at the end. -/
def crc8 (x : Bits) : Bits := (x.foldl crcClock (List.replicate 8 true)).map not

/-- The rate 1/2 code with generators 133 and 171. -/
def conv (x : Bits) : Bits :=
  (List.range (2 * x.length)).map fun q => if q % 2 = 0 then tapSum [0, 2, 3, 5, 6] x (q / 2) else tapSum [0, 1, 2, 3, 6] x (q / 2)

/-- The rate 3/4 code: of every six code bits, those numbered 0, 1, 2 and 5 are sent. -/
def conv34 (x : Bits) : Bits :=
  (List.range (4 * x.length / 3)).map fun q => (conv x).getD (6 * (q / 4) + [0, 1, 2, 5].getD (q % 4) 0) false

/-- The position of the bit that ends up at position `j` of a block (`k ↦ perm1 (perm2 k)`). -/
def source (K R s j : Nat) : Nat := ((List.range K).find? fun k => perm1 K R (perm2 K R s k) == j).getD 0

/-- Interleaving of the complete blocks of `K` bits; the bits of an incomplete last block are sent as zeros. -/
def interleave (K R s : Nat) (x : Bits) : Bits :=
  (List.range x.length).map fun i => if (i / K + 1) * K ≤ x.length then x.getD (i / K * K + source K R s (i % K)) false else false

/-! ### Configuration -/

def nfft : Nat → Nat | 1 => 128 | 2 => 64 | 3 => 32 | _ => 16

/-- Unused tones at the lower and the upper edge. -/
def guardLow : Nat → Nat | 1 => 12 | 2 => 6 | 3 => 3 | _ => 1
def guardHigh : Nat → Nat | 1 => 11 | 2 => 5 | 3 => 2 | _ => 0

/-- MCS of the header. -/
def headerMcs : Nat → Nat | 1 => 0 | 2 => 0 | 3 => 1 | _ => 2

/-- Whitening seeds. -/
def seed : Nat → Nat | 0 => 0x017 | 1 => 0x01C | 2 => 0x177 | _ => 0x17C

/-- MCS with rate 3/4. -/
def threeQuarters (mcs : Nat) : Bool := mcs == 4 || mcs == 6

/-- Predetermined number of header symbols … -/
def headerTable (interleaving option : Nat) : Nat :=
  match interleaving, option with
  | 0, 1 => 3 | 0, _ => 6 | _, 1 => 4 | _, 2 => 8 | _, _ => 6

/-- … and the number actually sent: half as many again for the rate 3/4 schemes. -/
def headerCount (p : OfdmParams) : Nat :=
  if threeQuarters p.mcs then headerTable p.interleaving p.option * 3 / 2 else headerTable p.interleaving p.option

/-- Coded bits of one symbol. -/
def symbolBits (option mcs : Nat) : Nat := tonesOf option / spreadOf mcs * bitsOf mcs

/-- Data bits per group of symbols that carry the same number of tones without repetition. -/
def groupBits (option mcs : Nat) : Nat :=
  if threeQuarters mcs then tonesOf option * bitsOf mcs / 4 * 3 else tonesOf option * bitsOf mcs / 2

/-- Number of groups needed for `len` bits and a six bit tail. -/
def groups (p : OfdmParams) (len : Nat) : Nat := (len + 6 + (groupBits p.option p.mcs - 1)) / groupBits p.option p.mcs

/-- Pilot tones, set by set. -/
def pilotSets : Nat → List (List Int)
  | 1 => [[-38, -26, -14, -2, 10, 22, 34, 46], [-46, -34, -22, -10, 2, 14, 26, 38], [-42, -30, -18, -6, 6, 18, 30, 42],
          [-50, -38, -26, -14, -2, 10, 22, 50], [-46, -34, -22, -10, 2, 14, 34, 46], [-42, -30, -18, -6, 6, 18, 26, 38],
          [-50, -38, -26, -14, -2, 30, 42, 50], [-46, -34, -22, -10, 10, 22, 34, 46], [-42, -30, -18, -6, 2, 14, 26, 38],
          [-50, -38, -26, 6, 18, 30, 42, 50], [-46, -34, -14, -2, 10, 22, 34, 46], [-42, -30, -22, -10, 2, 14, 26, 38],
          [-50, -18, -6, 6, 18, 30, 42, 50]]
  | 2 => [[-14, -2, 10, 22], [-22, -10, 2, 14], [-18, -6, 6, 18], [-26, -14, -2, 26], [-22, -10, 10, 22], [-18, -6, 2, 14],
          [-26, 6, 18, 26]]
  | 3 => [[-7, 7], [-11, 3], [-3, 11], [-9, 5], [-5, 9], [-13, 1], [-1, 13]]
  | _ => [[-3, 5], [-7, 1], [-5, 3], [-1, 7]]

/-- The pilot tones of symbol `n` of the frame (counted from the first header symbol). -/
def pilotTones (option n : Nat) : List Int := (pilotSets option).getD (n % (pilotSets option).length) []

/-! ### Header and payload bits -/

/-- The 22 information bits of the header: 5 bits MCS, a zero, 11 bits length in octets, two zeros, 2 bits scrambler, a zero. -/
def headerInfo (mcs octets scrambler : Nat) : Bits :=
  field 5 mcs ++ [false] ++ field 11 octets ++ [false, false] ++ field 2 scrambler ++ [false]

/-- The header: information, check sequence, zeros. -/
def header (p : OfdmParams) (octets : Nat) : Bits :=
  headerInfo p.mcs octets p.scrambler ++ crc8 (headerInfo p.mcs octets p.scrambler) ++
    List.replicate (headerCount p * symbolBits p.option (headerMcs p.option) / 2 - 30) false

/-- The whitened payload: message, tail, padding.  The six tail bits are zero when there is padding; when there is none they are whitened. -/
def payload (p : OfdmParams) (m : Bits) : Bits :=
  let total := groups p m.length * groupBits p.option p.mcs
  (List.range total).map fun i =>
    if i < m.length then xor (key (seed p.scrambler) i) (m.getD i false)
    else if i < m.length + 6 ∧ m.length + 6 < total then false
    else key (seed p.scrambler) i

/-- Coded and interleaved bits of the header. -/
def headerStream (p : OfdmParams) (octets : Nat) : Bits :=
  let mcs := headerMcs p.option
  interleave (depth p.interleaving p.option mcs) (rows mcs) (step mcs) (conv (header p octets))

/-- Coded and interleaved bits of the payload. -/
def payloadStream (p : OfdmParams) (m : Bits) : Bits :=
  interleave (depth p.interleaving p.option p.mcs) (rows p.mcs) (step p.mcs)
    (if threeQuarters p.mcs then conv34 (payload p m) else conv (payload p m))

/-! ### Tones -/

def sign (b : Bool) : ℂ := if b then 1 else -1

/-- Gray coded level of two bits. -/
def level : Bool → Bool → ℂ
  | false, false => -3 | false, true => -1 | true, true => 1 | true, false => 3

noncomputable section

/-- Constellation point for the bits `b 0, b 1, …`, of mean square 1. -/
def point (bitsPerTone : Nat) (b : Nat → Bool) : ℂ :=
  match bitsPerTone with
  | 1 => sign (b 0)
  | 2 => (sign (b 0) + sign (b 1) * I) / (Real.sqrt 2 : ℝ)
  | _ => (level (b 0) (b 1) + level (b 2) (b 3) * I) / (Real.sqrt 10 : ℝ)

/-- Quarter turns of copy `copy` of value number `k` (from 1) when each value is sent `copies` times. -/
def turns (copies copy k : Nat) : Nat :=
  match copies, copy with
  | 2, 0 => 2 * k - 1
  | 4, 0 => 2 * k - 1
  | 4, 1 => 3 * k - 1
  | 4, 3 => k - 1
  | _, _ => 0

/-- Data value number `d` (in increasing order of tones) of symbol `n` of a stream. -/
def dataValue (option mcs : Nat) (stream : Bits) (n d : Nat) : ℂ :=
  let D := tonesOf option / spreadOf mcs
  point (bitsOf mcs) (fun j => stream.getD (n * symbolBits option mcs + d % D * bitsOf mcs + j) false) *
    I ^ turns (spreadOf mcs) (d / D) (d % D + 1)

/-- Value on tone `t` of symbol `n` of the frame. -/
def toneValue (p : OfdmParams) (m : Bits) (n : Nat) (t : Int) : ℂ :=
  let N := nfft p.option
  let ps := pilotTones p.option n
  if isGuard N (guardLow p.option) (guardHigh p.option) t ∨ t = 0 then 0
  else if t ∈ ps then sign (key 0x1FF (n * ps.length + ps.idxOf t))
  else
    let d := (dataToneList N (guardLow p.option) (guardHigh p.option) ps).idxOf t
    if n < headerCount p then dataValue p.option (headerMcs p.option) (headerStream p (m.length / 8)) n d
    else dataValue p.option p.mcs (payloadStream p m) (n - headerCount p) d

/-- Number of OFDM symbols of the frame. -/
def symbolCount (p : OfdmParams) (len : Nat) : Nat := headerCount p + groups p len * spreadOf p.mcs

/-! ### Samples -/

/-- The signal with value `X t` on tone `t`, at sample time `τ`: period `N`, `τ = 0` is the start of the useful part. -/
def wave (N : Nat) (X : Int → ℂ) (τ : Int) : ℂ :=
  (∑ i ∈ Finset.range N, X ((i : Int) - ((N / 2 : Nat) : Int)) *
    exp (2 * Real.pi * I * (((i : Int) - ((N / 2 : Nat) : Int) : Int) : ℂ) * τ / N)) / (Real.sqrt N : ℂ)

/-- Short training tones. -/
def stfTone (option : Nat) (t : Int) : ℂ :=
  match option with
  | 1 => if t ≠ 0 ∧ t % 8 = 0 ∧ t.natAbs ≤ 48 then (Real.sqrt (104 / 12) : ℝ) else 0
  | 2 => if t ∈ [-12, -8, -4, 4, 12, 16, 24] then (Real.sqrt (52 / 12) : ℝ)
         else if t ∈ [-24, -20, -16, 8, 20] then -(Real.sqrt (52 / 12) : ℝ) else 0
  | 3 => if t ≠ 0 ∧ t % 4 = 0 ∧ t.natAbs ≤ 12 then (Real.sqrt (26 / 6) : ℝ) else 0
  | _ => if t ≠ 0 ∧ t % 2 = 0 ∧ t.natAbs ≤ 6 then (Real.sqrt (14 / 6) : ℝ) else 0

/-- Signs of the long training tones: the tones with value `-1`. -/
def ltfMinus : Nat → List Int
  | 1 => [-52, -49, -48, -47, -46, -43, -42, -38, -37, -34, -33, -32, -31, -30, -27, -26, -25, -24, -23, -20, -18, -17, -15, -10, -9, -6,
          -3, 2, 4, 7, 8, 10, 15, 21, 23, 25, 27, 30, 32, 33, 34, 41, 42, 43, 44, 45, 46, 48, 51]
  | 2 => [-26, -25, -24, -23, -19, -17, -15, -12, -11, -10, -7, -3, -2, -1, 2, 5, 7, 8, 10, 13, 14, 17, 18, 19, 20, 21, 23, 24, 25]
  | 3 => [-12, -10, -1, 1, 2, 4, 7, 8, 11, 12]
  | _ => [-6, -3, 1, 5, 6, 7]

/-- Long training tones: `±1` on the active tones. -/
def ltfTone (option : Nat) (t : Int) : ℂ :=
  if isGuard (nfft option) (guardLow option) (guardHigh option) t ∨ t = 0 then 0 else if t ∈ ltfMinus option then -1 else 1

/-- Four short training symbols with prefix, the last half symbol negated. -/
def stf (option : Nat) : List ℂ :=
  let N := nfft option
  (List.range (5 * N)).map fun (k : Nat) =>
    5 / 4 * (if 5 * N - N / 2 ≤ k then -1 else 1) * wave N (stfTone option) (((k % (5 * N / 4) : Nat) : Int) - ((N / 4 : Nat) : Int))

/-- Two long training symbols with a prefix of half a symbol. -/
def ltf (option : Nat) : List ℂ :=
  let N := nfft option
  (List.range (5 * N / 2)).map fun (k : Nat) => wave N (ltfTone option) ((k : Int) - ((N / 2 : Nat) : Int))

/-- Symbol `n` with its prefix of a quarter symbol. -/
def symbol (p : OfdmParams) (m : Bits) (n : Nat) : List ℂ :=
  let N := nfft p.option
  (List.range (5 * N / 4)).map fun (k : Nat) => wave N (toneValue p m n) ((k : Int) - ((N / 4 : Nat) : Int))

/-- The samples of the complete frame. -/
def frame (p : OfdmParams) (m : Bits) : List ℂ :=
  stf p.option ++ ltf p.option ++ (List.range (symbolCount p m.length)).flatMap (symbol p m)

/-- Samples per second: one symbol with prefix lasts 120 µs. -/
def sampleRate (option : Nat) : ℚ := (5 * nfft option / 4 : Nat) * 1000000 / 120

end
end SunPhy.Ref
