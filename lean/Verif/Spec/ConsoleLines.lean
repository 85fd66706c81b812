import Verif.Spec.OqpskSizes
import Verif.Spec.OfdmInterleaver
import Verif.Spec.OfdmRun
/-
What the modulators print, line by line, as a function of the configuration and of the number of message bits.
-/
namespace SunPhy.Spec.Out
open SunPhy

/-! ### MR-O-QPSK -/

/-- The number printed as chip rate (in the bands at 2450, 780, 915, 917 MHz and in the others; it is the bit rate of the mode). -/
def rateText (b : Band) (mdsss : Bool) (rm : Nat) : String :=
  match b with
  | .b470 | .b868 | .b920 | .b950 => ["6.25", "12.50", "25.00", "50.00"].getD rm ""
  | .b780 | .b915 | .b917 | .b2450 => (if mdsss then ["62.50", "125.00", "250.00", "500.00"] else ["31.25", "125.00", "250.00", "500.00"]).getD rm ""

/-- Bits entering the spreader for `n` message bits: coded with DSSS and with the rate modes 0 and 1 of MDSSS. -/
def streamBits (mdsss : Bool) (rm n : Nat) : Nat := if mdsss ∧ 2 ≤ rm then n else 126 * blocks63 (n / 8) + 2 * (n % 8)

/-- The lines of one call of `Mr_o_qpsk_modulator.bitsToIQ` with `n` message bits. -/
def oqpskLines (verbose : Bool) (b : Band) (mdsss : Bool) (rm n : Nat) : List String :=
  let N := mdsssF b rm / 4                      -- columns per group of three bits
  let K := streamBits mdsss rm n
  let q := (K + 4) / 8                          -- octets, a half one completed with zeros
  (if mdsss then
    (if verbose then [s!"TPC N = {N}"] else []) ++
    (if verbose ∧ K % 8 = 4 then [s!"Padding binary message with 4 zeros ({K} -> {K + 4})"] else []) ++
    [s!"Splitting message ({9 * q},) -> (3, {3 * q})",
     s!"Applying Hadamard encoder (3, {3 * q}) -> (3, {q * N})",
     s!"Applying SPC encodee (3, {q * N}) -> (4, {q * N})"] ++
    (if verbose then [s!"TPC Encoding ({K},) -> (4, {q * N})"] else [])
  else []) ++
  (if verbose then [s!"Chip rate : {rateText b mdsss rm} kchip/s"] else [])

/-- The lines of one call of `Mr_o_qpsk_modulator.bitsToIQ` with MDSSS and `n` message bits (at most 2047 octets) that do not fill half octets: as many zeros as there are bits beyond the
last octet are added; three or seven such bits pass the first of the two checks for groups of three. -/
def oqpskRefusedLines (verbose : Bool) (b : Band) (rm n : Nat) : List String :=
  let K := streamBits true rm n
  let x := K % 8
  let q := (K + x) / 8
  (if verbose then [s!"TPC N = {mdsssF b rm / 4}", s!"Padding binary message with {x} zeros ({K} -> {K + x})"] else []) ++
  (if x = 3 ∨ x = 7 then [s!"Splitting message ({9 * q + 6},) -> (3, {3 * q + 2})"] else [])

/-! ### MR-OFDM -/

/-- FFT size of an option. -/
def fftOf : Nat → Nat | 1 => 128 | 2 => 64 | 3 => 32 | _ => 16

/-- MCS of the header. -/
def headerMcs : Nat → Nat | 1 => 0 | 2 => 0 | 3 => 1 | _ => 2

/-- OFDM symbols of the header (interleaving mode, option), one and a half times as many for the payload MCS 4 and 6. -/
def headerSyms (mcs opt il : Nat) : Nat :=
  let t := (([[3, 6, 6, 6], [4, 8, 6, 6]] : List (List Nat)).getD il []).getD (opt - 1) 0
  if mcs = 4 ∨ mcs = 6 then t * 3 / 2 else t

/-- Code bits of the header. -/
def headerCode (mcs opt il : Nat) : Nat := headerSyms mcs opt il * (tonesOf opt * bitsOf (headerMcs opt) / spreadOf (headerMcs opt))

/-- Data bits in one group of OFDM symbols carrying the same bits. -/
def dataBits (mcs opt : Nat) : Nat :=
  if mcs = 4 ∨ mcs = 6 then tonesOf opt * bitsOf mcs * 3 / 4 else tonesOf opt * bitsOf mcs / 2

/-- Light blue. -/
def blue : String := "\x1b[94m"

/-- The lines of one verbose call of `Mr_ofdm_modulator.bitsToIQ` with `n` message bits. -/
def ofdmLines (mcs opt il n : Nat) : List String :=
  let N := fftOf opt
  let hs := headerSyms mcs opt il
  let hc := headerCode mcs opt il
  let d := dataBits mcs opt
  let k := (n + 6 + (d - 1)) / d
  ["Creating STF....",
   "\n          symbol 1   symbol 2   symbol 3   symbol 4\n        |CP++++++++|CP++++++++|CP++++++++|CP++++----|\n\n        +  : samples of the symbol (after IFFT)\n        CP : cyclic prefix\n        -  : negated samples (end of fourth symbol)\n        ",
   s!"    STF signal is {5 * N} elements",
   "Generating LTF...",
   "    LTF signal looks like : |CP----|----|",
   s!"    LTF signal is {5 * N / 2} elements",
   blue ++ "Generating PHY header...",
   blue ++ s!"header : {hc / 2} bits",
   blue ++ s!"header after encoding : {hc} bits",
   blue ++ s!"header after interleaving : {hc} bits",
   blue ++ s!"header complex (I+jQ) signal is {hs * (5 * N / 4)} samples" ++ "\x1b[39m",
   s!"Adding {k * d - (n + 6)} padding bits (0s) and 6 tail bits (0s) to the message ({n} + {k * d - (n + 6)} + 6 -> {k * d})",
   s!"Message will use {k} symbols ({d} data bits per symbol)"]

/-! ### `Ofdm_modulator` -/

/-- The character drawn for channel `i` (of `N`): guard, DC, pilot, anything else. -/
def channelChar (N padL padR : Nat) (dc : Bool) (tones : List Int) (i : Nat) : Char :=
  if (i : Int) - (N / 2 : Nat) ∈ tones then 'P'
  else if dc ∧ i = N / 2 then 'D'
  else if i < padL ∨ N ≤ i + padR then '0'
  else '-'

/-- The drawing of the channels. -/
def drawing (N padL padR : Nat) (dc : Bool) (tones : List Int) : String := String.ofList ((List.range N).map (channelChar N padL padR dc tones))

/-- Index printed for the pilot set of the `n`-th symbol: it counts up from the first one (which may be negative) and starts again from 0. -/
def printedIndex (S : Nat) (first : Int) (n : Nat) : Int := if first + n < S then first + n else (first + n) % S

/-- The pilot set of the `n`-th symbol. -/
def pilotSet {α : Type} (pl : Pilots α) (first : Int) (n : Nat) : List Int := (pl.sets[((first + n) % pl.sets.length).toNat]?).getD []

/-- The lines of the `n`-th symbol: the drawing appears when the last pilot set has been used. -/
def symbolLines {α : Type} (pilotText : List Int → String) (N padL padR : Nat) (pl : Pilots α) (first : Int) (n : Nat) : List String :=
  [s!"    Adding pilots at {pilotText (pilotSet pl first n)} (set {printedIndex pl.sets.length first n})"] ++
  (if 0 ≤ first + n ∧ (first + n + 1) % pl.sets.length = 0 then
    [s!"    {drawing N padL padR true (pilotSet pl first n)} ({N}x) (pilot set/index : 0)"] else [])

/-- Name of a modulation. -/
def modText : ModKind → String | .BPSK => "BPSK" | .QPSK => "QPSK" | .QAM16 => "QAM16"

/-- The lines of one verbose call of `Ofdm_modulator.bitsToIQ` with `n` values: `L` values per symbol, `K` symbols, `R` points per symbol. -/
def modulatorLines {α : Type} (factor : String) (pilotText : List Int → String) (CP : ℚ) (o : OfdmRun α) (n : Nat) (pad : Bool) (R : Nat) : List String :=
  let s := o.stored
  let L := s.splitLength.toNat
  let K := symbolCount L n pad
  let rows := s.frequencySpreading * R
  let padL := s.paddingLeft.toNat
  let padR := s.paddingRight.toNat
  ["Splitting message..."] ++
  (if pad then [s!"    Padding message with {K * L - n} zeros (({n},) -> ({K * L},))"] else []) ++
  [s!"    Splitting message from length {K * L} to ({L}, {K}) ({L} channels before mapping and {K} OFDM symbols)",
   s!"Constellation mapping using {modText s.modulation}...",
   s!"    Modulation factor is {factor}...",
   s!"    New message size ({L}, {K}) -> ({R}, {K}) ({R} + pilots as IFFT channels and {K} OFDM symbols)",
   (match s.frequencySpreading with
    | 1 => "Frequency spreading of 1 (no modification)"
    | k => s!"Frequency spreading of {k} ({k}x repetition)"),
   (if s.nPilots = 0 then "Adding OFDM DC Tone and padding..." else "Adding OFDM pilots, DC Tone and padding..."),
   "  Message without pilots :",
   s!"    {drawing s.nFFT 0 0 false []} ({rows}x)",
   s!"  Adding padding ({s.paddingLeft}, {s.paddingRight})",
   s!"    {drawing s.nFFT padL padR false []} ({rows}x)",
   "  Adding DC Tone",
   s!"    {drawing s.nFFT padL padR true []} ({s.nFFT}x)"] ++
  (match s.pilots with
   | some pl => if 0 < pl.nPilots then (List.range K).flatMap (symbolLines pilotText s.nFFT padL padR pl o.columnIndex) else []
   | none => []) ++
  ["Applying iFFT to the signal..."] ++
  (if 0 < CP then
    ["Adding cyclic prefix...",
     s!"    Signal ({s.nFFT}, {K}) -> ({s.nFFT + prefixRows s.nFFT CP}, {K})"] else [])
where
  /-- Rows of the prefix: the whole symbol when the fraction gives no row. -/
  prefixRows (N : Nat) (CP : ℚ) : Nat := let p := ⌊(N : ℚ) * CP⌋.toNat; if p = 0 ∨ N ≤ p then N else p

end SunPhy.Spec.Out
