import Verif.Spec.OfdmReference
import Verif.Spec.Dft
/-
An MR-OFDM receiver that knows only the option and the interleaving setting: Fourier transform of the useful part of each symbol, decisions by sign and
magnitude on the first copy of every data value, inverse of the interleaver and of the code, header fields, whitening.  Everything else (MCS, scrambler,
length) it takes from the header.  It uses the tables of the reference transmitter, no function of the model.
-/
namespace SunPhy.Rx
open SunPhy Spec Complex
noncomputable section

/-- Where the useful part of symbol `n` starts: after the training fields, `n` complete symbols and its own prefix. -/
def symbolStart (N n : Nat) : Nat := 15 * N / 2 + n * (5 * N / 4) + N / 4

/-- The `N` samples of the useful part of symbol `n`. -/
def useful (option : Nat) (iq : List ℂ) (n : Nat) : List ℂ := (iq.drop (symbolStart (Ref.nfft option) n)).take (Ref.nfft option)

/-- The value received on tone `t` of symbol `n`. -/
def toneValue (option : Nat) (iq : List ℂ) (n : Nat) (t : Int) : ℂ :=
  (fftshift (dftOrtho (useful option iq n))).getD (t + ((Ref.nfft option / 2 : Nat) : Int)).toNat 0

/-- Data tone number `d` of symbol `n`. -/
def dataTone (option n d : Nat) : Int :=
  (dataToneList (Ref.nfft option) (Ref.guardLow option) (Ref.guardHigh option) (Ref.pilotTones option n)).getD d 0

/-- Decision on bit `j` of a constellation point with `w` bits. -/
def slice (w j : Nat) (z : ℂ) : Bool :=
  match w, j with
  | 1, _ => decide (0 < z.re)
  | 2, 0 => decide (0 < z.re)
  | 2, _ => decide (0 < z.im)
  | _, 0 => decide (0 < z.re)
  | _, 1 => decide (|z.re| < 2 / Real.sqrt 10)
  | _, 2 => decide (0 < z.im)
  | _, _ => decide (|z.im| < 2 / Real.sqrt 10)

/-- Bit `i` of the coded stream that starts with symbol `n0`. -/
def codedBit (option mcs : Nat) (iq : List ℂ) (n0 i : Nat) : Bool :=
  let b := Ref.symbolBits option mcs
  let w := bitsOf mcs
  let n := n0 + i / b
  let d := i % b / w
  slice w (i % b % w) (toneValue option iq n (dataTone option n d) / I ^ Ref.turns (Spec.spreadOf mcs) 0 (d + 1))

/-- Bit `k` before interleaving. -/
def deinterleave (K R s : Nat) (y : Nat → Bool) (k : Nat) : Bool := y (k / K * K + perm1 K R (perm2 K R s (k % K)))

/-- Information bits one after the other: code bit number `pos n` is the sum of information bit `n` and of the earlier ones with delays `taps n`. -/
def decodeWith (y : Nat → Bool) (pos : Nat → Nat) (taps : Nat → List Nat) : Nat → Bits
  | 0 => []
  | n + 1 => decodeWith y pos taps n ++ [xor (y (pos n)) (tapSum (taps n) (decodeWith y pos taps n) n)]

/-- The first `len` information bits of the rate 1/2 code, from the bits of the first generator. -/
def decodeHalf (y : Nat → Bool) (len : Nat) : Bits := decodeWith y (2 * ·) (fun _ => [2, 3, 5, 6]) len

/-- The same for the rate 3/4 code: of each four code bits the first, third and fourth. -/
def decode34 (y : Nat → Bool) (len : Nat) : Bits :=
  decodeWith y (fun n => 4 * (n / 3) + [0, 2, 3].getD (n % 3) 0) (fun n => if n % 3 = 2 then [1, 2, 3, 6] else [2, 3, 5, 6]) len

/-- Value of bits, most significant first. -/
def number (b : Bits) : Nat := b.foldl (fun v x => 2 * v + x.toNat) 0

/-- The first 30 bits of the header: information and check sequence. -/
def header (option interleaving : Nat) (iq : List ℂ) : Bits :=
  let mcs := Ref.headerMcs option
  decodeHalf (deinterleave (depth interleaving option mcs) (rows mcs) (step mcs) (codedBit option mcs iq 0)) 30

/-- The first `len` bits of the payload, without whitening. -/
def payload (p : OfdmParams) (iq : List ℂ) (len : Nat) : Bits :=
  let y := deinterleave (depth p.interleaving p.option p.mcs) (rows p.mcs) (step p.mcs) (codedBit p.option p.mcs iq (Ref.headerCount p))
  let x := if Ref.threeQuarters p.mcs then decode34 y len else decodeHalf y len
  (List.range len).map fun i => xor (Ref.key (Ref.seed p.scrambler) i) (x.getD i false)

/-- What the receiver puts out: MCS, scrambler and message bits; nothing when the check sequence of the header is wrong. -/
def receive (option interleaving : Nat) (iq : List ℂ) : Option (Nat × Nat × Bits) :=
  let h := header option interleaving iq
  if Ref.crc8 (h.take 22) = h.drop 22 then
    let mcs := number (h.take 5)
    let octets := number ((h.drop 6).take 11)
    let scrambler := number ((h.drop 19).take 2)
    some (mcs, scrambler, payload ⟨mcs, option, interleaving, scrambler⟩ iq (8 * octets))
  else none

/-- Octets of a bit message, least significant bit first. -/
def octets (b : Bits) : List UInt8 :=
  (List.range (b.length / 8)).map fun i => UInt8.ofNat ((List.range 8).map fun j => if b.getD (8 * i + j) false then 2 ^ j else 0).sum

end
end SunPhy.Rx
