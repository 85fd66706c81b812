import Verif.Spec.FskReference
import Verif.Spec.OfdmReceiver
import Verif.Spec.Distance
/-
An MR-FSK receiver.  It knows what a receiver is configured with (modulation, modulation index, preamble length, FEC and interleaving settings); whitening, FCS type
and length it takes from the header.  Each symbol is decided for the frequency whose waveform is nearest to the 20 received samples.
-/
namespace SunPhy.RxF
open SunPhy Spec Complex
noncomputable section

/-- What the receiver knows. -/
structure Known where
  modulation : FskMod
  modIndex : ℝ
  preambleLength : Nat
  fecEnabled : Bool
  fecScheme : Nat
  interleaving : Bool

/-- Sample `i` (20 samples per symbol) of a tone of deviation `d`. -/
def tone (h : ℝ) (d : Int) (i : Nat) : ℂ := exp (I * ((Real.pi * h * d * i / 20 : ℝ) : ℂ))

/-- The possible deviations. -/
def deviations : FskMod → List Int
  | .FSK2 => [-1, 1]
  | .FSK4 => [-3, -1, 1, 3]

/-- Squared distance of the samples of symbol `n` from a tone. -/
def err (h : ℝ) (r : List ℂ) (n : Nat) (d : Int) : ℝ :=
  distSq ((r.drop (20 * n)).take 20) ((List.range 20).map fun i => tone h d (20 * n + i))

/-- The nearest deviation. -/
def decision (k : Known) (r : List ℂ) (n : Nat) : Int :=
  ((deviations k.modulation).find? fun d => decide (∀ d' ∈ deviations k.modulation, err k.modIndex r n d ≤ err k.modIndex r n d')).getD 0

/-- Bit `j` of the frame: 2FSK one bit per symbol, 4FSK two (sign, outer frequency). -/
def bit (k : Known) (r : List ℂ) (j : Nat) : Bool :=
  match k.modulation with
  | .FSK2 => decide (0 < decision k r j)
  | .FSK4 => if j % 2 = 0 then decide (0 < decision k r (j / 2)) else decide (2 < |decision k r (j / 2)|)

/-- Bits of preamble and start of frame delimiter. -/
def start (k : Known) : Nat := match k.modulation with | .FSK2 => 8 * k.preambleLength + 16 | .FSK4 => 16 * k.preambleLength + 32

/-- Header length as sent. -/
def headerLength (k : Known) : Nat := if k.fecEnabled then 32 else 16

/-- Inverse of the interleaver: blocks of 16 pairs. -/
def deinterleave (y : Nat → Bool) (i : Nat) : Bool :=
  let u := i % 32 / 2
  y (i / 32 * 32 + 2 * (15 - (4 * (u % 4) + u / 4)) + i % 2)

/-- The first `len` bits before coding. -/
def info (k : Known) (y : Nat → Bool) (len : Nat) : Bits :=
  if k.fecEnabled then
    let z := if k.interleaving then deinterleave y else y
    if k.fecScheme = 0 then Rx.decodeWith (fun q => !z q) (2 * ·) (fun _ => [2, 3]) len
    else (List.range len).map fun n => z (2 * n + 1)
  else (List.range len).map y

/-- FCS flag, whitening flag and message bits, from the bits `y` after the start of frame delimiter. -/
def receiveFrom (k : Known) (y : Nat → Bool) : Bool × Bool × Bits :=
  let h := info k y 16
  let fcs := h.getD 3 false
  let scramble := h.getD 4 false
  let octets := Rx.number (h.drop 5)
  let z := fun i => if scramble ∧ headerLength k ≤ i then xor (Ref.key 0x1FF (i - headerLength k)) (y i) else y i
  (fcs, scramble, (info k z (16 + 8 * octets)).drop 16)

/-- FCS flag, whitening flag and message bits. -/
def receive (k : Known) (r : List ℂ) : Bool × Bool × Bits := receiveFrom k fun i => bit k r (start k + i)

end
end SunPhy.RxF
