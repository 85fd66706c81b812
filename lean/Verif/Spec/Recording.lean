import Verif.Spec.OfdmReceiver
import Verif.Spec.FskReceiver
import Verif.Spec.OqpskReceiver
/-
Taking a recording of several frames apart.  The receiver reads the frame at the beginning of the recording; its header says how many samples the frame has; the next frame is read behind them.
-/
namespace SunPhy.Tape
open SunPhy Spec
noncomputable section

/-- Read frames until the recording is used up (or nothing can be read).  `next r` is the frame at the beginning of `r` and its number of samples; the first argument bounds the number of frames. -/
def cut {β : Type} (next : List ℂ → Option (β × Nat)) : Nat → List ℂ → List β
  | 0, _ => []
  | k + 1, r => if r = [] then [] else
    match next r with
    | none => []
    | some (x, n) => x :: cut next k (r.drop n)

/-- All frames of a recording (it has at most as many as samples). -/
def frames {β : Type} (next : List ℂ → Option (β × Nat)) (r : List ℂ) : List β := cut next r.length r

/-- The first MR-OFDM frame: MCS, scrambler and octets; training fields of 7.5 transform lengths and symbols of 1.25. -/
def nextOfdm (option interleaving : Nat) (r : List ℂ) : Option ((Nat × Nat × List UInt8) × Nat) :=
  (Rx.receive option interleaving r).map fun x =>
    ((x.1, x.2.1, Rx.octets x.2.2),
      15 * Ref.nfft option / 2 + Ref.symbolCount ⟨x.1, option, interleaving, x.2.1⟩ (8 * (Rx.octets x.2.2).length) * (5 * Ref.nfft option / 4))

/-- Bits of header and payload of an MR-FSK frame. -/
def fskBody (k : RxF.Known) (octets : Nat) : Nat :=
  if k.fecEnabled then 2 * (16 + 8 * octets + 3 + if octets % 2 = 0 then 13 else 5) else 16 + 8 * octets

/-- Bits per symbol. -/
def fskWidth : FskMod → Nat
  | .FSK2 => 1
  | .FSK4 => 2

/-- The first MR-FSK frame: FCS flag, whitening flag and octets; 20 samples per symbol of one or two bits. -/
def nextFsk (k : RxF.Known) (r : List ℂ) : Option ((Bool × Bool × List UInt8) × Nat) :=
  let x := RxF.receive k r
  some ((x.1, x.2.1, Rx.octets x.2.2), 20 * ((RxF.start k + fskBody k (Rx.octets x.2.2).length) / fskWidth k.modulation))

/-- The first MR-O-QPSK frame: spreading mode, rate mode, octet count and the bits it contains; two chips per symbol, and the tail of the last pulse. -/
def nextOqpsk (b : Band) (sps : Nat) (r : List ℂ) : Option ((Bool × Nat × Nat × List (Option Bool)) × Nat) :=
  (RxQ.receive b sps r).map fun x => (x, frameChips b x.1 x.2.1 x.2.2.1 / 2 * sps + sps - 1)

end
end SunPhy.Tape
