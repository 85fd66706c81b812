import Verif.Spec.OfdmReceiver
/-
An MR-OFDM receiver that knows nothing about the configuration but the sampling frequency.  The option follows from the sampling frequency; the interleaving setting shows in a parity of
some of the received header bits, because the check sequence of the header is complemented.
-/
namespace SunPhy.Rx
open SunPhy Spec Complex
noncomputable section

/-- The option with this sampling frequency. -/
def optionOf (fs : ℚ) : Nat := if fs = 4000000 / 3 then 1 else if fs = 2000000 / 3 then 2 else if fs = 1000000 / 3 then 3 else 4

/-- The received header bits whose parity shows the interleaving setting. -/
def telltale : Nat → List Nat
  | 1 => [10, 37, 41, 55, 56, 58, 59, 63, 64, 65, 69, 71]
  | 2 => [2, 11, 33, 35, 38, 42, 51, 53, 63, 64, 66, 68]
  | _ => [24, 39, 42, 43, 46, 50, 52, 56, 60, 62, 64]

/-- The interleaving setting: odd parity means 0 for option 1 and 1 for the others. -/
def interleavingOf (option : Nat) (iq : List ℂ) : Nat :=
  let odd := ((telltale option).map (codedBit option (Ref.headerMcs option) iq 0)).foldr xor false
  if option = 1 then (if odd then 0 else 1) else (if odd then 1 else 0)

/-- What the receiver puts out: the four settings of the modulator and the message bits. -/
def receiveAny (fs : ℚ) (iq : List ℂ) : Option (OfdmParams × Bits) :=
  let option := optionOf fs
  let interleaving := interleavingOf option iq
  (receive option interleaving iq).map fun (mcs, scrambler, bits) => (⟨mcs, option, interleaving, scrambler⟩, bits)

end
end SunPhy.Rx
