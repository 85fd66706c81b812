import Verif.Spec.OfdmBlind
import Verif.Spec.OfdmAcquire
/-
An MR-OFDM receiver that is told nothing but the samples and the sampling frequency: it takes the option from the sampling frequency, looks for the long training field
(`OfdmSync`), removes the channel (`OfdmEqualiser`), and finds the interleaving setting, MCS, scrambler and message in the header (`OfdmBlind`).
-/
namespace SunPhy.Rx
open SunPhy Spec Complex
noncomputable section

/-- The samples from the start of the frame on: five symbols before the long training field; what was missed is replaced by zeros. -/
def aligned (option : Nat) (r : List ℂ) : Option (List ℂ) :=
  (findTraining option r).map fun i => if 5 * Ref.nfft option ≤ i then r.drop (i - 5 * Ref.nfft option) else List.replicate (5 * Ref.nfft option - i) 0 ++ r

/-- Receive a frame whose start is known, over a channel. -/
def receiveAnyEqualised (fs : ℚ) (r : List ℂ) : Option (OfdmParams × Bits) := receiveAny fs (equalise (optionOf fs) r)

/-- Receive a frame whose start is not known. -/
def receiveAnywhere (fs : ℚ) (r : List ℂ) : Option (OfdmParams × Bits) := (aligned (optionOf fs) r).bind (receiveAnyEqualised fs)

/-- The same with an oscillator that differs from the transmitter's (`OfdmAcquire`). -/
def receiveAnyhow (fs : ℚ) (r : List ℂ) : Option (OfdmParams × Bits) := receiveAnywhere fs (tunedCoarse (optionOf fs) r)

end
end SunPhy.Rx
