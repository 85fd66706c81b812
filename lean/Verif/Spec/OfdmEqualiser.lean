import Verif.Spec.OfdmReceiver
/-
Multipath channels, and an MR-OFDM receiver that estimates the channel from the long training field and removes it, tone by tone, before it decides.
-/
namespace SunPhy.Rx
open SunPhy Spec Complex
noncomputable section

/-- The signal `x` after a channel with impulse response `h` (sample `i` of the output): echo `l` arrives `l` samples late with complex gain `h l`. -/
def through (h x : List ℂ) (i : Nat) : ℂ := ∑ l ∈ Finset.range h.length, if l ≤ i then h.getD l 0 * x.getD (i - l) 0 else 0

/-- Frequency response of the channel on tone `t` of `N`. -/
def response (N : Nat) (h : List ℂ) (t : Int) : ℂ := ∑ l ∈ Finset.range h.length, h.getD l 0 * exp (-(2 * Real.pi * I * t * l / N))

/-- Energy of the difference between what is received and what the channel delivers, in `len` samples from `start` on. -/
def disturbance (h iq r : List ℂ) (start len : Nat) : ℝ := ∑ k ∈ Finset.range len, ‖r.getD (start + k) 0 - through h iq (start + k)‖ ^ 2

/-- Tones in use. -/
def Active (option : Nat) (t : Int) : Prop := ¬ (isGuard (Ref.nfft option) (Ref.guardLow option) (Ref.guardHigh option) t ∨ t = 0) ∧ t ∈ allTones (Ref.nfft option)

/-- Start of the first long training symbol (its prefix is half a symbol). -/
def trainingStart (N : Nat) : Nat := 5 * N + N / 2

/-- Channel estimate on tone `t`: what is received of the first long training symbol over what was sent. -/
def estimate (option : Nat) (r : List ℂ) (t : Int) : ℂ :=
  (fftshift (dftOrtho ((r.drop (trainingStart (Ref.nfft option))).take (Ref.nfft option)))).getD (t + ((Ref.nfft option / 2 : Nat) : Int)).toNat 0 / Ref.ltfTone option t

open Classical in
/-- The signal with the channel removed: every active tone of every symbol is divided by the estimate. -/
def equalise (option : Nat) (r : List ℂ) : List ℂ :=
  let N := Ref.nfft option
  (List.range r.length).map fun i =>
    let n := (i - 15 * N / 2) / (5 * N / 4)
    if 15 * N / 2 ≤ i then
      Ref.wave N (fun t => if Active option t then toneValue option r n t / estimate option r t else 0) ((i : Int) - (symbolStart N n : Nat))
    else 0

/-- Receive after equalisation. -/
def receiveEqualised (option interleaving : Nat) (r : List ℂ) : Option (Nat × Nat × Bits) := receive option interleaving (equalise option r)

end
end SunPhy.Rx
