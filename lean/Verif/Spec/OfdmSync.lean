import Verif.Spec.OfdmEqualiser
/-
An MR-OFDM receiver that does not know where the frame starts: it looks for the first place where what it receives resembles the beginning of the long training
field, whatever the strength and the phase, and receives from there (`OfdmEqualiser`).
-/
namespace SunPhy.Rx
open SunPhy Spec Complex
noncomputable section

/-- What it looks for: the prefix of the long training field and its first symbol, one and a half symbols … -/
def template (option k : Nat) : ℂ := Ref.wave (Ref.nfft option) (Ref.ltfTone option) ((k : Int) - ((Ref.nfft option / 2 : Nat) : Int))

/-- … of this many samples. -/
def templateLength (option : Nat) : Nat := 3 * Ref.nfft option / 2

/-- Correlation of the samples from `i` on with the template. -/
def correlation (option : Nat) (r : List ℂ) (i : Nat) : ℂ := ∑ k ∈ Finset.range (templateLength option), r.getD (i + k) 0 * (starRingEnd ℂ) (template option k)

/-- Energy of the samples from `i` on, as far as the template reaches. -/
def power (option : Nat) (r : List ℂ) (i : Nat) : ℝ := ∑ k ∈ Finset.range (templateLength option), ‖r.getD (i + k) 0‖ ^ 2

/-- Energy of the template. -/
def templateEnergy (option : Nat) : ℝ := ∑ k ∈ Finset.range (templateLength option), ‖template option k‖ ^ 2

/-- The samples from `i` on resemble the template: the squared correlation exceeds half of what it could be. -/
def Resembles (option : Nat) (r : List ℂ) (i : Nat) : Prop := 1 / 2 * (templateEnergy option * power option r i) < ‖correlation option r i‖ ^ 2

open Classical in
/-- The first place where they do. -/
def findTraining (option : Nat) (r : List ℂ) : Option Nat := (List.range r.length).find? fun i => decide (Resembles option r i)

/-- Receive: five symbols before the place found is the start of the frame. -/
def receiveUnaligned (option interleaving : Nat) (r : List ℂ) : Option (Nat × Nat × Bits) :=
  match findTraining option r with
  | none => none
  | some i =>
    if 5 * Ref.nfft option ≤ i then receiveEqualised option interleaving (r.drop (i - 5 * Ref.nfft option))
    else receiveEqualised option interleaving (List.replicate (5 * Ref.nfft option - i) 0 ++ r)

end
end SunPhy.Rx
