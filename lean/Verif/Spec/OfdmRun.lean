import Verif.Model.OfdmFull
import Verif.Spec.OfdmLayout
/-
Specification of which calls of `Ofdm_modulator.bitsToIQ` succeed, for any constructor arguments and any array.
-/
namespace SunPhy.Spec
open SunPhy

/-- Number of constellation points the modulator makes of a column of `L` values (`none`: it refuses). -/
def pointRows : ModKind → Nat → Option Nat
  | .BPSK, L => some L
  | .QPSK, L => if L % 2 = 0 then some (L / 2) else none
  | .QAM16, L => if L % 4 = 0 then some (L / 4) else if L < 8 then some (2 * (L / 4)) else none

/-- Number of OFDM symbols of a message of `size` values, `L` per symbol. -/
def symbolCount (L size : Nat) (pad : Bool) : Nat := if pad then ceilDiv size L else size / L

/-- The message with the zeros appended by `pad`. -/
def paddedData (L : Nat) (data : List ℚ) (pad : Bool) : List ℚ :=
  if pad then data ++ List.replicate (ceilDiv data.length L * L - data.length) 0 else data

variable {α : Type}

/-- Number of tones left for data: negative paddings count as none. -/
def freeTones (s : OfdmStored α) : Int := (s.nFFT : Int) - 1 - max s.paddingLeft 0 - max s.paddingRight 0 - s.nPilots

/-- The modulator inserts pilots. -/
def HasPilots (s : OfdmStored α) : Prop := ∃ pl, s.pilots = some pl ∧ 0 < pl.nPilots

/-- Conditions that hold for every constructed modulator. -/
structure Built (s : OfdmStored α) : Prop where
  power : ∃ k, s.nFFT = 2 ^ k
  spreading : s.frequencySpreading = 1 ∨ s.frequencySpreading = 2 ∨ s.frequencySpreading = 4
  sets : ∀ pl, s.pilots = some pl → ∀ ps ∈ pl.sets, ps.length = pl.nPilots
  values : ∀ pl v, s.pilots = some pl → pl.values = .array v → v.length = pl.nPilots ∨ v = []

/-- The pilot set of the `n`-th symbol can be used: the index (negative ones count from the end) is in range, the tones are different,
none of them is DC or guard, and the pilot values can be indexed. -/
def PilotOk (o : OfdmRun α) (pl : Pilots α) (n : Nat) : Prop :=
  -(pl.sets.length : Int) ≤ o.columnIndex ∧ o.columnIndex < pl.sets.length ∧ pl.values ≠ .array [] ∧
  ∃ ps, pl.sets[((o.columnIndex + n) % pl.sets.length).toNat]? = some ps ∧ ps.Nodup ∧
    ∀ t ∈ ps, t ∈ allTones o.stored.nFFT ∧ t ≠ 0 ∧ ¬ isGuard o.stored.nFFT o.stored.paddingLeft.toNat o.stored.paddingRight.toNat t

/-- A call `bitsToIQ(bits, pad)` succeeds. -/
structure Ready (o : OfdmRun α) (shape : List Nat) (data : List ℚ) (pad : Bool) : Prop where
  /-- one axis is longer than 1 (or empty) -/
  oneAxis : (shape.filter (· ≠ 1)).length = 1
  split : 0 < o.stored.splitLength
  size : pad = true ∨ data.length % o.stored.splitLength.toNat = 0
  /-- DC is outside the paddings -/
  band : 2 ≤ o.stored.nFFT ∧ o.stored.paddingLeft ≤ (o.stored.nFFT / 2 : Nat) ∧ o.stored.paddingRight < (o.stored.nFFT / 2 : Nat)
  /-- the points of one symbol match the data tones, or a single point is repeated -/
  fits : ∃ R, pointRows o.stored.modulation o.stored.splitLength.toNat = some R ∧
    ((HasPilots o.stored ∧ symbolCount o.stored.splitLength.toNat data.length pad = 0) ∨
      ((o.stored.frequencySpreading * R : Nat) : Int) = freeTones o.stored ∨ o.stored.frequencySpreading * R = 1)
  pilots : ∀ pl, o.stored.pilots = some pl → 0 < pl.nPilots → ∀ n < symbolCount o.stored.splitLength.toNat data.length pad, PilotOk o pl n

end SunPhy.Spec
