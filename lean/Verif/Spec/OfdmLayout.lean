import Verif.Model.Prelude
/-
Specification of the tone layout of one OFDM symbol, independent of the model's placement code.
A symbol is the list of its `N` subcarriers, from tone `-N/2` to tone `N/2 - 1`.
-/
namespace SunPhy.Spec

/-- The value on tone `t` (`-N/2 ≤ t < N/2`) of a symbol. -/
def tone {α} (N : Nat) (symbol : List α) (t : Int) : Option α := symbol[(t + (N / 2 : Nat)).toNat]?

/-- Guard tones: the `padL` lowest and the `padR` highest ones. -/
def isGuard (N padL padR : Nat) (t : Int) : Prop := t < -((N / 2 : Nat) : Int) + padL ∨ ((N / 2 : Nat) : Int) - padR ≤ t

instance (N padL padR : Nat) (t : Int) : Decidable (isGuard N padL padR t) := by unfold isGuard; infer_instance

/-- All tones in increasing order. -/
def allTones (N : Nat) : List Int := (List.range N).map fun (i : Nat) => (i : Int) - ((N / 2 : Nat) : Int)

/-- The data tones in increasing order: neither guard, nor DC, nor pilot. -/
def dataToneList (N padL padR : Nat) (pilots : List Int) : List Int :=
  (allTones N).filter fun t => ¬ isGuard N padL padR t ∧ t ≠ 0 ∧ t ∉ pilots

/-- `symbol` is the OFDM symbol with the given guard widths, pilot tones `ps` and values, and data values. -/
structure IsSymbol {α} [Zero α] (N padL padR : Nat) (ps : List Int) (pilotValues datas : List α) (symbol : List α) : Prop where
  size : symbol.length = N
  dc : tone N symbol 0 = some 0
  guard : ∀ t ∈ allTones N, isGuard N padL padR t → tone N symbol t = some 0
  pilots : ps.map (tone N symbol) = pilotValues.map some
  data : (dataToneList N padL padR ps).map (tone N symbol) = datas.map some

end SunPhy.Spec
