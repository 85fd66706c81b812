import Verif.Model.Prelude
/-
Changing some bits of a message.
-/
namespace SunPhy.Spec

/-- The message with the bits at the listed positions inverted. -/
def flipped (m : Bits) (positions : List Nat) : Bits := (List.range m.length).map fun i => if i ∈ positions then !m.getD i false else m.getD i false

end SunPhy.Spec
