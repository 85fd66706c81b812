import Verif.Model.Pn9
import Mathlib.Data.Int.Bitwise
/-
`sun_phy/tools/pn9.py` with a seed that may be any Python integer.  `Model/Pn9.lean` has non-negative seeds, as all callers in the package;
`Props/C05.lean` proves that a negative seed works as its residue modulo 512.
-/
namespace SunPhy

/-- The register update of `Pn9.next`, `tools/pn9.py:37`, on a register that holds any Python integer. -/
def pn9StepI (v : Int) : Int :=
  Int.lor (Int.land (v >>> 1) 0xFF) ((Int.xor ((Int.land v 0x032) >>> 0x05) (Int.land v 0x001)) <<< 8)

/-- `Pn9.next()`, `tools/pn9.py:28-38`: returned bit and new register. -/
def pn9NextI (v : Int) : Int × Int := (Int.land (pn9StepI v) 0x100 >>> 8, pn9StepI v)

/-- `Pn9.nextN(N)`, `tools/pn9.py:40-52`. -/
def pn9NextNI (v : Int) : Nat → List Int × Int
  | 0 => ([], v)
  | n + 1 =>
    let (b, v1) := pn9NextI v
    let (bs, v2) := pn9NextNI v1 n
    (b :: bs, v2)

end SunPhy
