import Verif.Model.Prelude
/-
Model of `sun_phy/tools/pn9.py` and `sun_phy/tools/operations.py`.  Seeds are non-negative integers.
-/
namespace SunPhy

/-- Object state of `Pn9`, `tools/pn9.py:1-12`. -/
structure Pn9 where
  seed : Nat
  value : Nat
  deriving DecidableEq, Repr

/-- `Pn9.__init__(seed=0x1FF)`, `tools/pn9.py:2-12`. -/
def Pn9.new (seed : Nat := 0x1FF) : Pn9 := { seed := seed, value := seed }

/-- `Pn9.reset(seed=None)`, `tools/pn9.py:14-26`. -/
def Pn9.reset (p : Pn9) (seed : Option Nat := none) : Pn9 :=
  match seed with
  | none => { p with value := p.seed }
  | some s => { p with value := s }

/-- The register update of `Pn9.next`, `tools/pn9.py:37` (same masks; Python's `|` binds weaker than `<<`). -/
def pn9Step (v : Nat) : Nat :=
  ((v >>> 1) &&& 0xFF) ||| ((((v &&& 0x032) >>> 0x05) ^^^ (v &&& 0x001)) <<< 8)

/-- `Pn9.next()`, `tools/pn9.py:28-38`: returned bit and new object. -/
def Pn9.next (p : Pn9) : Nat × Pn9 :=
  let v := pn9Step p.value
  ((v &&& 0x100) >>> 8, { p with value := v })

/-- `Pn9.nextN(N)`, `tools/pn9.py:40-52`. -/
def Pn9.nextN (p : Pn9) : Nat → List Nat × Pn9
  | 0 => ([], p)
  | n + 1 =>
    let (b, p1) := p.next
    let (bs, p2) := p1.nextN n
    (b :: bs, p2)

/-- `Pn9.get_current_value()`, `tools/pn9.py:54-63`. -/
def Pn9.getCurrentValue (p : Pn9) : Nat := p.value

/-- `operations.scrambler(message, pn9_seed=511)`, `tools/operations.py:10-30`: xor with the next
`message.size` generator values. -/
def scrambler (message : Bits) (pn9Seed : Nat := 511) : Bits :=
  List.zipWith (fun (s : Nat) (m : Bool) => (s == 1) ^^ m) ((Pn9.new pn9Seed).nextN message.length).1 message

end SunPhy
