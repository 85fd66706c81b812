import Verif.Spec.FskReceiver
/-
An MR-FSK receiver for coded frames that is told which symbols are lost.  Both codes are sums over a shift register (of the data, or of the feedback bits of the recursive code) with the generators
`[0, 2, 3]` and `[0, 1, 2, 3]`: register bit `n` is found from either bit of coded pair `n`, or as the sum of the two bits of pair `n + 1`.
-/
namespace SunPhy.RxF
open SunPhy Spec Complex
noncomputable section

/-- Symbol that carries bit `j` of the frame. -/
def symbolOf (m : FskMod) (j : Nat) : Nat := match m with | .FSK2 => j | .FSK4 => j / 2

/-- Bit `j` of the frame, nothing when its symbol is lost. -/
def bitLeft (k : Known) (lost : Finset Nat) (r : List ℂ) (j : Nat) : Option Bool :=
  if symbolOf k.modulation j ∈ lost then none else some (bit k r j)

/-- Where coded bit `i` is sent (blocks of 16 pairs are interleaved). -/
def sentAt (interleaving : Bool) (i : Nat) : Nat :=
  if interleaving then i / 32 * 32 + 2 * (15 - (4 * (i % 32 / 2 % 4) + i % 32 / 2 / 4)) + i % 2 else i

/-- Register bit `n` from coded bits `z` (`inv`: the coded bits are complemented). -/
def register (inv : Bool) (z : Nat → Option Bool) (n : Nat) : Bool :=
  let b1 := if 1 ≤ n then register inv z (n - 1) else false
  let b2 := if 2 ≤ n then register inv z (n - 2) else false
  let b3 := if 3 ≤ n then register inv z (n - 3) else false
  match z (2 * n), z (2 * n + 1) with
  | some u, _ => xor (xor u inv) (xor b2 b3)
  | none, some v => xor (xor v inv) (xor b1 (xor b2 b3))
  | none, none => xor ((z (2 * n + 2)).getD false) ((z (2 * n + 3)).getD false)
termination_by n

/-- Information bit `n`: the register bit, or the sum of four register bits for the recursive code. -/
def infoLeft (k : Known) (y : Nat → Option Bool) (n : Nat) : Bool :=
  let z := fun i => y (sentAt k.interleaving i)
  if k.fecScheme = 0 then register true z n
  else
    xor (register false z n) (xor (if 1 ≤ n then register false z (n - 1) else false)
      (xor (if 2 ≤ n then register false z (n - 2) else false) (if 3 ≤ n then register false z (n - 3) else false)))

/-- FCS flag, whitening flag and message bits, from the bits `y` after the start of frame delimiter.  The first 32 of them are not whitened. -/
def receiveLeft (k : Known) (y : Nat → Option Bool) : Bool × Bool × Bits :=
  let scramble := infoLeft k y 4
  let z := fun i => if scramble ∧ 32 ≤ i then (y i).map (xor (Ref.key 0x1FF (i - 32))) else y i
  let octets := Rx.number ((List.range 11).map fun i => infoLeft k z (5 + i))
  (infoLeft k z 3, scramble, (List.range (8 * octets)).map fun i => infoLeft k z (16 + i))

/-- FCS flag, whitening flag and message bits of a coded frame of which the symbols `lost` are not available. -/
def receiveErasing (k : Known) (lost : Finset Nat) (r : List ℂ) : Bool × Bool × Bits := receiveLeft k fun i => bitLeft k lost r (start k + i)

end
end SunPhy.RxF
