import Verif.Spec.OfdmReference
import Verif.Model.MrFsk
/-
A reference MR-FSK transmitter in closed form.  Only the record `FskParams` (the constructor arguments) is shared with the model.
-/
namespace SunPhy.RefF
open SunPhy Spec Complex

/-- Preamble: `01` repeated (2FSK), `0111` repeated (4FSK); one unit has 8 or 16 bits. -/
def preamble (p : FskParams) : Bits :=
  match p.modulation with
  | .FSK2 => (List.range (8 * p.preambleLength)).map fun i => i % 2 == 1
  | .FSK4 => (List.range (16 * p.preambleLength)).map fun i => i % 4 != 0

/-- Start of frame delimiters of 2FSK. -/
def sfd2 : Nat → Bool → Nat
  | 0, true => 0x6F4E | 0, false => 0x904E | _, true => 0x632D | _, false => 0x7A0E

/-- With 4FSK each delimiter bit `b` is followed by a 1 (the outer frequencies). -/
def sfd (p : FskParams) : Bits :=
  match p.modulation with
  | .FSK2 => Ref.field 16 (sfd2 p.sfd p.fecEnabled)
  | .FSK4 => (List.range 32).map fun i => i % 2 == 1 || (sfd2 p.sfd p.fecEnabled).testBit (15 - i / 2)

/-- Header: mode switch 0, two zeros, FCS type, whitening flag, 11 bits octet count. -/
def header (p : FskParams) (octets : Nat) : Bits := [false, false, false, p.fcsType == 1, p.scramble] ++ Ref.field 11 octets

/-- Padding after the tail. -/
def pad (octets : Nat) : Bits := if octets % 2 = 0 then Ref.field 13 0xB0B else Ref.field 5 0xB

/-- Bit `n` of a sequence, 0 outside. -/
def at_ (x : Bits) (n : Nat) : Bool := x.getD n false

/-- Shift register input of the recursive encoder: `w[n] = x[n] + w[n-1] + w[n-2] + w[n-3]`, but 0 during the three tail bits. -/
def rsc (x q : Bits) (n : Nat) : Bool :=
  if x.length ≤ n ∧ n < x.length + 3 then false
  else
    xor (if n < x.length then at_ x n else at_ q (n - x.length - 3))
      (xor (if 1 ≤ n then rsc x q (n - 1) else false) (xor (if 2 ≤ n then rsc x q (n - 2) else false) (if 3 ≤ n then rsc x q (n - 3) else false)))
termination_by n

/-- `w[n - d]`, 0 before the start. -/
def back (x q : Bits) (n d : Nat) : Bool := if d ≤ n then rsc x q (n - d) else false

/-- Coded bits of data `x` followed by three tail bits and padding `q`. -/
def coded (scheme : Nat) (x q : Bits) : Bits :=
  (List.range (2 * (x.length + 3 + q.length))).map fun i =>
    let n := i / 2
    if scheme = 0 then
      let y := x ++ [false, false, false] ++ q
      if i % 2 = 0 then !(tapSum [0, 2, 3] y n) else !(tapSum [0, 1, 2, 3] y n)
    else if i % 2 = 0 then xor (back x q n 0) (xor (back x q n 2) (back x q n 3))
    else xor (back x q n 0) (xor (back x q n 1) (xor (back x q n 2) (back x q n 3)))

/-- Interleaving of blocks of 16 pairs: pair `t` comes from pair `4·((15-t) mod 4) + ⌊(15-t)/4⌋`. -/
def interleave (x : Bits) : Bits :=
  (List.range x.length).map fun i =>
    let t := i % 32 / 2
    at_ x (i / 32 * 32 + 2 * (4 * ((15 - t) % 4) + (15 - t) / 4) + i % 2)

/-- Header and message, coded and interleaved as configured. -/
def body (p : FskParams) (m : Bits) : Bits :=
  let x := header p (m.length / 8) ++ m
  if p.fecEnabled then
    if p.interleaving then interleave (coded p.fecScheme x (pad (m.length / 8))) else coded p.fecScheme x (pad (m.length / 8))
  else x

/-- All bits of a frame: everything after the header is whitened if so configured. -/
def bits (p : FskParams) (m : Bits) : Bits :=
  let start := if p.fecEnabled then 32 else 16
  preamble p ++ sfd p ++ (List.range (body p m).length).map fun i =>
    if p.scramble ∧ start ≤ i then xor (Ref.key 0x1FF (i - start)) (at_ (body p m) i) else at_ (body p m) i

/-- Bits per symbol. -/
def width : FskMod → Nat | .FSK2 => 1 | .FSK4 => 2

/-- Frequency of symbol `n`, in units of half the modulation index times the symbol rate. -/
def deviation (m : FskMod) (b : Bits) (n : Nat) : Int :=
  match m with
  | .FSK2 => if at_ b n then 1 else -1
  | .FSK4 => (if at_ b (2 * n) then 1 else -1) * (if at_ b (2 * n + 1) then 3 else 1)

/-- Sample `i`, at time `i / (20·rate)`. -/
noncomputable def samples (p : FskParams) (b : Bits) : List ℂ :=
  (List.range (20 * (b.length / width p.modulation))).map fun (i : Nat) =>
    exp (2 * Real.pi * I * (((deviation p.modulation b (i / 20) : ℚ) * (p.modIndex * p.symbolRate / 2) * ((i : ℚ) / (20 * p.symbolRate)) : ℚ) : ℂ))

end SunPhy.RefF
