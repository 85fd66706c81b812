import Verif.Spec.FskReference
/-
What is sent for messages with values that are no bits.
-/
namespace SunPhy.Nan
open SunPhy

/-- The octets for which an MR-FSK symbol has a frequency: bits, and, with 2FSK, 10 and 11 (their decimal digits are the names of 4FSK symbols). -/
def Passes (m : FskMod) (v : Nat) : Prop := v = 0 ∨ v = 1 ∨ (m = .FSK2 ∧ (v = 10 ∨ v = 11))

/-- Frequency of a 2FSK symbol in units of half the modulation index times the symbol rate: 0 and 1 have the usual ones, 10 a third of it, 11 that of 1. -/
def frequency (v : Nat) : ℚ := if v = 0 then -1 else if v = 10 then 1 / 3 else 1

/-- The values of an uncoded frame: preamble, delimiter, header, and the message, whitened bitwise if so configured. -/
def plain (p : FskParams) (v : List Nat) : List Nat :=
  (RefF.preamble p ++ RefF.sfd p ++ RefF.header p (v.length / 8)).map b2n ++ v.mapIdx fun i x => if p.scramble then b2n (Ref.key 0x1FF i) ^^^ x else x

/-- Coded bits of the non-recursive encoder: the message counts modulo 2, but the two coded bits of an octet of 2 or more are 0. -/
def blanked (p : FskParams) (v : List Nat) : Bits :=
  (RefF.coded 0 (RefF.header p (v.length / 8) ++ v.map fun x => x % 2 == 1) (RefF.pad (v.length / 8))).mapIdx fun i b =>
    if 32 ≤ i ∧ 2 ≤ v.getD ((i - 32) / 2) 0 then false else b

/-- The coded bits in the order in which they are sent. -/
def body (p : FskParams) (v : List Nat) : Bits := if p.interleaving then RefF.interleave (blanked p v) else blanked p v

/-- All bits of a frame coded by the non-recursive encoder. -/
def frame (p : FskParams) (v : List Nat) : Bits :=
  RefF.preamble p ++ RefF.sfd p ++ (List.range (body p v).length).map fun i =>
    if p.scramble ∧ 32 ≤ i then xor (Ref.key 0x1FF (i - 32)) (RefF.at_ (body p v) i) else RefF.at_ (body p v) i

end SunPhy.Nan
