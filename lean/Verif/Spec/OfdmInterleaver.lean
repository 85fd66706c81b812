import Verif.Model.MrOfdm
/-
The two permutations of the MR-OFDM interleaver of the standard, written out.
-/
namespace SunPhy.Spec
open SunPhy

/-- Data tones of an OFDM option. -/
def tonesOf : Nat → Nat | 1 => 96 | 2 => 48 | 3 => 24 | 4 => 12 | _ => 0

/-- Coded bits per tone of an MCS. -/
def bitsOf : Nat → Nat | 0 => 1 | 1 => 1 | 2 => 2 | 3 => 2 | 4 => 2 | 5 => 4 | 6 => 4 | _ => 0

/-- Frequency spreading of an MCS. -/
def spreadOf : Nat → Nat | 0 => 4 | 1 => 2 | 2 => 2 | _ => 1

/-- Interleaving depth: coded bits of one symbol without (mode 0) or with (mode 1) the spreading repetitions. -/
def depth (mode option mcs : Nat) : Nat :=
  if mode = 0 then tonesOf option * bitsOf mcs / spreadOf mcs else tonesOf option * bitsOf mcs

def rows (mcs : Nat) : Nat := 12 / spreadOf mcs
def step (mcs : Nat) : Nat := if bitsOf mcs = 4 then 2 else 1

/-- First permutation: write row by row, read column by column. -/
def perm1 (N R k : Nat) : Nat := N / R * (k % R) + k / R

/-- Second permutation: rotate inside groups of `s` bits. -/
def perm2 (N R s i : Nat) : Nat := s * (i / s) + (i + N - R * i / N) % s

end SunPhy.Spec
