import Verif.Props.C08
import Verif.Model.MrOfdmSignal
import Mathlib.Tactic.FieldSimp
import Mathlib.Tactic.LinearCombination
/-
C09 — mapped data tones have unit average power.
-/
namespace SunPhy.C09
open SunPhy

/-- All groups of `n` bits. -/
def allBits : Nat → List Bits
  | 0 => [[]]
  | n + 1 => (allBits n).flatMap fun l => [false :: l, true :: l]

/-- `allBits n` is the whole alphabet, without repetition. -/
theorem allBits_complete (n : Nat) : (∀ b : Bits, b ∈ allBits n ↔ b.length = n) ∧ (allBits n).length = 2 ^ n := by
  induction n with
  | zero => simp [allBits, List.length_eq_zero_iff]
  | succ n ih =>
    constructor
    · intro b
      simp only [allBits, List.mem_flatMap]
      constructor
      · rintro ⟨l, hl, hb⟩
        have := (ih.1 l).1 hl
        simp only [List.mem_cons, List.not_mem_nil, or_false] at hb
        rcases hb with rfl | rfl <;> simp [this]
      · intro h
        cases b with
        | nil => simp at h
        | cons x b =>
          refine ⟨b, (ih.1 b).2 (by simpa using h), ?_⟩
          cases x <;> simp
    · rw [allBits, flatMap_length_const _ 2 _ (by simp), ih.2]; ring

noncomputable section

/-- Power of the tone that the modulator (constellation mapping with the MR-OFDM modulation factor) sends for a group of
bits. -/
def tonePower (k : ModKind) (b : Bits) : ℝ :=
  match constellationMap (complexNumbers (kMod k)) k b with
  | .ok [z] => Complex.normSq z
  | _ => 0

theorem tonePower_eq (k : ModKind) (b : Bits) (h : b.length = k.bitsPerSymbol) :
    tonePower k b = (((C08.point k b).re ^ 2 + (C08.point k b).im ^ 2 : Int) : ℝ) * kMod k ^ 2 := by
  have hc : chunks k.bitsPerSymbol b = [b] := by
    have := chunks_append (C08.bps_pos k) h []
    rwa [List.append_nil, chunks_nil] at this
  have := (C08.C08_levels k b (by rw [h, Nat.mod_self])).1
  rw [hc] at this
  unfold tonePower constellationMap
  rw [this]
  simp only [Except.map, List.map_cons, List.map_nil, complexNumbers]
  rw [Complex.normSq_mul, Complex.normSq_ofReal]
  have : Complex.normSq (((C08.point k b).re : ℂ) + ((C08.point k b).im : ℂ) * Complex.I) =
      ((C08.point k b).re : ℝ) ^ 2 + ((C08.point k b).im : ℝ) ^ 2 := by
    rw [Complex.normSq_apply]; simp; ring
  rw [this]; push_cast; ring

/-- **C09.**  The mean power over the whole alphabet is exactly 1. -/
theorem C09_unit_power (k : ModKind) :
    ((allBits k.bitsPerSymbol).map (tonePower k)).sum / (allBits k.bitsPerSymbol).length = 1 := by
  have e : (allBits k.bitsPerSymbol).map (tonePower k) =
      ((allBits k.bitsPerSymbol).map fun b => (C08.point k b).re ^ 2 + (C08.point k b).im ^ 2).map
        fun i : Int => (i : ℝ) * kMod k ^ 2 := by
    rw [List.map_map]
    apply List.map_congr_left
    intro b hb
    exact tonePower_eq k b (((allBits_complete _).1 b).1 hb)
  have s : ∀ (l : List Int) (c : ℝ), (l.map fun i : Int => (i : ℝ) * c).sum = ((l.sum : Int) : ℝ) * c := by
    intro l c
    induction l with
    | nil => simp
    | cons x l ih => simp [ih, add_mul]
  rw [e, s, (allBits_complete _).2]
  cases k with
  | BPSK =>
    have : ((allBits 1).map fun b => (C08.point .BPSK b).re ^ 2 + (C08.point .BPSK b).im ^ 2).sum = 2 := by decide
    simp only [ModKind.bitsPerSymbol, this, kMod]; norm_num
  | QPSK =>
    have : ((allBits 2).map fun b => (C08.point .QPSK b).re ^ 2 + (C08.point .QPSK b).im ^ 2).sum = 8 := by decide
    simp only [ModKind.bitsPerSymbol, this, kMod, div_pow, Real.sq_sqrt (show (0:ℝ) ≤ 2 by norm_num)]; norm_num
  | QAM16 =>
    have : ((allBits 4).map fun b => (C08.point .QAM16 b).re ^ 2 + (C08.point .QAM16 b).im ^ 2).sum = 160 := by decide
    simp only [ModKind.bitsPerSymbol, this, kMod, div_pow, Real.sq_sqrt (show (0:ℝ) ≤ 10 by norm_num)]; norm_num

-- the alphabets are not empty and each group is really mapped to a single tone
example : [true, false, true, true] ∈ allBits ModKind.QAM16.bitsPerSymbol := by decide
example : tonePower .QAM16 [true, false, true, true] = 10 * kMod .QAM16 ^ 2 := by
  rw [tonePower_eq _ _ rfl]
  norm_num [C08.point, C08.level2]

end
end SunPhy.C09
