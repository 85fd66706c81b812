import Verif.Model.Signal
/-
C25 — frequency spreading.
-/
namespace SunPhy.C25
open SunPhy Complex

/-- Exponent of `j` by which the copy in segment `seg` of spread value number `k` (from 1) is rotated: for 2x spreading the segments are
rotated by `2k-1` and 0 quarter turns, for 4x spreading by `2k-1`, `3k-1`, 0 and `k-1`. -/
def quarterTurns (sf seg k : Nat) : Nat :=
  match sf, seg with
  | 2, 0 => 2 * k - 1
  | 4, 0 => 2 * k - 1
  | 4, 1 => 3 * k - 1
  | 4, 3 => k - 1
  | _, _ => 0

/-- The segment with the unrotated values. -/
def plainSegment (sf : Nat) : Nat := sf / 2

/-- Undo the rotation of one received segment. -/
noncomputable def despread (sf seg : Nat) (y : List ℂ) : List ℂ := y.zipIdx.map fun (v, i) => v * (starRingEnd ℂ) (I ^ quarterTurns sf seg (i + 1))

theorem rot_eq (factor : ℝ) (m : Nat) : (complexNumbers factor).rot m = I ^ m := by
  show exp (I * 2 * Real.pi * m / 4) = _
  rw [show I * 2 * (Real.pi : ℂ) * m / 4 = m * (Real.pi / 2 * I) by ring, exp_nat_mul, exp_pi_div_two_mul_I]

theorem mulPhase_get (factor : ℝ) (ph : Nat → Nat) (col : List ℂ) (i : Nat) :
    (mulPhase (complexNumbers factor) ph col)[i]? = col[i]?.map fun v => v * I ^ ph (i + 1) := by
  unfold mulPhase
  rw [List.getElem?_map, List.getElem?_zipIdx]
  cases col[i]? with
  | none => rfl
  | some v => simp [rot_eq]

theorem mulPhase_len (factor : ℝ) (ph : Nat → Nat) (col : List ℂ) : (mulPhase (complexNumbers factor) ph col).length = col.length := by
  simp [mulPhase]

theorem seg_get {n : Nat} {a b : List ℂ} (ha : a.length = n) (i : Nat) : (a ++ b)[n + i]? = b[i]? := by
  rw [List.getElem?_append_right (by omega)]; congr 1; omega

/-- **C25.**  Spreading by 1, 2 or 4 always succeeds; the result has `sf` segments of the original length, and entry `i` of segment `s`
is the original value times `j` to the documented power (power 0 in the plain segment, which is the third of four or the second of two). -/
theorem C25_segments (factor : ℝ) (sf : Nat) (hsf : sf = 1 ∨ sf = 2 ∨ sf = 4) (col : List ℂ) :
    ∃ y, frequencySpread (complexNumbers factor) sf col = .ok y ∧ y.length = sf * col.length ∧
      (∀ seg < sf, ∀ i < col.length, y[seg * col.length + i]? = col[i]?.map fun v => v * I ^ quarterTurns sf seg (i + 1)) ∧
      (y.drop (plainSegment sf * col.length)).take col.length = col := by
  rcases hsf with rfl | rfl | rfl
  · refine ⟨col, rfl, by simp, ?_, by simp [plainSegment]⟩
    intro seg hs i hi
    obtain rfl : seg = 0 := by omega
    simp [quarterTurns, List.getElem?_eq_getElem hi]
  · refine ⟨_, rfl, by simp [mulPhase_len]; omega, ?_, ?_⟩
    · intro seg hs i hi
      have : seg = 0 ∨ seg = 1 := by omega
      rcases this with rfl | rfl
      · rw [Nat.zero_mul, Nat.zero_add, List.getElem?_append_left (by rw [mulPhase_len]; exact hi), mulPhase_get]; rfl
      · rw [Nat.one_mul, seg_get (mulPhase_len ..)]
        simp [quarterTurns, List.getElem?_eq_getElem hi]
    · rw [show plainSegment 2 = 1 from rfl, Nat.one_mul, List.drop_left' (mulPhase_len ..), List.take_length]
  · refine ⟨_, rfl, by simp [mulPhase_len]; omega, ?_, ?_⟩
    · intro seg hs i hi
      have : seg = 0 ∨ seg = 1 ∨ seg = 2 ∨ seg = 3 := by omega
      simp only [List.append_assoc]
      rcases this with rfl | rfl | rfl | rfl
      · rw [Nat.zero_mul, Nat.zero_add, List.getElem?_append_left (by rw [mulPhase_len]; exact hi), mulPhase_get]; rfl
      · rw [Nat.one_mul, seg_get (mulPhase_len ..), List.getElem?_append_left (by rw [mulPhase_len]; exact hi), mulPhase_get]; rfl
      · rw [Nat.two_mul, Nat.add_assoc, seg_get (mulPhase_len ..), seg_get (mulPhase_len ..), List.getElem?_append_left hi]
        simp [quarterTurns, List.getElem?_eq_getElem hi]
      · rw [show 3 * col.length + i = col.length + (col.length + (col.length + i)) by omega, seg_get (mulPhase_len ..),
          seg_get (mulPhase_len ..), seg_get rfl, mulPhase_get]; rfl
    · rw [show plainSegment 4 = 2 from rfl, Nat.two_mul]
      rw [List.append_assoc, List.drop_left' (by simp [mulPhase_len]), List.take_left' rfl]

/-- **C25 (any one segment suffices).**  Undoing the rotation of any single segment restores the original values. -/
theorem C25_recover (factor : ℝ) (sf : Nat) (hsf : sf = 1 ∨ sf = 2 ∨ sf = 4) (col y : List ℂ)
    (h : frequencySpread (complexNumbers factor) sf col = .ok y) (seg : Nat) (hs : seg < sf) :
    despread sf seg ((y.drop (seg * col.length)).take col.length) = col := by
  obtain ⟨y', e, hl, hg, -⟩ := C25_segments factor sf hsf col
  rw [h] at e
  cases e
  apply List.ext_getElem?
  intro i
  unfold despread
  rw [List.getElem?_map, List.getElem?_zipIdx, List.getElem?_take]
  by_cases hi : i < col.length
  · rw [if_pos hi, List.getElem?_drop, hg seg hs i hi, List.getElem?_eq_getElem hi]
    simp only [Option.map_some, Nat.zero_add, Option.some.injEq]
    rw [mul_assoc, mul_conj, normSq_eq_norm_sq, norm_pow, norm_I]
    simp
  · rw [if_neg hi, List.getElem?_eq_none (by omega)]; rfl

/-- **C25 (magnitudes).**  Every copy has the magnitude of its original. -/
theorem C25_magnitude (factor : ℝ) (sf : Nat) (hsf : sf = 1 ∨ sf = 2 ∨ sf = 4) (col y : List ℂ)
    (h : frequencySpread (complexNumbers factor) sf col = .ok y) (seg : Nat) (hs : seg < sf) (i : Nat) (hi : i < col.length) :
    y[seg * col.length + i]?.map (‖·‖) = col[i]?.map (‖·‖) := by
  obtain ⟨y', e, -, hg, -⟩ := C25_segments factor sf hsf col
  rw [h] at e
  cases e
  rw [hg seg hs i hi, List.getElem?_eq_getElem hi]
  simp

/-- **C25 (other factors)** are refused. -/
theorem C25_refused (factor : ℝ) (sf : Nat) (hsf : ¬ (sf = 1 ∨ sf = 2 ∨ sf = 4)) (col : List ℂ) :
    frequencySpread (complexNumbers factor) sf col = .error .ValueError := by
  unfold frequencySpread
  rw [if_neg (by omega), if_neg (by omega), if_neg (by omega)]

example : ∃ y, frequencySpread (complexNumbers 1) 4 [1, 2] = .ok y ∧ y.length = 8 := ⟨_, rfl, rfl⟩

end SunPhy.C25
