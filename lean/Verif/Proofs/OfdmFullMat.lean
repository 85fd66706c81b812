import Verif.Proofs.OfdmFull
import Verif.Proofs.OfdmFrame
import Verif.Spec.OfdmRun
/-
The matrix stages of the unrestricted `Ofdm_modulator`: split, constellation, frequency spreading.
-/
namespace SunPhy
open Spec

set_option linter.unusedSectionVars false

theorem ofdmSplitFull_ok {L : Nat} (hL : 0 < L) (data : List ℚ) (pad : Bool) (h : pad = true ∨ data.length % L = 0) :
    ofdmSplitFull L data pad = .ok ⟨L, symbolCount L data.length pad, fun i j => (paddedData L data pad).getD (j * L + i) 0⟩ := by
  unfold ofdmSplitFull
  rw [if_neg (by omega)]
  simp only [Int.toNat_natCast]
  rw [if_neg (by rintro ⟨h1, h2⟩; rcases h with h | h <;> simp_all)]
  have e : (if pad = true then data ++ List.replicate (ceilDiv data.length L * L - data.length) 0 else data).length / L = symbolCount L data.length pad := by
    unfold symbolCount
    cases pad with
    | false => rfl
    | true =>
      simp only [if_true, List.length_append, List.length_replicate]
      have := (ceilDiv_spec (a := data.length) hL).1
      rw [show data.length + (ceilDiv data.length L * L - data.length) = ceilDiv data.length L * L by omega]
      exact Nat.mul_div_cancel _ hL
  rw [e]
  rfl

theorem ofdmSplitFull_error (L : Int) (data : List ℚ) (pad : Bool) (h : L ≤ 0 ∨ (pad = false ∧ data.length % L.toNat ≠ 0)) :
    ofdmSplitFull L data pad = .error (if pad = true ∧ L = 0 then .ZeroDivisionError else .ValueError) := by
  unfold ofdmSplitFull
  rcases h with h | ⟨h1, h2⟩
  · rw [if_pos h]; split <;> rfl
  · subst h1
    by_cases hL : L ≤ 0
    · rw [if_pos hL]; simp
    · rw [if_neg hL]; simp [h2]

theorem level1_pos (q : ℚ) : C92.sign q = C08.level1 (decide (0 < q)) := by
  by_cases h : 0 < q <;> simp [C92.sign, C08.level1, h]
theorem level2_pos (a b : ℚ) : C92.level a b = C08.level2 (decide (0 < a)) (decide (0 < b)) := by
  by_cases h : 0 < a <;> by_cases h2 : 0 < b <;> simp [C92.level, C08.level2, h, h2]

theorem convert_ok (k : ModKind) (M : Mat ℚ) {R : Nat} (h : pointRows k M.rows = some R) :
    ∃ P : Mat GI, (ModObj.mk k true 0).convert (.mat M) = .ok (.mat P) ∧ P.rows = R ∧ P.cols = M.cols ∧
      (M.rows % k.bitsPerSymbol = 0 → ∀ i j, i < R → j < M.cols →
        P.at' i j = C08.point k ((List.range k.bitsPerSymbol).map fun a => decide (0 < M.at' (k.bitsPerSymbol * i + a) j))) := by
  cases k with
  | BPSK =>
    obtain ⟨P, e, r1, r2, r3⟩ := (C92.C92_bpsk true 0).2.2.2.1 M
    injection h with h
    refine ⟨P, e, by rw [r1, h], r2, fun _ i j hi hj => ?_⟩
    rw [r3 i j (by omega) hj]
    simp only [level1_pos]
    simp [ModKind.bitsPerSymbol, C08.point]
  | QPSK =>
    simp only [pointRows] at h
    split at h
    · rename_i h2
      injection h with h
      obtain ⟨P, e, r1, r2, r3⟩ := (C92.C92_qpsk_2d true 0 M).1 rfl h2
      refine ⟨P, e, by rw [r1, h], r2, fun _ i j hi hj => ?_⟩
      rw [r3 i j (by omega) hj]
      simp only [C92.quad, if_true, level1_pos]
      simp [ModKind.bitsPerSymbol, C08.point, List.range_succ]
      try first | rfl | exact ⟨rfl, rfl⟩ | (constructor <;> congr)
    · cases h
  | QAM16 =>
    simp only [pointRows] at h
    have q := (C92.C92_qam16 true 0).1 M rfl
    split at h
    · rename_i h4
      injection h with h
      obtain ⟨P, e, r1, r2, r3⟩ := q.exact h4
      refine ⟨P, e, by rw [r1, h], r2, fun _ i j hi hj => ?_⟩
      rw [r3 i j (by omega) hj]
      simp only [level2_pos]
      simp [ModKind.bitsPerSymbol, C08.point, List.range_succ]
      try first | rfl | exact ⟨rfl, rfl⟩ | (constructor <;> congr)
    · rename_i h4
      split at h
      · rename_i h8
        injection h with h
        obtain ⟨P, e, r1, r2, r3⟩ := q.short h4 h8
        refine ⟨P, e, by rw [r1, h], r2, fun hm => absurd hm h4⟩
      · cases h

theorem convert_error (k : ModKind) (M : Mat ℚ) (h : pointRows k M.rows = none) :
    (ModObj.mk k true 0).convert (.mat M) = .error (if k = .QPSK then .AssertionError else .ValueError) := by
  cases k with
  | BPSK => cases h
  | QPSK =>
    simp only [pointRows] at h
    split at h
    · cases h
    · rename_i h2
      exact (C92.C92_qpsk_2d true 0 M).2.2.1 (Or.inl ⟨rfl, by omega⟩)
  | QAM16 =>
    simp only [pointRows] at h
    split at h
    · cases h
    · rename_i h4
      split at h
      · cases h
      · exact ((C92.C92_qam16 true 0).1 M rfl).long h4 (by omega)

section
variable {α : Type} [Mul α] [Zero α]

theorem ofdmMapFull_ok (nb : Numbers α) (k : ModKind) (M : Mat ℚ) {R : Nat} (h : pointRows k M.rows = some R) :
    ∃ P : Mat α, ofdmMapFull nb k M = .ok P ∧ P.rows = R ∧ P.cols = M.cols ∧
      (M.rows % k.bitsPerSymbol = 0 → ∀ i j, i < R → j < M.cols →
        P.at' i j = nb.ofGI (C08.point k ((List.range k.bitsPerSymbol).map fun a => decide (0 < M.at' (k.bitsPerSymbol * i + a) j))) * nb.factor) := by
  obtain ⟨P, e, r1, r2, r3⟩ := convert_ok k M h
  unfold ofdmMapFull
  rw [e]
  refine ⟨_, rfl, r1, r2, fun hm i j hi hj => ?_⟩
  simp only [Mat.map]
  rw [r3 hm i j hi hj]

theorem ofdmMapFull_error (nb : Numbers α) (k : ModKind) (M : Mat ℚ) (h : pointRows k M.rows = none) :
    ofdmMapFull nb k M = .error (if k = .QPSK then .AssertionError else .ValueError) := by
  unfold ofdmMapFull
  rw [convert_error k M h]

theorem phase_columns (nb : Numbers α) (ph : Nat → Nat) (M : Mat α) (j : Nat) :
    (List.range M.rows).map (fun i => (M.phase nb ph).at' i j) = mulPhase nb ph ((List.range M.rows).map fun i => M.at' i j) := by
  unfold mulPhase Mat.phase
  apply List.ext_getElem
  · simp
  · intro i h1 h2; simp

theorem vcat_column (A B : Mat α) (j : Nat) :
    (List.range (A.rows + B.rows)).map (fun i => (A.vcat B).at' i j) = (List.range A.rows).map (fun i => A.at' i j) ++ (List.range B.rows).map (fun i => B.at' i j) := by
  rw [List.range_add, List.map_append, List.map_map]
  congr 1
  · apply List.map_congr_left
    intro i hi
    simp only [Mat.vcat]
    rw [if_pos (List.mem_range.1 hi)]
  · apply List.map_congr_left
    intro i hi
    simp only [Mat.vcat, Function.comp]
    rw [if_neg (by omega), Nat.add_sub_cancel_left]

theorem ofdmSpreadFull_ok (nb : Numbers α) {sf : Nat} (h : sf = 1 ∨ sf = 2 ∨ sf = 4) (M : Mat α) :
    ∃ P : Mat α, ofdmSpreadFull nb sf M = .ok P ∧ P.rows = sf * M.rows ∧ P.cols = M.cols ∧
      P.columns = M.columns.map (spreadCol nb sf) := by
  rcases h with rfl | rfl | rfl
  · refine ⟨M, rfl, by omega, rfl, ?_⟩
    unfold spreadCol
    simp
  · refine ⟨_, rfl, by simp only [Mat.vcat, Mat.phase]; omega, rfl, ?_⟩
    unfold Mat.columns
    rw [List.map_map]
    apply List.map_congr_left
    intro j _
    have := vcat_column (M.phase nb fun k => 2 * k - 1) M j
    simp only [Function.comp, spreadCol]
    rw [if_neg (by decide), if_pos trivial]
    exact this.trans (by rw [← phase_columns]; rfl)
  · refine ⟨_, rfl, by simp only [Mat.vcat, Mat.phase]; omega, rfl, ?_⟩
    unfold Mat.columns
    rw [List.map_map]
    apply List.map_congr_left
    intro j _
    have h1 := vcat_column (M.phase nb fun k => 2 * k - 1) ((M.phase nb fun k => 3 * k - 1).vcat (M.vcat (M.phase nb fun k => k - 1))) j
    have h2 := vcat_column (M.phase nb fun k => 3 * k - 1) (M.vcat (M.phase nb fun k => k - 1)) j
    have h3 := vcat_column M (M.phase nb fun k => k - 1) j
    simp only [Function.comp, spreadCol]
    rw [if_neg (by decide), if_neg (by decide)]
    refine h1.trans ?_
    rw [← phase_columns, ← phase_columns, ← phase_columns, List.append_assoc, List.append_assoc]
    congr 1
    exact h2.trans (congrArg _ h3)

end
end SunPhy
