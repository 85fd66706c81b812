import Verif.Props.C12
/-
C13 — error correction strength of the (133,171) code: minimum distance of terminated messages.
-/
namespace SunPhy.C13
open SunPhy Spec

theorem tail_state (v : Nat) (hv : v < 64) (m z : Bits) :
    rateHalfState v (m ++ List.replicate 6 false ++ z) = rateHalfState 0 z := by
  rw [rateHalfState_append, rateHalfState_append, flush6 _ (rateHalfState_lt hv m)]

/-- **C13 (rate 1/2).**  Two different messages of equal length, each followed by the six zero tail bits (and by any common
further bits, e.g. padding), are encoded to sequences that differ in at least 10 positions. -/
theorem C13_half (m m' z : Bits) (hl : m.length = m'.length) (hne : m ≠ m') :
    10 ≤ hamming (rateHalfOut (rateHalfInit 0) (m ++ List.replicate 6 false ++ z))
      (rateHalfOut (rateHalfInit 0) (m' ++ List.replicate 6 false ++ z)) := by
  refine rateHalf_dist_start _ _ (by decide) (by simp [hl]) ?_ ?_
  · simpa [List.append_assoc] using hne
  · rw [tail_state _ (by decide), tail_state _ (by decide)]

/-- **C13 (rate 3/4).**  After puncturing they still differ in at least 5 positions. -/
theorem C13_three_quarter (m m' z : Bits) (hl : m.length = m'.length) (hne : m ≠ m')
    (h3 : (m.length + 6 + z.length) % 3 = 0) :
    ∃ c c' v, rate34Seq (rateHalfInit 0) (m ++ List.replicate 6 false ++ z) = .ok (c, v) ∧
      rate34Seq (rateHalfInit 0) (m' ++ List.replicate 6 false ++ z) = .ok (c', v) ∧
      c.length = c'.length ∧ 5 ≤ hamming c c' := by
  have key : ∀ x : Bits, x.length = m.length → (x ++ List.replicate 6 false ++ z).length % 3 = 0 ∧
      (x ++ List.replicate 6 false ++ z) ≠ [] := by
    intro x hx
    refine ⟨by rw [List.length_append, List.length_append, List.length_replicate, hx]; exact h3, ?_⟩
    simp [List.replicate_succ]
  obtain ⟨k1, n1⟩ := key m rfl
  obtain ⟨k2, n2⟩ := key m' hl.symm
  have s1 := rate34Rows_state (chunks 3 (m ++ List.replicate 6 false ++ z)) (rateHalfInit 0) (fun b hb => mem_chunks_length hb)
  have s2 := rate34Rows_state (chunks 3 (m' ++ List.replicate 6 false ++ z)) (rateHalfInit 0) (fun b hb => mem_chunks_length hb)
  rw [chunks_flatten (by decide) _ k1, tail_state _ (by decide)] at s1
  rw [chunks_flatten (by decide) _ k2, tail_state _ (by decide)] at s2
  refine ⟨(rate34Rows (rateHalfInit 0) (chunks 3 (m ++ List.replicate 6 false ++ z))).1,
    (rate34Rows (rateHalfInit 0) (chunks 3 (m' ++ List.replicate 6 false ++ z))).1, rateHalfState 0 z, ?_, ?_, ?_, ?_⟩
  · rw [C11.rate34Seq_ok _ _ k1 n1, ← s1]
  · rw [C11.rate34Seq_ok _ _ k2 n2, ← s2]
  · rw [rate34Rows_length _ _ (fun b hb => mem_chunks_length hb), rate34Rows_length _ _ (fun b hb => mem_chunks_length hb),
      chunks_length, chunks_length]
    simp [hl]
  · refine rate34_dist_start _ _ (by decide) ?_ (fun b hb => mem_chunks_length hb) (fun b hb => mem_chunks_length hb) ?_ (by rw [s1, s2])
    · rw [chunks_length, chunks_length]; simp [hl]
    · intro he
      have := congrArg List.flatten he
      rw [chunks_flatten (by decide) _ k1, chunks_flatten (by decide) _ k2] at this
      apply hne
      simpa [List.append_assoc] using this

-- the bounds are attained, so the hypotheses are met and the numbers are exact
example : hamming (rateHalfOut 0 ([true] ++ List.replicate 6 false ++ [])) (rateHalfOut 0 ([false] ++ List.replicate 6 false ++ [])) = 10 := by
  decide
example : ([true, true, false] : Bits) ≠ [false, true, false] ∧ (([true, true, false] : Bits).length + 6 + ([] : Bits).length) % 3 = 0 := by
  decide

end SunPhy.C13
