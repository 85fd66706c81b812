import Verif.Proofs.Conv
/-
C11 — streaming the rate encoders in pieces gives the same code bits as one call.
-/
namespace SunPhy.C11
open SunPhy

/-- Successive `Rate_one_half.sequence` calls on one encoder: the outputs in order, and the final register. -/
def calls (v : Nat) : List Bits → List Bits × Nat
  | [] => ([], v)
  | p :: ps => let r := calls (rateHalfState v p) ps; (rateHalfOut v p :: r.1, r.2)

/-- **C11 (rate 1/2).**  However an input is split into successive calls, the concatenated outputs and the final register
are those of a single call. -/
theorem C11_half (v : Nat) (pieces : List Bits) :
    (calls v pieces).1.flatten = rateHalfOut v pieces.flatten ∧ (calls v pieces).2 = rateHalfState v pieces.flatten := by
  induction pieces generalizing v with
  | nil => exact ⟨rfl, rfl⟩
  | cons p ps ih =>
    obtain ⟨h1, h2⟩ := ih (rateHalfState v p)
    simp only [calls, List.flatten_cons, rateHalfOut_append, rateHalfState_append, h1, h2, and_self]

/-- Successive `Rate_three_quarter.sequence` calls on one encoder; an exception ends the sequence. -/
def calls34 (v : Nat) : List Bits → Res (List Bits × Nat)
  | [] => .ok ([], v)
  | p :: ps => do
    let (out, v1) ← rate34Seq v p
    let (outs, v2) ← calls34 v1 ps
    return (out :: outs, v2)

theorem rate34Seq_ok (v : Nat) (x : Bits) (h : x.length % 3 = 0) (h0 : x ≠ []) :
    rate34Seq v x = .ok (rate34Rows v (chunks 3 x)) := by
  unfold rate34Seq
  rw [if_neg (by omega), if_neg h0]

theorem chunks3_append (p q : Bits) (h : p.length % 3 = 0) : chunks 3 (p ++ q) = chunks 3 p ++ chunks 3 q := by
  refine blockInduction (n := 3) (P := fun p => chunks 3 (p ++ q) = chunks 3 p ++ chunks 3 q) (by decide) (by simp [chunks_nil])
    ?_ p h
  intro b l hb _ ih
  rw [List.append_assoc, chunks_append (by decide) hb, ih, chunks_append (by decide) hb]; rfl

/-- **C11 (rate 3/4).**  The same for the punctured encoder, for at least one piece, all pieces non-empty with sizes
multiple of 3 (the sizes the encoder accepts). -/
theorem C11_three_quarter (v : Nat) (pieces : List Bits) (hne : pieces ≠ [])
    (h : ∀ p ∈ pieces, p.length % 3 = 0 ∧ p ≠ []) :
    ∃ outs v', calls34 v pieces = .ok (outs, v') ∧ rate34Seq v pieces.flatten = .ok (outs.flatten, v') := by
  have gen : ∀ (ps : List Bits) (v : Nat), (∀ p ∈ ps, p.length % 3 = 0 ∧ p ≠ []) →
      ∃ outs v', calls34 v ps = .ok (outs, v') ∧ rate34Rows v (chunks 3 ps.flatten) = (outs.flatten, v') := by
    intro ps
    induction ps with
    | nil => intro v _; exact ⟨[], v, rfl, by simp [chunks_nil, rate34Rows]⟩
    | cons p ps ih =>
      intro v h
      obtain ⟨hp, hp0⟩ := h p (by simp)
      obtain ⟨outs, v', e1, e2⟩ := ih (rate34Rows v (chunks 3 p)).2 fun q hq => h q (by simp [hq])
      refine ⟨(rate34Rows v (chunks 3 p)).1 :: outs, v', ?_, ?_⟩
      · rw [calls34, rate34Seq_ok v p hp hp0]
        simp only [bind, Except.bind, e1, pure, Except.pure]
      · rw [List.flatten_cons, chunks3_append p _ hp, rate34Rows_append, e2]
        simp
  obtain ⟨outs, v', e1, e2⟩ := gen pieces v h
  refine ⟨outs, v', e1, ?_⟩
  have hm : pieces.flatten.length % 3 = 0 := by
    have : ∀ ps : List Bits, (∀ p ∈ ps, p.length % 3 = 0 ∧ p ≠ []) → ps.flatten.length % 3 = 0 := by
      intro ps
      induction ps with
      | nil => simp
      | cons p ps ih =>
        intro h
        have a := (h p (by simp)).1
        have b := ih fun q hq => h q (by simp [hq])
        rw [List.flatten_cons, List.length_append]; omega
    exact this pieces h
  have h0 : pieces.flatten ≠ [] := by
    cases pieces with
    | nil => exact (hne rfl).elim
    | cons p ps => rw [List.flatten_cons]; intro h2; exact (h p (by simp)).2 (List.append_eq_nil_iff.1 h2).1
  rw [rate34Seq_ok v _ hm h0, e2]

example : (∀ p ∈ [[true, false, true], [false, true, true, true, false, false]], p.length % 3 = 0 ∧ p ≠ []) := by decide
example : (calls 5 [[true], [], [false, true]]).1.flatten = rateHalfOut 5 [true, false, true] := by decide

end SunPhy.C11
