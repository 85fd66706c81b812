import Verif.Props.C11
/-
C12 — the rate 3/4 encoder is the punctured rate 1/2 code and is decodable.
-/
namespace SunPhy.C12
open SunPhy

/-- Puncturing: of every 6 code bits (three `A B` pairs) the bits number 3 and 4 are dropped. -/
def puncture (code : Bits) : Bits := ((code.zipIdx).filter fun p => p.2 % 6 ≠ 3 ∧ p.2 % 6 ≠ 4).map (·.1)

theorem puncture_off (l : Bits) (k : Nat) :
    ((l.zipIdx (6 * k)).filter fun p => p.2 % 6 ≠ 3 ∧ p.2 % 6 ≠ 4).map (·.1) = puncture l := by
  unfold puncture
  have e : l.zipIdx (6 * k) = l.zipIdx.map (fun p => (p.1, 6 * k + p.2)) := by
    rw [List.zipIdx_eq_map_add]
  rw [e, List.filter_map, List.map_map]
  congr 1
  apply List.filter_congr
  rintro ⟨a, i⟩ _
  simp

theorem puncture_row (a b c d e f : Bool) (l : Bits) : puncture (a :: b :: c :: d :: e :: f :: l) = a :: b :: c :: f :: puncture l := by
  rw [← puncture_off l 1]
  unfold puncture
  simp [List.zipIdx_cons]

/-- **C12 (when it fails).**  `ValueError` exactly when the input size is not a multiple of 3; the only other failure is the
`UnboundLocalError` on an empty input. -/
theorem C12_errors (v : Nat) (x : Bits) :
    (rate34Seq v x = .error .ValueError ↔ x.length % 3 ≠ 0) ∧
    (rate34Seq v x = .error .UnboundLocalError ↔ x = []) ∧
    ((∃ r, rate34Seq v x = .ok r) ↔ x.length % 3 = 0 ∧ x ≠ []) := by
  unfold rate34Seq
  by_cases h : x.length % 3 = 0
  · by_cases h0 : x = []
    · subst h0; simp
    · rw [if_neg (by omega), if_neg h0]; simp [h, h0]
  · rw [if_pos (by omega)]
    have h0 : x ≠ [] := by rintro rfl; simp at h
    simp [h, h0]

/-- **C12 (punctured code).**  For non-empty inputs of size multiple of 3 the output is the punctured rate 1/2 output, its
size is 4/3 of the input's, and the register is that of the rate 1/2 encoder. -/
theorem C12_punctured (v : Nat) (x : Bits) (h : x.length % 3 = 0) (h0 : x ≠ []) :
    ∃ out, rate34Seq v x = .ok (out, rateHalfState v x) ∧ out = puncture (rateHalfOut v x) ∧ 3 * out.length = 4 * x.length := by
  have h3 : ∀ b ∈ chunks 3 x, b.length = 3 := fun b hb => mem_chunks_length hb
  have hfl := chunks_flatten (n := 3) (by decide) x h
  refine ⟨(rate34Rows v (chunks 3 x)).1, ?_, ?_, ?_⟩
  · have s := rate34Rows_state _ v h3
    rw [hfl] at s
    rw [C11.rate34Seq_ok v x h h0, ← s]
  · clear h0
    have gen : ∀ (r : List Bits) (v : Nat), (∀ b ∈ r, b.length = 3) → (rate34Rows v r).1 = puncture (rateHalfOut v r.flatten) := by
      intro r
      induction r with
      | nil => intro v _; rfl
      | cons b r ih =>
        intro v h3
        obtain ⟨a0, a1, a2, rfl⟩ := bits3 (h3 b (by simp))
        rw [rate34Rows_cons, List.flatten_cons]
        simp only [List.cons_append, List.nil_append, rateHalf_cons, puncture_row]
        rw [ih _ fun b hb => h3 b (by simp [hb])]
        rfl
    rw [gen _ v h3, hfl]
  · rw [rate34Rows_length _ _ h3, chunks_length]; omega

/-- **C12 (decodable).**  Different acceptable inputs (of any sizes) give different code bits, from the initial register and
from every 6-bit register. -/
theorem C12_injective (v : Nat) (hv : v < 64) (x y : Bits) (rx ry : Bits × Nat) (hx : rate34Seq v x = .ok rx)
    (hy : rate34Seq v y = .ok ry) (he : rx.1 = ry.1) : x = y := by
  obtain ⟨mx, nx⟩ := (C12_errors v x).2.2.1 ⟨_, hx⟩
  obtain ⟨my, ny⟩ := (C12_errors v y).2.2.1 ⟨_, hy⟩
  rw [C11.rate34Seq_ok v x mx nx] at hx
  rw [C11.rate34Seq_ok v y my ny] at hy
  cases hx; cases hy
  have := rate34Rows_inj (chunks 3 x) (chunks 3 y) hv (fun b hb => mem_chunks_length hb) (fun b hb => mem_chunks_length hb) he
  rw [← chunks_flatten (n := 3) (by decide) x mx, this, chunks_flatten (by decide) y my]

example : rateHalfInit 0 < 64 ∧ (rate34Seq (rateHalfInit 0) [true, false, true, true, true, false]).toBool = true := by decide

end SunPhy.C12
