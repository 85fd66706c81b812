import Verif.Model.ModulationsFull
import Verif.Props.C08
/-
C92 — the constellation modulators of `tools/modulations.py` for every type of argument, number of dimensions, axis and bit order.
-/
namespace SunPhy.C92
open SunPhy

/-! ### Specification -/

/-- `+1` for a positive value, `-1` otherwise. -/
def sign (q : ℚ) : Int := if 0 < q then 1 else -1

/-- Gray coded level: `00 ↦ -3`, `01 ↦ -1`, `11 ↦ 1`, `10 ↦ 3`. -/
def level (a b : ℚ) : Int := if 0 < a then (if 0 < b then 1 else 3) else (if 0 < b then -1 else -3)

/-- QPSK point of two values: the first one is the real part, or the imaginary one if not `MSB_first`. -/
def quad (msb : Bool) (a b : ℚ) : GI := if msb = true then ⟨sign a, sign b⟩ else ⟨sign b, sign a⟩

/-- The outcome is a 2-D array of that shape with those entries. -/
def IsMat (r : Res ModOut) (rows cols : Nat) (f : Nat → Nat → GI) : Prop :=
  ∃ R : Mat GI, r = .ok (.mat R) ∧ R.rows = rows ∧ R.cols = cols ∧ ∀ i j, i < rows → j < cols → R.at' i j = f i j

/-! ### Lemmas -/

theorem sgn_eq (q : ℚ) : sgn q = sign q := rfl

theorem qpskPoint_eq (msb : Bool) (a b : ℚ) : qpskPoint msb a b = quad msb a b := by cases msb <;> rfl

theorem level_eq (a b : ℚ) : sgn a * (2 - sgn b) = level a b := by
  unfold sgn level
  by_cases ha : 0 < a <;> by_cases hb : 0 < b <;> simp [ha, hb]

theorem bcastDim_same (a : Nat) : bcastDim a a = some a := by simp [bcastDim]

theorem bcastMat_same {α β γ} (f : α → β → γ) (A : Mat α) (B : Mat β) (h1 : A.rows = B.rows) (h2 : A.cols = B.cols) :
    ∃ R, bcastMat f A B = .ok R ∧ R.rows = A.rows ∧ R.cols = A.cols ∧ ∀ i j, i < A.rows → j < A.cols → R.at' i j = f (A.at' i j) (B.at' i j) := by
  unfold bcastMat
  rw [← h1, ← h2, bcastDim_same, bcastDim_same]
  refine ⟨_, rfl, rfl, rfl, fun i j hi hj => ?_⟩
  simp only
  have e1 : (if A.rows = 1 then 0 else i) = i := by split <;> omega
  have e2 : (if A.cols = 1 then 0 else j) = j := by split <;> omega
  rw [e1, e2]

theorem bcastMat_none {α β γ} (f : α → β → γ) (A : Mat α) (B : Mat β) (h : bcastDim A.rows B.rows = none) : bcastMat f A B = .error .ValueError := by
  unfold bcastMat
  rw [h]

theorem bcastMat_some {α β γ} (f : α → β → γ) (A : Mat α) (B : Mat β) (h2 : A.cols = B.cols) (r : Nat) (h : bcastDim A.rows B.rows = some r) :
    ∃ R, bcastMat f A B = .ok R ∧ R.rows = r ∧ R.cols = A.cols ∧ ∀ i j, j < A.cols →
      R.at' i j = f (A.at' (if A.rows = 1 then 0 else i) j) (B.at' (if B.rows = 1 then 0 else i) j) := by
  unfold bcastMat
  rw [← h2, h, bcastDim_same]
  refine ⟨_, rfl, rfl, rfl, fun i j hj => ?_⟩
  simp only
  have e2 : (if A.cols = 1 then 0 else j) = j := by split <;> omega
  rw [e2]

/-! ### BPSK -/

/-- **C92 (BPSK).**  Whatever the options: numbers, lists and arrays of any shape are mapped entry by entry, keeping type and shape, except
zero-dimensional arrays (`TypeError`); anything else raises `ValueError`. -/
theorem C92_bpsk (msb : Bool) (axis : Nat) :
    let m : ModObj := ⟨.BPSK, msb, axis⟩
    (∀ q, m.convert (.num q) = .ok (.num ⟨sign q, 0⟩)) ∧
    (∀ l, m.convert (.list l) = .ok (.list (l.map fun q => ⟨sign q, 0⟩))) ∧
    (∀ l, m.convert (.vec l) = .ok (.vec (l.map fun q => ⟨sign q, 0⟩))) ∧
    (∀ M, IsMat (m.convert (.mat M)) M.rows M.cols fun i j => ⟨sign (M.at' i j), 0⟩) ∧
    (∀ s l, s ≠ [] → m.convert (.tensor s l) = .ok (.tensor s (l.map fun q => ⟨sign q, 0⟩))) ∧ (∀ l, m.convert (.tensor [] l) = .error .TypeError) ∧
    m.convert .other = .error .ValueError :=
  ⟨fun _ => rfl, fun _ => rfl, fun _ => rfl, fun M => ⟨_, rfl, rfl, rfl, fun _ _ _ _ => rfl⟩, fun _ _ h => if_neg h, fun _ => rfl, rfl⟩

/-! ### QPSK -/

/-- **C92 (QPSK, 2-D).**  Along axis 0 pairs of rows, along axis 1 pairs of columns are mapped to one point; `AssertionError` if they are odd
in number, `ValueError` for other axes. -/
theorem C92_qpsk_2d (msb : Bool) (axis : Nat) (M : Mat ℚ) :
    let r := (ModObj.mk .QPSK msb axis).convert (.mat M)
    (axis = 0 → M.rows % 2 = 0 → IsMat r (M.rows / 2) M.cols fun i j => quad msb (M.at' (2 * i) j) (M.at' (2 * i + 1) j)) ∧
    (axis = 1 → M.cols % 2 = 0 → IsMat r M.rows (M.cols / 2) fun i j => quad msb (M.at' i (2 * j)) (M.at' i (2 * j + 1))) ∧
    (axis = 0 ∧ M.rows % 2 = 1 ∨ axis = 1 ∧ M.cols % 2 = 1 → r = .error .AssertionError) ∧
    (2 ≤ axis → r = .error .ValueError) := by
  simp only [ModObj.convert, qpskConvertFull]
  refine ⟨?_, ?_, ?_, ?_⟩
  · rintro rfl h
    have s0 : strideSize 2 0 M.rows = M.rows / 2 := by unfold strideSize; omega
    have s1 : strideSize 2 1 M.rows = M.rows / 2 := by unfold strideSize; omega
    rw [if_pos rfl, if_neg (by omega)]
    obtain ⟨R, e, r1, r2, r3⟩ := bcastMat_same (qpskPoint msb) (M.strideRows 2 0) (M.strideRows 2 1) (by simp [Mat.strideRows, s0, s1]) rfl
    rw [e]
    have h0 : (M.strideRows 2 0).rows = M.rows / 2 := s0
    refine ⟨R, rfl, by rw [r1, h0], r2, fun i j hi hj => ?_⟩
    rw [r3 i j (by rw [h0]; exact hi) hj, qpskPoint_eq]
    simp only [Mat.strideRows]
    congr 2 <;> omega
  · rintro rfl h
    have s0 : strideSize 2 0 M.cols = M.cols / 2 := by unfold strideSize; omega
    have s1 : strideSize 2 1 M.cols = M.cols / 2 := by unfold strideSize; omega
    rw [if_neg (by decide), if_pos rfl, if_neg (by omega)]
    obtain ⟨R, e, r1, r2, r3⟩ := bcastMat_same (qpskPoint msb) (M.strideCols 2 0) (M.strideCols 2 1) rfl (by simp [Mat.strideCols, s0, s1])
    rw [e]
    have h0 : (M.strideCols 2 0).cols = M.cols / 2 := s0
    refine ⟨R, rfl, r1, by rw [r2, h0], fun i j hi hj => ?_⟩
    rw [r3 i j hi (by rw [h0]; exact hj), qpskPoint_eq]
    simp only [Mat.strideCols]
    congr 2 <;> omega
  · rintro (⟨rfl, h⟩ | ⟨rfl, h⟩)
    · rw [if_pos rfl, if_pos (by omega)]
    · rw [if_neg (by decide), if_pos rfl, if_pos (by omega)]
  · intro h
    rw [if_neg (by omega), if_neg (by omega)]

theorem everyNth_pairs (l : List ℚ) (k : Nat) (h : l.length = 2 * k) :
    (everyNth 2 0 l).length = k ∧ (everyNth 2 1 l).length = k ∧
    ∀ i < k, (everyNth 2 0 l)[i]? = l[2 * i]? ∧ (everyNth 2 1 l)[i]? = l[2 * i + 1]? := by
  induction k generalizing l with
  | zero =>
    have : l = [] := List.length_eq_zero_iff.1 (by omega)
    subst this
    simp [everyNth]
  | succ k ih =>
    match l, h with
    | a :: b :: l, h =>
      obtain ⟨h1, h2, h3⟩ := ih l (by simp at h; omega)
      have e0 : everyNth 2 0 (a :: b :: l) = a :: everyNth 2 0 l := rfl
      have e1 : everyNth 2 1 (a :: b :: l) = b :: everyNth 2 1 l := rfl
      rw [e0, e1]
      refine ⟨by simp [h1], by simp [h2], fun i hi => ?_⟩
      cases i with
      | zero => simp
      | succ i =>
        have := h3 i (by omega)
        rw [show 2 * (i + 1) = 2 * i + 1 + 1 by omega]
        simpa using this

theorem everyNth_odd (l : List ℚ) (k : Nat) (h : l.length = 2 * k + 1) : (everyNth 2 0 l).length = k + 1 ∧ (everyNth 2 1 l).length = k := by
  induction k generalizing l with
  | zero =>
    match l, h with
    | [a], _ => simp [everyNth]
  | succ k ih =>
    match l, h with
    | a :: b :: l, h =>
      obtain ⟨h1, h2⟩ := ih l (by simp at h; omega)
      have e0 : everyNth 2 0 (a :: b :: l) = a :: everyNth 2 0 l := rfl
      have e1 : everyNth 2 1 (a :: b :: l) = b :: everyNth 2 1 l := rfl
      rw [e0, e1]
      simp [h1, h2]

/-- **C92 (QPSK, 1-D).**  An even number of values is mapped pair by pair.  An odd number raises `ValueError`, except that a single value
gives an empty result and three values `a b c` are read as `a b c b`. -/
theorem C92_qpsk_1d (msb : Bool) (axis : Nat) (l : List ℚ) :
    let r := (ModObj.mk .QPSK msb axis).convert (.vec l)
    (l.length % 2 = 0 → ∃ out, r = .ok (.vec out) ∧ out.length = l.length / 2 ∧
      ∀ i < l.length / 2, out[i]? = some (quad msb (l.getD (2 * i) 0) (l.getD (2 * i + 1) 0))) ∧
    (l.length % 2 = 1 → 5 ≤ l.length → r = .error .ValueError) ∧
    (l.length = 1 → r = .ok (.vec [])) ∧
    (l.length = 3 → r = .ok (.vec [quad msb (l.getD 0 0) (l.getD 1 0), quad msb (l.getD 2 0) (l.getD 1 0)])) := by
  simp only [ModObj.convert, qpskConvertFull]
  refine ⟨fun h => ?_, fun h h5 => ?_, fun h => ?_, fun h => ?_⟩
  · obtain ⟨e0, e1, e2⟩ := everyNth_pairs l (l.length / 2) (by omega)
    unfold bcast
    rw [if_pos (by rw [e0, e1])]
    refine ⟨_, rfl, by simp [e0, e1], fun i hi => ?_⟩
    obtain ⟨g0, g1⟩ := e2 i hi
    rw [List.getElem?_zipWith, g0, g1, List.getElem?_eq_getElem (show 2 * i < l.length by omega),
      List.getElem?_eq_getElem (show 2 * i + 1 < l.length by omega)]
    simp only [Option.some.injEq]
    rw [qpskPoint_eq, List.getD_eq_getElem?_getD, List.getD_eq_getElem?_getD, List.getElem?_eq_getElem (show 2 * i < l.length by omega),
      List.getElem?_eq_getElem (show 2 * i + 1 < l.length by omega)]
    rfl
  · obtain ⟨e0, e1⟩ := everyNth_odd l (l.length / 2) (by omega)
    unfold bcast
    rw [if_neg (by omega)]
    generalize everyNth 2 0 l = x at *
    generalize everyNth 2 1 l = y at *
    match x, y, e0, e1 with
    | [], _, e0, _ => simp at e0
    | [_], _, e0, _ => simp at e0; omega
    | _ :: _ :: _, [], _, _ => rfl
    | _ :: _ :: _, [_], _, e1 => simp at e1; omega
    | _ :: _ :: _, _ :: _ :: _, _, _ => rfl
  · match l, h with
    | [a], _ => rfl
  · match l, h with
    | [a, b, c], _ =>
      show Except.ok _ = _
      simp [qpskPoint_eq, everyNth]

/-! ### 16-QAM -/

/-- The row that is used in place of row `4 i + k` when there are only four to seven rows. -/
def source (rows i k : Nat) : Nat := if 4 + k < rows then 4 * i + k else k

theorem body_exact (M : Mat ℚ) (h : M.rows % 4 = 0) : ∃ R, qam16Body M = .ok R ∧ R.rows = M.rows / 4 ∧ R.cols = M.cols ∧
    ∀ i j, i < M.rows / 4 → j < M.cols →
      R.at' i j = ⟨level (M.at' (4 * i) j) (M.at' (4 * i + 1) j), level (M.at' (4 * i + 2) j) (M.at' (4 * i + 3) j)⟩ := by
  have sz : ∀ off, off < 4 → strideSize 4 off M.rows = M.rows / 4 := by intro off ho; unfold strideSize; omega
  have rw' : ∀ off, off < 4 → ((M.strideRows 4 off).map sgn).rows = M.rows / 4 := fun off ho => sz off ho
  unfold qam16Body
  obtain ⟨A, ea, a1, a2, a3⟩ := bcastMat_same (fun b0 b1 => b0 * (2 - b1)) ((M.strideRows 4 0).map sgn) ((M.strideRows 4 1).map sgn)
    (by rw [rw' 0 (by decide), rw' 1 (by decide)]) rfl
  obtain ⟨B, eb, b1, b2, b3⟩ := bcastMat_same (fun b2 b3 => b2 * (2 - b3)) ((M.strideRows 4 2).map sgn) ((M.strideRows 4 3).map sgn)
    (by rw [rw' 2 (by decide), rw' 3 (by decide)]) rfl
  rw [rw' 0 (by decide)] at a1 a3
  rw [rw' 2 (by decide)] at b1 b3
  have a2 : A.cols = M.cols := a2
  have b2 : B.cols = M.cols := b2
  obtain ⟨R, er, r1, r2, r3⟩ := bcastMat_same (fun r i => (⟨r, i⟩ : GI)) A B (by rw [a1, b1]) (by rw [a2, b2])
  simp only [ea, eb, bind, Except.bind, er]
  refine ⟨R, rfl, by rw [r1, a1], by rw [r2, a2], fun i j hi hj => ?_⟩
  rw [r3 i j (by rw [a1]; exact hi) (by rw [a2]; exact hj), a3 i j hi hj, b3 i j hi hj]
  simp only [Mat.map, Mat.strideRows, level_eq]
  simp only [show ∀ off, off + 4 * i = 4 * i + off from fun off => by omega, Nat.add_zero]

theorem body_long (M : Mat ℚ) (h : M.rows % 4 ≠ 0) (h8 : 8 < M.rows) : qam16Body M = .error .ValueError := by
  have rw' : ∀ off, ((M.strideRows 4 off).map sgn).rows = strideSize 4 off M.rows := fun off => rfl
  have cl : ∀ off, ((M.strideRows 4 off).map sgn).cols = M.cols := fun off => rfl
  have s0 : strideSize 4 0 M.rows = M.rows / 4 + 1 := by unfold strideSize; omega
  have s3 : strideSize 4 3 M.rows = M.rows / 4 := by unfold strideSize; omega
  have none' : ∀ a, 2 ≤ a → bcastDim (a + 1) a = none := by intro a ha; unfold bcastDim; rw [if_neg (by omega), if_neg (by omega), if_neg (by omega)]
  unfold qam16Body
  by_cases h1 : M.rows % 4 = 1
  · have s1 : strideSize 4 1 M.rows = M.rows / 4 := by unfold strideSize; omega
    simp only [bind, Except.bind]
    rw [bcastMat_none _ _ _ (by rw [rw', rw', s0, s1]; exact none' _ (by omega))]
  · have s1 : strideSize 4 1 M.rows = M.rows / 4 + 1 := by unfold strideSize; omega
    obtain ⟨A, ea, a1, a2, -⟩ := bcastMat_same (fun b0 b1 => b0 * (2 - b1)) ((M.strideRows 4 0).map sgn) ((M.strideRows 4 1).map sgn)
      (by rw [rw', rw', s0, s1]) rfl
    rw [rw', s0] at a1
    simp only [ea, bind, Except.bind]
    by_cases h2 : M.rows % 4 = 2
    · have s2 : strideSize 4 2 M.rows = M.rows / 4 := by unfold strideSize; omega
      obtain ⟨B, eb, b1, b2, -⟩ := bcastMat_same (fun b2 b3 => b2 * (2 - b3)) ((M.strideRows 4 2).map sgn) ((M.strideRows 4 3).map sgn)
        (by rw [rw', rw', s2, s3]) rfl
      rw [rw', s2] at b1
      simp only [eb]
      rw [bcastMat_none _ _ _ (by rw [a1, b1]; exact none' _ (by omega))]
    · have s2 : strideSize 4 2 M.rows = M.rows / 4 + 1 := by unfold strideSize; omega
      rw [bcastMat_none _ ((M.strideRows 4 2).map sgn) _ (by rw [rw', rw', s2, s3]; exact none' _ (by omega))]

theorem body_short (M : Mat ℚ) (h : M.rows % 4 ≠ 0) (h8 : M.rows < 8) : ∃ R, qam16Body M = .ok R ∧ R.rows = 2 * (M.rows / 4) ∧ R.cols = M.cols ∧
    ∀ i j, i < 2 * (M.rows / 4) → j < M.cols → R.at' i j =
      ⟨level (M.at' (source M.rows i 0) j) (M.at' (source M.rows i 1) j), level (M.at' (source M.rows i 2) j) (M.at' (source M.rows i 3) j)⟩ := by
  have cases' : M.rows = 1 ∨ M.rows = 2 ∨ M.rows = 3 ∨ M.rows = 5 ∨ M.rows = 6 ∨ M.rows = 7 := by omega
  have rw' : ∀ off, ((M.strideRows 4 off).map sgn).rows = strideSize 4 off M.rows := fun off => rfl
  have dims : ∃ r q, bcastDim (strideSize 4 0 M.rows) (strideSize 4 1 M.rows) = some r ∧ bcastDim (strideSize 4 2 M.rows) (strideSize 4 3 M.rows) = some q ∧
      bcastDim r q = some (2 * (M.rows / 4)) ∧ (0 < M.rows / 4 → r = 2 ∧ (q = 1 ∨ q = 2) ∧ (q = 1 ↔ M.rows < 7)) := by
    rcases cases' with e | e | e | e | e | e <;> rw [e] <;> exact ⟨_, _, rfl, rfl, rfl, by decide⟩
  obtain ⟨r, q, d1, d2, d3, d4⟩ := dims
  unfold qam16Body
  obtain ⟨A, ea, a1, a2, a3⟩ := bcastMat_some (fun b0 b1 => b0 * (2 - b1)) ((M.strideRows 4 0).map sgn) ((M.strideRows 4 1).map sgn) rfl r (by rw [rw', rw']; exact d1)
  obtain ⟨B, eb, b1, b2, b3⟩ := bcastMat_some (fun b2 b3 => b2 * (2 - b3)) ((M.strideRows 4 2).map sgn) ((M.strideRows 4 3).map sgn) rfl q (by rw [rw', rw']; exact d2)
  have a2 : A.cols = M.cols := a2
  have b2 : B.cols = M.cols := b2
  obtain ⟨R, er, r1, r2, r3⟩ := bcastMat_some (fun r i => (⟨r, i⟩ : GI)) A B (by rw [a2, b2]) _ (by rw [a1, b1]; exact d3)
  simp only [ea, eb, bind, Except.bind, er]
  refine ⟨R, rfl, r1, by rw [r2, a2], fun i j hi hj => ?_⟩
  have h4 : 0 < M.rows / 4 := by omega
  obtain ⟨e2, eq, eq7⟩ := d4 h4
  rw [r3 i j (by rw [a2]; exact hj), a3 _ j hj, b3 _ j hj]
  simp only [Mat.map, Mat.strideRows, level_eq, a1, b1, e2]
  have key : ∀ off, off < 4 → ∀ i', (i' = i ∨ (i' = 0 ∧ M.rows < 7 ∧ 2 ≤ off)) → off + 4 * (if strideSize 4 off M.rows = 1 then 0 else i') = source M.rows i off := by
    intro off ho i' hi'
    have hs : strideSize 4 off M.rows = if 4 + off < M.rows then 2 else 1 := by unfold strideSize; split <;> omega
    unfold source
    rw [hs]
    by_cases hc : 4 + off < M.rows
    · simp only [if_pos hc]
      rw [if_neg (by decide)]; omega
    · simp only [if_neg hc]; simp
  have hq : (if q = 1 then 0 else i) = i ∨ ((if q = 1 then 0 else i) = 0 ∧ M.rows < 7) := by
    by_cases hq1 : q = 1
    · right; exact ⟨if_pos hq1, eq7.1 hq1⟩
    · left; exact if_neg hq1
  have k2 := fun off (ho : off < 4) (h2 : 2 ≤ off) => key off ho (if q = 1 then 0 else i) (hq.imp id fun x => ⟨x.1, x.2, h2⟩)
  simp only [show ¬ (2 : Nat) = 1 from by decide, if_false]
  rw [key 0 (by decide) i (Or.inl rfl), key 1 (by decide) i (Or.inl rfl), k2 2 (by decide) (by decide), k2 3 (by decide) (by decide)]

/-- What `QAM16` makes of an array read along its first axis. -/
structure Qam (r : Res ModOut) (rows cols : Nat) (x : Nat → Nat → ℚ) : Prop where
  exact : rows % 4 = 0 → IsMat r (rows / 4) cols fun i j => ⟨level (x (4 * i) j) (x (4 * i + 1) j), level (x (4 * i + 2) j) (x (4 * i + 3) j)⟩
  long : rows % 4 ≠ 0 → 8 < rows → r = .error .ValueError
  short : rows % 4 ≠ 0 → rows < 8 → IsMat r (2 * (rows / 4)) cols fun i j =>
    ⟨level (x (source rows i 0) j) (x (source rows i 1) j), level (x (source rows i 2) j) (x (source rows i 3) j)⟩

theorem body_qam (M : Mat ℚ) : Qam ((qam16Body M).map .mat) M.rows M.cols M.at' where
  exact h := by
    obtain ⟨R, e, r⟩ := body_exact M h
    rw [e]; exact ⟨R, rfl, r⟩
  long h h8 := by rw [body_long M h h8]; rfl
  short h h8 := by
    obtain ⟨R, e, r⟩ := body_short M h h8
    rw [e]; exact ⟨R, rfl, r⟩

/-- **C92 (16-QAM).**  `MSB_first` has no effect.  Along axis 0 groups of four rows are mapped to one point.  Along axis 1 groups of four
columns are, but the result comes out transposed: point `k` of row `j` is at `[k, j]`.  A 1-D array gives a column.  Sizes that are not
multiples of four raise `ValueError` from 9 on; smaller ones are accepted silently, missing values being replaced by those of the first
group (up to 3 values: an empty result).  Other axes: `ValueError`. -/
theorem C92_qam16 (msb : Bool) (axis : Nat) :
    let m : ModObj := ⟨.QAM16, msb, axis⟩
    (∀ M : Mat ℚ, axis = 0 → Qam (m.convert (.mat M)) M.rows M.cols M.at') ∧
    (∀ M : Mat ℚ, axis = 1 → Qam (m.convert (.mat M)) M.cols M.rows fun i j => M.at' j i) ∧
    (∀ M : Mat ℚ, 2 ≤ axis → m.convert (.mat M) = .error .ValueError) ∧
    (∀ l : List ℚ, Qam (m.convert (.vec l)) l.length 1 fun i _ => l.getD i 0) := by
  simp only [ModObj.convert, qam16ConvertFull]
  refine ⟨fun M h => ?_, fun M h => ?_, fun M h => ?_, fun l => ?_⟩
  · rw [if_neg (by omega), if_neg (by omega)]; exact body_qam M
  · rw [if_pos h]; exact body_qam M.transpose
  · rw [if_neg (by omega), if_pos (by omega)]
  · exact body_qam ⟨l.length, 1, fun i _ => l.getD i 0⟩

/-- **C92 (unsupported arguments).**  Numbers, lists, arrays of no or of three or more dimensions and other objects raise `ValueError` in QPSK and
16-QAM. -/
theorem C92_unsupported (k : ModKind) (hk : k ≠ .BPSK) (msb : Bool) (axis : Nat) (a : ModArg) (h1 : ∀ l, a ≠ .vec l) (h2 : ∀ M, a ≠ .mat M) :
    (ModObj.mk k msb axis).convert a = .error .ValueError := by
  cases k with
  | BPSK => exact absurd rfl hk
  | QPSK => cases a with
    | vec l => exact absurd rfl (h1 l)
    | mat M => exact absurd rfl (h2 M)
    | _ => rfl
  | QAM16 => cases a with
    | vec l => exact absurd rfl (h1 l)
    | mat M => exact absurd rfl (h2 M)
    | _ => rfl

/-- **C92 (get_modulator).**  A modulator is returned exactly for one of the three names, a boolean `MSB_first` and a non-negative integer axis;
everything else is `ValueError`. -/
theorem C92_get (mod : String) (msb axis : PyVal) :
    (∀ (k : ModKind) (b : Bool) (a : Nat), getModulatorFull mod msb axis = .ok ⟨k, b, a⟩ ↔
      mod = (match k with | .BPSK => "BPSK" | .QPSK => "QPSK" | .QAM16 => "QAM16") ∧ msb = .bool b ∧
        (axis = .int a ∨ axis = .bool true ∧ a = 1 ∨ axis = .bool false ∧ a = 0)) ∧
    ((∃ m, getModulatorFull mod msb axis = .ok m) ∨ getModulatorFull mod msb axis = .error .ValueError) := by
  have hk : ∀ k, getModulator mod = .ok k ↔ mod = (match k with | .BPSK => "BPSK" | .QPSK => "QPSK" | .QAM16 => "QAM16") := by
    intro k
    unfold getModulator
    by_cases h1 : mod = "BPSK"
    · subst h1; cases k <;> simp
    · by_cases h2 : mod = "QPSK"
      · subst h2; cases k <;> simp
      · by_cases h3 : mod = "QAM16"
        · subst h3; cases k <;> simp
        · cases k <;> simp [h1, h2, h3]
  have hb : ∀ b, msb.asBool? = some b ↔ msb = .bool b := by intro b; cases msb <;> simp [PyVal.asBool?]
  have ha : ∀ a : Nat, axis.asInt? = some (a : Int) ↔ (axis = .int a ∨ axis = .bool true ∧ a = 1 ∨ axis = .bool false ∧ a = 0) := by
    intro a
    cases axis with
    | bool b => cases b <;> simp [PyVal.asInt?] <;> omega
    | _ => simp [PyVal.asInt?]
  unfold getModulatorFull
  cases e : getModulator mod with
  | error x =>
    have : x = .ValueError := by
      unfold getModulator at e
      split at e
      · cases e
      · split at e
        · cases e
        · split at e
          · cases e
          · cases e; rfl
    subst this
    refine ⟨fun k b a => ⟨fun h => (by cases h), fun h => ?_⟩, Or.inr rfl⟩
    rw [(hk k).2 h.1] at e; cases e
  | ok k' =>
    simp only [bind, Except.bind]
    cases e2 : msb.asBool? with
    | none =>
      refine ⟨fun k b a => ⟨fun h => (by cases h), fun h => ?_⟩, Or.inr rfl⟩
      rw [(hb b).2 h.2.1] at e2; cases e2
    | some b' =>
      simp only
      cases e3 : axis.asInt? with
      | none =>
        refine ⟨fun k b a => ⟨fun h => (by cases h), fun h => ?_⟩, Or.inr rfl⟩
        rw [(ha a).2 h.2.2] at e3; cases e3
      | some a' =>
        simp only
        by_cases hneg : a' < 0
        · rw [if_pos hneg]
          refine ⟨fun k b a => ⟨fun h => (by cases h), fun h => ?_⟩, Or.inr rfl⟩
          rw [(ha a).2 h.2.2] at e3
          have := Option.some.inj e3
          omega
        · rw [if_neg hneg]
          refine ⟨fun k b a => ?_, Or.inl ⟨_, rfl⟩⟩
          rw [← hk, ← hb, ← ha, e, e2, e3]
          constructor
          · intro h
            have := Except.ok.inj h
            injection this with h1 h2 h3
            subst h1; subst h2; subst h3
            refine ⟨rfl, rfl, ?_⟩
            rw [Int.toNat_of_nonneg (by omega)]
          · rintro ⟨h1, h2, h3⟩
            cases h1; cases h2
            have := Option.some.inj h3
            rw [this]; rfl

/-- A bit as an array entry. -/
def num (b : Bool) : ℚ := if b then 1 else 0

/-- The matrix with the given columns of bits. -/
def ofColumns (n : Nat) (cols : List Bits) : Mat ℚ := ⟨n, cols.length, fun i j => num ((cols.getD j []).getD i false)⟩

theorem sign_num (b : Bool) : sign (num b) = C08.level1 b := by cases b <;> simp [sign, num, C08.level1]
theorem level_num (a b : Bool) : level (num a) (num b) = C08.level2 a b := by cases a <;> cases b <;> simp [level, num, C08.level2]

theorem take_range (l : Bits) (a k : Nat) (h : a + k ≤ l.length) : (l.drop a).take k = (List.range k).map fun i => l.getD (a + i) false := by
  apply List.ext_getElem?
  intro i
  by_cases hi : i < k
  · rw [List.getElem?_take_of_lt hi, List.getElem?_drop, List.getElem?_map, List.getElem?_range hi, Option.map_some,
      List.getD_eq_getElem?_getD, List.getElem?_eq_getElem (show a + i < l.length by omega), Option.getD_some]
  · rw [List.getElem?_eq_none (by simp; omega), List.getElem?_eq_none (by simp; omega)]

/-- **C92 (columns).**  The part of the code that the OFDM and O-QPSK modulators use — 0/1 matrices, axis 0, most significant bit first — acts
on each column separately, as in the model of `C08`. -/
theorem C92_columns (k : ModKind) (n : Nat) (cols : List Bits) (hc : ∀ c ∈ cols, c.length = n) (h : n % k.bitsPerSymbol = 0) :
    ∃ R : Mat GI, (ModObj.mk k true 0).convert (.mat (ofColumns n cols)) = .ok (.mat R) ∧ R.rows = n / k.bitsPerSymbol ∧ R.cols = cols.length ∧
      ∀ (j : Nat) (c : Bits), cols[j]? = some c → k.convert c = .ok ((List.range (n / k.bitsPerSymbol)).map fun i => R.at' i j) := by
  have main : ∀ R : Mat GI, (∀ i j c, i < n / k.bitsPerSymbol → cols[j]? = some c →
      R.at' i j = C08.point k ((List.range k.bitsPerSymbol).map fun a => c.getD (k.bitsPerSymbol * i + a) false)) →
      ∀ (j : Nat) (c : Bits), cols[j]? = some c → k.convert c = .ok ((List.range (n / k.bitsPerSymbol)).map fun i => R.at' i j) := by
    intro R hR j c hj
    have hl : c.length = n := hc c (List.mem_of_getElem? hj)
    rw [(C08.C08_levels k c (by rw [hl]; exact h)).1]
    congr 1
    unfold chunks
    rw [List.map_map, hl]
    apply List.map_congr_left
    intro i hi
    have hi := List.mem_range.1 hi
    rw [hR i j c hi hj]
    simp only [Function.comp]
    have hb : i * k.bitsPerSymbol + k.bitsPerSymbol ≤ c.length := by
      rw [hl]
      calc i * k.bitsPerSymbol + k.bitsPerSymbol = (i + 1) * k.bitsPerSymbol := (Nat.succ_mul _ _).symm
        _ ≤ n / k.bitsPerSymbol * k.bitsPerSymbol := Nat.mul_le_mul_right _ hi
        _ ≤ n := Nat.div_mul_le_self _ _
    rw [take_range _ _ _ hb, Nat.mul_comm i]
  have col : ∀ (i j : Nat) (c : Bits), cols[j]? = some c → (ofColumns n cols).at' i j = num (c.getD i false) := by
    intro i j c hj
    simp only [ofColumns]
    have : cols.getD j [] = c := by rw [List.getD_eq_getElem?_getD, hj]; rfl
    rw [this]
  have lt : ∀ (j : Nat) (c : Bits), cols[j]? = some c → j < cols.length := fun j c hj => (List.getElem?_eq_some_iff.1 hj).1
  cases k with
  | BPSK =>
    obtain ⟨R, e, r1, r2, r3⟩ := (C92_bpsk true 0).2.2.2.1 (ofColumns n cols)
    refine ⟨R, e, by rw [r1]; simp [ModKind.bitsPerSymbol, ofColumns], r2, main R fun i j c hi hj => ?_⟩
    rw [r3 i j (by simpa [ModKind.bitsPerSymbol, ofColumns] using hi) (lt j c hj)]
    simp only
    rw [col i j c hj, sign_num]
    simp [ModKind.bitsPerSymbol, C08.point]
  | QPSK =>
    obtain ⟨R, e, r1, r2, r3⟩ := (C92_qpsk_2d true 0 (ofColumns n cols)).1 rfl h
    refine ⟨R, e, r1, r2, main R fun i j c hi hj => ?_⟩
    rw [r3 i j hi (lt j c hj)]
    simp only
    rw [col _ j c hj, col _ j c hj]
    simp [quad, sign_num, ModKind.bitsPerSymbol, C08.point, List.range_succ]
  | QAM16 =>
    obtain ⟨R, e, r1, r2, r3⟩ := ((C92_qam16 true 0).1 (ofColumns n cols) rfl).exact h
    refine ⟨R, e, r1, r2, main R fun i j c hi hj => ?_⟩
    rw [r3 i j hi (lt j c hj)]
    simp only
    rw [col _ j c hj, col _ j c hj, col _ j c hj, col _ j c hj, level_num, level_num]
    simp [ModKind.bitsPerSymbol, C08.point, List.range_succ]

/-! Non-vacuity: a modulator, a transposed result, an accepted incomplete group. -/
example : getModulatorFull "QAM16" (.bool false) (.int 1) = .ok ⟨.QAM16, false, 1⟩ := by
  rw [(C92_get _ _ _).1]; exact ⟨rfl, rfl, Or.inl rfl⟩
example : IsMat ((ModObj.mk .QAM16 true 1).convert (.mat ⟨2, 8, fun i j => if i = 1 ∧ j < 2 then 1 else 0⟩)) 2 2
    fun i j => if i = 0 ∧ j = 1 then ⟨1, -3⟩ else ⟨-3, -3⟩ := by
  refine ⟨_, rfl, rfl, rfl, ?_⟩
  intro i j hi hj
  have : (i = 0 ∨ i = 1) ∧ (j = 0 ∨ j = 1) := by omega
  obtain ⟨rfl | rfl, rfl | rfl⟩ := this <;> simp [Mat.map, Mat.strideRows, Mat.transpose, strideSize, sgn]
example : ∃ r, (ModObj.mk .QAM16 true 0).convert (.vec [1, 0, 0, 0, 1]) = .ok r :=
  (((C92_qam16 true 0).2.2.2 [1, 0, 0, 0, 1]).short (by decide) (by decide)).imp' _ fun _ h => h.1

end SunPhy.C92
