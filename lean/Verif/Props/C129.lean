import Verif.Model.RateEncoderFull
import Verif.Props.C10
import Verif.Props.C12
import Mathlib.Tactic.IntervalCases
/-
C129 — the rate encoders for every seed and every array of numbers, and everything they return.
-/
namespace SunPhy.C129
open SunPhy

/-- Numbers greater than 0 count as 1. -/
def positive (x : List ℚ) : Bits := x.map fun q => decide (0 < q)

/-- Bits as the numbers 0 and 1. -/
def numbers (b : Bits) : List Int := b.map fun x => if x then 1 else 0

theorem bit_land (v : Int) (k : Nat) (hk : k < 6) : Int.land v ((2 ^ k : Nat) : Int) >>> k = if v.testBit k then 1 else 0 := by
  rcases v with n | n
  · have h : Int.land (Int.ofNat n) ((2 ^ k : Nat) : Int) >>> k = ((n &&& 2 ^ k) >>> k : Nat) := rfl
    rw [h, Nat.and_two_pow, Nat.shiftRight_eq_div_pow, Nat.mul_div_cancel _ (Nat.two_pow_pos k)]
    have : (Int.ofNat n).testBit k = n.testBit k := rfl
    rw [this]
    cases n.testBit k <;> rfl
  · have h : Int.land (Int.negSucc n) ((2 ^ k : Nat) : Int) >>> k = ((Nat.ldiff (2 ^ k) n) >>> k : Nat) := rfl
    have h2 : Nat.ldiff (2 ^ k) n = (!n.testBit k).toNat * 2 ^ k := by
      apply Nat.eq_of_testBit_eq
      intro i
      rw [Nat.testBit_ldiff, Nat.testBit_two_pow]
      by_cases hi : k = i
      · subst hi
        cases n.testBit k <;> simp [Nat.testBit_two_pow]
      · cases n.testBit k <;> simp [Nat.testBit_two_pow, hi]
    have : (Int.negSucc n).testBit k = !n.testBit k := rfl
    rw [h, h2, Nat.shiftRight_eq_div_pow, Nat.mul_div_cancel _ (Nat.two_pow_pos k), this]
    cases n.testBit k <;> rfl

theorem shift_bit (v : Int) (k : Nat) : (v >>> (1 : Nat)).testBit k = v.testBit (k + 1) := by
  rcases v with n | n
  · have h : (Int.ofNat n >>> (1 : Nat)).testBit k = (n >>> (1 : Nat)).testBit k := rfl
    rw [h, Nat.testBit_shiftRight, Nat.add_comm]; rfl
  · have h : (Int.negSucc n >>> (1 : Nat)).testBit k = !(n >>> (1 : Nat)).testBit k := rfl
    rw [h, Nat.testBit_shiftRight, Nat.add_comm]; rfl

theorem encA_bits (v : Int) (b : Bool) : encAI v b = if b ^^ v.testBit 4 ^^ v.testBit 3 ^^ v.testBit 1 ^^ v.testBit 0 then 1 else 0 := by
  unfold encAI
  have h4 := bit_land v 4 (by decide)
  have h3 := bit_land v 3 (by decide)
  have h1 := bit_land v 1 (by decide)
  have h0 := bit_land v 0 (by decide)
  norm_num at h4 h3 h1 h0
  rw [h4, h3, h1, h0]
  cases b <;> cases v.testBit 4 <;> cases v.testBit 3 <;> cases v.testBit 1 <;> cases v.testBit 0 <;> rfl

theorem encB_bits (v : Int) (b : Bool) : encBI v b = if b ^^ v.testBit 5 ^^ v.testBit 4 ^^ v.testBit 3 ^^ v.testBit 0 then 1 else 0 := by
  unfold encBI
  have h5 := bit_land v 5 (by decide)
  have h4 := bit_land v 4 (by decide)
  have h3 := bit_land v 3 (by decide)
  have h0 := bit_land v 0 (by decide)
  norm_num at h5 h4 h3 h0
  rw [h5, h4, h3, h0]
  cases b <;> cases v.testBit 5 <;> cases v.testBit 4 <;> cases v.testBit 3 <;> cases v.testBit 0 <;> rfl

/-- What the encoder remembers: position `j` is bit `j` of the register, and from position 6 on also the inputs. -/
def memory (v : Int) (x : List ℚ) (j : Nat) : Bool := v.testBit j || (decide (6 ≤ j) && (positive x).getD (j - 6) false)

theorem memory_cons (v : Int) (x : ℚ) (xs : List ℚ) (j : Nat) :
    memory (Int.lor (v >>> (1 : Nat)) (if decide (x > 0) then 0x20 else 0)) xs j = memory v (x :: xs) (j + 1) := by
  unfold memory positive
  rw [Int.testBit_lor, shift_bit]
  have h32 : ∀ c : Bool, (if c then (0x20 : Int) else 0).testBit j = (c && decide (j = 5)) := by
    intro c
    cases c
    · rw [if_neg (by decide)]
      show Nat.testBit 0 j = _
      simp
    · rw [if_pos rfl]
      show Nat.testBit (2 ^ 5) j = _
      rw [Nat.testBit_two_pow]
      simp [eq_comm]
  rw [h32]
  rcases Nat.lt_trichotomy j 5 with h | h | h
  · simp [show ¬ 6 ≤ j by omega, show ¬ 6 ≤ j + 1 by omega, show j ≠ 5 by omega]
  · subst h; simp
  · obtain ⟨i, rfl⟩ := Nat.exists_eq_add_of_le (show 6 ≤ j by omega)
    simp [show 6 + i + 1 - 6 = i + 1 by omega, show 6 + i ≠ 5 by omega, show 5 ≤ 6 + i by omega]

/-- **C129 (rate 1/2, any register).**  Whatever integer the register holds (`reset` takes any) and whatever numbers the array has: output `n` of the two generators is the sum modulo 2 of the
input and of what is remembered, where a memory cell that is reached by a bit of the seed beyond the sixth holds the logical or of that bit and the input. -/
theorem C129_half (v : Int) (x : List ℚ) :
    let r := (rateHalfSeqI v x).1
    r.1.length = x.length ∧ r.2.1.length = x.length ∧ r.2.2.length = 2 * x.length ∧
    (∀ k, (rateHalfSeqI v x).2.testBit k = memory v x (x.length + k)) ∧
    ∀ n (hn : n < x.length), let b := decide (0 < x[n])
      let m := fun k => memory v x (n + k)
      r.1[n]? = some (if b ^^ m 4 ^^ m 3 ^^ m 1 ^^ m 0 then 1 else 0) ∧ r.2.1[n]? = some (if b ^^ m 5 ^^ m 4 ^^ m 3 ^^ m 0 then 1 else 0) ∧
      r.2.2[2 * n]? = r.1[n]? ∧ r.2.2[2 * n + 1]? = r.2.1[n]? := by
  induction x generalizing v with
  | nil =>
    refine ⟨rfl, rfl, rfl, fun k => ?_, fun n hn => absurd hn (by simp)⟩
    simp [rateHalfSeqI, memory, positive]
  | cons x xs ih =>
    have hmc := memory_cons v x xs
    have e : rateHalfSeqI v (x :: xs) = ((encAI v (decide (x > 0)) :: (rateHalfSeqI (Int.lor (v >>> (1 : Nat)) (if decide (x > 0) then 0x20 else 0)) xs).1.1,
      encBI v (decide (x > 0)) :: (rateHalfSeqI (Int.lor (v >>> (1 : Nat)) (if decide (x > 0) then 0x20 else 0)) xs).1.2.1,
      encAI v (decide (x > 0)) :: encBI v (decide (x > 0)) :: (rateHalfSeqI (Int.lor (v >>> (1 : Nat)) (if decide (x > 0) then 0x20 else 0)) xs).1.2.2),
      (rateHalfSeqI (Int.lor (v >>> (1 : Nat)) (if decide (x > 0) then 0x20 else 0)) xs).2) := rfl
    generalize Int.lor (v >>> (1 : Nat)) (if decide (x > 0) then 0x20 else 0) = v' at e hmc
    obtain ⟨i1, i2, i3, i4, i5⟩ := ih v'
    rw [e]
    refine ⟨by simp [i1], by simp [i2], by simp [i3]; omega, fun k => ?_, fun n hn => ?_⟩
    · simp only
      rw [i4, hmc]
      congr 1; simp; omega
    · cases n with
      | zero =>
        have h6 : ∀ k < 6, memory v (x :: xs) (0 + k) = v.testBit k := by
          intro k hk
          unfold memory
          simp [show ¬ 6 ≤ k by omega]
        simp only [List.getElem_cons_zero, List.getElem?_cons_zero, Nat.mul_zero, List.getElem?_cons_succ, Nat.zero_add, true_and, and_true]
        rw [encA_bits, encB_bits]
        have h0 := h6 0 (by decide); have h1 := h6 1 (by decide); have h3 := h6 3 (by decide); have h4 := h6 4 (by decide); have h5 := h6 5 (by decide)
        simp only [Nat.zero_add] at h0 h1 h3 h4 h5
        rw [h0, h1, h3, h4, h5]
        exact ⟨rfl, rfl⟩
      | succ n =>
        have hn' : n < xs.length := by simpa using hn
        obtain ⟨j1, j2, j3, j4⟩ := i5 n hn'
        have hm : ∀ k, memory v (x :: xs) (n + 1 + k) = memory v' xs (n + k) := by
          intro k
          rw [hmc]; congr 1; omega
        simp only [List.getElem_cons_succ, List.getElem?_cons_succ, hm]
        rw [show 2 * (n + 1) = 2 * n + 1 + 1 by omega]
        simp only [List.getElem?_cons_succ]
        exact ⟨j1, j2, j3, j4⟩

/-- On natural registers this is the encoder of the modulators (`Model/RateEncoder.lean`), applied to the bits 'greater than 0'. -/
theorem C129_nat (v : Nat) (x : List ℚ) :
    rateHalfSeqI v x = ((numbers (rateHalfSeq v (positive x)).1, numbers (rateHalfSeq v (positive x)).2.1, numbers (rateHalfOut v (positive x))), (rateHalfState v (positive x) : Int)) := by
  have hA : ∀ (v : Nat) (b : Bool), encAI v b = if (encA v b == 1) then 1 else 0 := by
    intro v b
    have e : encAI v b = ((encA v b : Nat) : Int) := rfl
    have h := encA_bits v b
    rw [e] at h ⊢
    generalize encA v b = a at *
    split at h
    · rw [show a = 1 by omega]; rfl
    · rw [show a = 0 by omega]; rfl
  have hB : ∀ (v : Nat) (b : Bool), encBI v b = if (encB v b == 1) then 1 else 0 := by
    intro v b
    have e : encBI v b = ((encB v b : Nat) : Int) := rfl
    have h := encB_bits v b
    rw [e] at h ⊢
    generalize encB v b = a at *
    split at h
    · rw [show a = 1 by omega]; rfl
    · rw [show a = 0 by omega]; rfl
  induction x generalizing v with
  | nil => rfl
  | cons q x ih =>
    have hs : Int.lor ((v : Int) >>> (1 : Nat)) (if decide (q > 0) then 0x20 else 0) = ((encStep v (decide (q > 0)) : Nat) : Int) := by
      unfold encStep
      cases decide (q > 0) <;> rfl
    have e : rateHalfSeqI v (q :: x) = ((encAI v (decide (q > 0)) :: (rateHalfSeqI (Int.lor ((v : Int) >>> (1 : Nat)) (if decide (q > 0) then 0x20 else 0)) x).1.1,
      encBI v (decide (q > 0)) :: (rateHalfSeqI (Int.lor ((v : Int) >>> (1 : Nat)) (if decide (q > 0) then 0x20 else 0)) x).1.2.1,
      encAI v (decide (q > 0)) :: encBI v (decide (q > 0)) :: (rateHalfSeqI (Int.lor ((v : Int) >>> (1 : Nat)) (if decide (q > 0) then 0x20 else 0)) x).1.2.2),
      (rateHalfSeqI (Int.lor ((v : Int) >>> (1 : Nat)) (if decide (q > 0) then 0x20 else 0)) x).2) := rfl
    rw [e, hs, ih, hA, hB]
    rfl

/-- **C129 (constructor).**  Any integer seed counts modulo 64. -/
theorem C129_seed (s : Int) : rateHalfInitI s = ((rateHalfInit (s % 64).toNat : Nat) : Int) ∧ rateHalfInitI s = s % 64 := by
  have h1 : ∀ n : Nat, n &&& 0x3F = n % 64 := fun n => Nat.and_two_pow_sub_one_eq_mod n 6
  have key : rateHalfInitI s = s % 64 := by
    rcases s with n | n
    · have h : rateHalfInitI (Int.ofNat n) = ((n &&& 0x3F : Nat) : Int) := rfl
      rw [h, h1]; simp
    · have h : rateHalfInitI (Int.negSucc n) = ((Nat.ldiff 0x3F n : Nat) : Int) := rfl
      have h2 : Nat.ldiff 0x3F n = 63 - n % 64 := by
        have e : Nat.ldiff 0x3F n = Nat.ldiff 0x3F (n % 64) := by
          apply Nat.eq_of_testBit_eq
          intro i
          rw [Nat.testBit_ldiff, Nat.testBit_ldiff, ← h1 n, Nat.testBit_and, show (0x3F : Nat) = 2 ^ 6 - 1 from rfl, Nat.testBit_two_pow_sub_one]
          by_cases hi : i < 6 <;> simp [hi]
        rw [e]
        have all : ∀ m : Fin 64, Nat.ldiff 0x3F m.val = 63 - m.val := by decide +kernel
        exact all ⟨n % 64, Nat.mod_lt _ (by decide)⟩
      rw [h, h2]; omega
  refine ⟨?_, key⟩
  have : rateHalfInit (s % 64).toNat = (s % 64).toNat := by
    unfold rateHalfInit
    rw [h1]; omega
  rw [key, this]; omega

/-- The loop over rows of three. -/
theorem rows_eq (rows : List (List ℚ)) (h3 : ∀ b ∈ rows, b.length = 3) (A0 B0 : List Int) (v : Int) :
    let x := rows.flatten
    let r := rateHalfSeqI v x
    (rate34RowsI A0 B0 v rows).2 = r.2 ∧
    (rate34RowsI A0 B0 v rows).1.1 = (if rows = [] then A0 else r.1.1.drop (x.length - 3)) ∧
    (rate34RowsI A0 B0 v rows).1.2.1 = (if rows = [] then B0 else r.1.2.1.drop (x.length - 3)) ∧
    (rate34RowsI A0 B0 v rows).1.2.2.length = 4 * rows.length ∧
    ∀ i < rows.length, (rate34RowsI A0 B0 v rows).1.2.2[4 * i]? = r.1.1[3 * i]? ∧ (rate34RowsI A0 B0 v rows).1.2.2[4 * i + 1]? = r.1.2.1[3 * i]? ∧
      (rate34RowsI A0 B0 v rows).1.2.2[4 * i + 2]? = r.1.1[3 * i + 1]? ∧ (rate34RowsI A0 B0 v rows).1.2.2[4 * i + 3]? = r.1.2.1[3 * i + 2]? := by
  induction rows generalizing A0 B0 v with
  | nil => exact ⟨rfl, rfl, rfl, rfl, fun i hi => absurd hi (by simp)⟩
  | cons row rows ih =>
    obtain ⟨a, b, c, rfl⟩ : ∃ a b c, row = [a, b, c] := by
      have := h3 row (by simp)
      match row, this with
      | [a, b, c], _ => exact ⟨a, b, c, rfl⟩
    have h3' : ∀ b ∈ rows, b.length = 3 := fun b hb => h3 b (by simp [hb])
    have hl : rows.flatten.length = 3 * rows.length := by
      clear ih h3
      induction rows with
      | nil => rfl
      | cons r rows ih => rw [List.flatten_cons, List.length_append, ih fun b hb => h3' b (by simp [hb]), h3' r (by simp), List.length_cons]; omega
    -- three steps of the rate 1/2 encoder
    obtain ⟨A3, B3, v3, e1, e2⟩ : ∃ (A3 B3 : Int × Int × Int) (v3 : Int),
        (∀ y, rateHalfSeqI v (a :: b :: c :: y) = ((A3.1 :: A3.2.1 :: A3.2.2 :: (rateHalfSeqI v3 y).1.1, B3.1 :: B3.2.1 :: B3.2.2 :: (rateHalfSeqI v3 y).1.2.1,
          A3.1 :: B3.1 :: A3.2.1 :: B3.2.1 :: A3.2.2 :: B3.2.2 :: (rateHalfSeqI v3 y).1.2.2), (rateHalfSeqI v3 y).2)) ∧
        rate34RowsI A0 B0 v ([a, b, c] :: rows) = (((rate34RowsI [A3.1, A3.2.1, A3.2.2] [B3.1, B3.2.1, B3.2.2] v3 rows).1.1,
          (rate34RowsI [A3.1, A3.2.1, A3.2.2] [B3.1, B3.2.1, B3.2.2] v3 rows).1.2.1,
          A3.1 :: B3.1 :: A3.2.1 :: B3.2.2 :: (rate34RowsI [A3.1, A3.2.1, A3.2.2] [B3.1, B3.2.1, B3.2.2] v3 rows).1.2.2),
          (rate34RowsI [A3.1, A3.2.1, A3.2.2] [B3.1, B3.2.1, B3.2.2] v3 rows).2) := by
      let s1 := rateHalfSingleI v a
      let s2 := rateHalfSingleI s1.2 b
      let s3 := rateHalfSingleI s2.2 c
      exact ⟨(s1.1.1, s2.1.1, s3.1.1), (s1.1.2, s2.1.2, s3.1.2), s3.2, fun y => rfl, rfl⟩
    obtain ⟨i1, i2, i3, i4, i5⟩ := ih h3' [A3.1, A3.2.1, A3.2.2] [B3.1, B3.2.1, B3.2.2] v3
    simp only [e2, List.flatten_cons, List.cons_append, List.nil_append, e1]
    obtain ⟨l1, l2, -⟩ := C129_half v3 rows.flatten
    refine ⟨i1, ?_, ?_, by simp [i4]; omega, fun i hi => ?_⟩
    · rw [if_neg (List.cons_ne_nil _ _), i2]
      by_cases hr : rows = []
      · subst hr; rfl
      · have : 1 ≤ rows.length := List.length_pos_iff.2 hr
        rw [if_neg hr, show (a :: b :: c :: rows.flatten).length - 3 = rows.flatten.length - 3 + 1 + 1 + 1 by simp only [List.length_cons]; omega]
        rfl
    · rw [if_neg (List.cons_ne_nil _ _), i3]
      by_cases hr : rows = []
      · subst hr; rfl
      · have : 1 ≤ rows.length := List.length_pos_iff.2 hr
        rw [if_neg hr, show (a :: b :: c :: rows.flatten).length - 3 = rows.flatten.length - 3 + 1 + 1 + 1 by simp only [List.length_cons]; omega]
        rfl
    · cases i with
      | zero => exact ⟨rfl, rfl, rfl, rfl⟩
      | succ i =>
        obtain ⟨j1, j2, j3, j4⟩ := i5 i (by simpa using hi)
        rw [show 4 * (i + 1) + 1 = 4 * i + 1 + 1 + 1 + 1 + 1 by omega, show 4 * (i + 1) + 2 = 4 * i + 2 + 1 + 1 + 1 + 1 by omega,
          show 4 * (i + 1) + 3 = 4 * i + 3 + 1 + 1 + 1 + 1 by omega, show 4 * (i + 1) = 4 * i + 1 + 1 + 1 + 1 by omega,
          show 3 * (i + 1) + 1 = 3 * i + 1 + 1 + 1 + 1 by omega, show 3 * (i + 1) + 2 = 3 * i + 2 + 1 + 1 + 1 by omega, show 3 * (i + 1) = 3 * i + 1 + 1 + 1 by omega]
        exact ⟨j1, j2, j3, j4⟩

/-- **C129 (rate 3/4).**  Errors leave the encoder as it is; otherwise `sequence` returns the `A` and the `B` of the last three inputs and, as third value, of each three inputs `A0 B0 A1 B2`. -/
theorem C129_three_quarter (v : Int) (x : List ℚ) :
    (x.length % 3 ≠ 0 → (rate34SeqI x).call v = (.error .ValueError, v)) ∧
    (x = [] → (rate34SeqI x).call v = (.error .UnboundLocalError, v)) ∧
    (x.length % 3 = 0 → x ≠ [] → ∃ out, let A := (rateHalfSeqI v x).1.1
      let B := (rateHalfSeqI v x).1.2.1
      (rate34SeqI x).call v = (.ok (A.drop (x.length - 3), B.drop (x.length - 3), out), (rateHalfSeqI v x).2) ∧ 3 * out.length = 4 * x.length ∧
      ∀ i < x.length / 3, out[4 * i]? = A[3 * i]? ∧ out[4 * i + 1]? = B[3 * i]? ∧ out[4 * i + 2]? = A[3 * i + 1]? ∧ out[4 * i + 3]? = B[3 * i + 2]?) := by
  refine ⟨fun h => ?_, fun h => ?_, fun h h0 => ?_⟩
  · unfold rate34SeqI
    rw [if_pos (by omega)]; rfl
  · subst h; rfl
  · have hfl := chunks_flatten (n := 3) (by decide) x h
    obtain ⟨r1, r2, r3, r4, r5⟩ := rows_eq (chunks 3 x) (fun b hb => mem_chunks_length hb) [] [] v
    have hne : chunks 3 x ≠ [] := fun hc => h0 (by rw [← hfl, hc]; rfl)
    simp only [hfl, chunks_length] at r1 r2 r3 r4 r5
    rw [if_neg hne] at r2 r3
    refine ⟨(rate34RowsI [] [] v (chunks 3 x)).1.2.2, ?_, by rw [r4]; omega, r5⟩
    unfold rate34SeqI
    rw [if_neg (by omega), if_neg h0, ← r1, ← r2, ← r3]
    rfl

/-- **C129 (negative reset).**  After `reset` with a negative number no less than `-2^k`, `k` inputs later the memory is all ones for good and both outputs are the input. -/
theorem C129_stuck (s : Int) (hs : s < 0) (k : Nat) (hk : -2 ^ k ≤ s) (x : List ℚ) (n : Nat) (hn : n < x.length) (hkn : k ≤ n) :
    (rateHalfSeqI s x).1.1[n]? = some (if 0 < x[n] then 1 else 0) ∧ (rateHalfSeqI s x).1.2.1[n]? = some (if 0 < x[n] then 1 else 0) := by
  have hm : ∀ j, memory s x (n + j) = true := by
    intro j
    have : s.testBit (n + j) = true := by
      rcases s with m | m
      · exact absurd hs (by simp)
      · show (!m.testBit (n + j)) = true
        have hm : m < 2 ^ k := by
          have : ((m : Nat) : Int) < ((2 ^ k : Nat) : Int) := by push_cast; omega
          exact_mod_cast this
        rw [Nat.testBit_lt_two_pow (hm.trans_le (Nat.pow_le_pow_right (by decide) (by omega)))]; rfl
    unfold memory
    rw [this]; rfl
  obtain ⟨-, -, -, -, h⟩ := C129_half s x
  obtain ⟨h1, h2, -, -⟩ := h n hn
  simp only [hm] at h1 h2
  rw [h1, h2]
  by_cases hx : 0 < x[n] <;> simp [hx]

/-! Non-vacuity: an array of floats, a seed of -1, a register of 255 (`reset(255)` is not `reset(63)`), and the three values of the rate 3/4 encoder. -/
example : rateHalfInitI (-1) = 63 ∧ rateHalfInitI (-2) = 62 := ⟨by rw [(C129_seed _).2]; rfl, by rw [(C129_seed _).2]; rfl⟩
example : rateHalfSeqI 63 [1, 0, 1 / 2, -3] = rateHalfSeqI 63 [1, 0, 1, 0] ∧ (rateHalfSeqI 255 [1, 0, 1, 0]).1 ≠ (rateHalfSeqI 63 [1, 0, 1, 0]).1 ∧
    (rate34SeqI [1, 0, 1, 1, 1, 0]).call 0 = (.ok ([0, 0, 1], [1, 1, 1], [1, 1, 0, 0, 0, 1, 0, 1]), 29) := by decide +kernel

example : (-1 : Int) < 0 ∧ -2 ^ 0 ≤ (-1 : Int) := by decide

end SunPhy.C129
