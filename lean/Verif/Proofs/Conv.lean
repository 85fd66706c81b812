import Verif.Model.RateEncoder
import Verif.Spec.Hamming
import Verif.Proofs.Lists
/-
Lemmas about the convolutional encoder of `Model/RateEncoder.lean`.
-/
namespace SunPhy
open Spec

/-- The register holding the six most recent bits, most recent in bit 5. -/
def reg6 (b0 b1 b2 b3 b4 b5 : Bool) : Nat :=
  b2n b0 * 32 + b2n b1 * 16 + b2n b2 * 8 + b2n b3 * 4 + b2n b4 * 2 + b2n b5

/-- The register after the given history (most recent bit first, zeros before). -/
def regOf (past : Bits) : Nat :=
  reg6 (past.getD 0 false) (past.getD 1 false) (past.getD 2 false) (past.getD 3 false) (past.getD 4 false)
    (past.getD 5 false)

theorem encStep_reg6 : ∀ b0 b1 b2 b3 b4 b5 b, encStep (reg6 b0 b1 b2 b3 b4 b5) b = reg6 b b0 b1 b2 b3 b4 := by
  decide +kernel

theorem encA_reg6 : ∀ b0 b1 b2 b3 b4 b5 b, (encA (reg6 b0 b1 b2 b3 b4 b5) b == 1) = (b ^^ b1 ^^ b2 ^^ b4 ^^ b5) := by
  decide +kernel

theorem encB_reg6 : ∀ b0 b1 b2 b3 b4 b5 b, (encB (reg6 b0 b1 b2 b3 b4 b5) b == 1) = (b ^^ b0 ^^ b1 ^^ b2 ^^ b5) := by
  decide +kernel

theorem encStep_regOf (past : Bits) (b : Bool) : encStep (regOf past) b = regOf (b :: past) := encStep_reg6 ..

theorem encStep_lt : ∀ v < 64, ∀ b, encStep v b < 64 := by decide +kernel

theorem enc_le_one : ∀ v < 64, ∀ b, encA v b ≤ 1 ∧ encB v b ≤ 1 := by decide +kernel

theorem rateHalf_cons (v : Nat) (x : Bool) (xs : Bits) :
    rateHalfOut v (x :: xs) = (encA v x == 1) :: (encB v x == 1) :: rateHalfOut (encStep v x) xs := rfl

theorem rateHalf_nil (v : Nat) : rateHalfOut v [] = [] := rfl

theorem rateHalfState_cons (v : Nat) (x : Bool) (xs : Bits) :
    rateHalfState v (x :: xs) = rateHalfState (encStep v x) xs := rfl

theorem rateHalfState_eq_foldl (v : Nat) (x : Bits) : rateHalfState v x = x.foldl encStep v := by
  induction x generalizing v with
  | nil => rfl
  | cons a x ih => rw [rateHalfState_cons, ih]; rfl

theorem rateHalfState_append (v : Nat) (x y : Bits) :
    rateHalfState v (x ++ y) = rateHalfState (rateHalfState v x) y := by
  simp [rateHalfState_eq_foldl]

theorem rateHalfState_lt {v : Nat} (h : v < 64) (x : Bits) : rateHalfState v x < 64 := by
  induction x generalizing v with
  | nil => exact h
  | cons a x ih => rw [rateHalfState_cons]; exact ih (encStep_lt v h a)

theorem rateHalfOut_length (v : Nat) (x : Bits) : (rateHalfOut v x).length = 2 * x.length := by
  induction x generalizing v with
  | nil => rfl
  | cons a x ih => rw [rateHalf_cons]; simp only [List.length_cons, ih]; omega

theorem rateHalfOut_append (v : Nat) (x y : Bits) :
    rateHalfOut v (x ++ y) = rateHalfOut v x ++ rateHalfOut (rateHalfState v x) y := by
  induction x generalizing v with
  | nil => rfl
  | cons a x ih => rw [List.cons_append, rateHalf_cons, ih, rateHalf_cons, rateHalfState_cons]; rfl

theorem rateHalfState_reg (past x : Bits) : rateHalfState (regOf past) x = regOf (x.reverse ++ past) := by
  induction x generalizing past with
  | nil => rfl
  | cons a x ih => rw [rateHalfState_cons, encStep_regOf, ih]; simp

/-- Six zeros flush the register. -/
theorem flush6 : ∀ v < 64, rateHalfState v (List.replicate 6 false) = 0 := by decide +kernel

theorem zeros_keep_zero (n : Nat) : rateHalfState 0 (List.replicate n false) = 0 := by
  induction n with
  | zero => rfl
  | succ n ih => rw [List.replicate_succ, rateHalfState_cons]; exact ih

/-- Minimum weight of a trellis path from each register value to 0 (certificate, checked by `potHalf_ok`). -/
def potHalf : List Nat := [0, 2, 3, 3, 3, 5, 4, 4, 5, 3, 6, 6, 6, 4, 5, 5, 7, 5, 4, 4, 6, 6, 7, 7, 6, 6, 5, 5, 5, 7, 6, 6,
  8, 8, 7, 5, 5, 5, 6, 4, 7, 7, 6, 6, 6, 6, 7, 7, 7, 7, 6, 6, 6, 6, 5, 7, 6, 6, 7, 7, 7, 7, 6, 6]

/-- The same for the punctured code at row boundaries. -/
def pot34 : List Nat := [0, 2, 2, 2, 2, 4, 2, 2, 3, 2, 4, 4, 3, 3, 3, 3, 3, 3, 3, 3, 3, 3, 3, 3, 3, 3, 3, 3, 3, 4, 4, 4,
  4, 4, 3, 3, 3, 3, 3, 3, 4, 4, 3, 3, 5, 5, 3, 4, 4, 4, 3, 4, 3, 3, 2, 3, 4, 4, 2, 3, 4, 4, 4, 2]

theorem potHalf_ok : ∀ s < 64, ∀ b, potHalf.getD s 0 ≤ encA s b + encB s b + potHalf.getD (encStep s b) 0 := by
  decide +kernel

theorem potHalf_start : 10 ≤ encA 0 true + encB 0 true + potHalf.getD (encStep 0 true) 0 := by decide +kernel

theorem enc_linear : ∀ v < 64, ∀ v' < 64, ∀ b b', encA v b ^^^ encA v' b' = encA (v ^^^ v') (b ^^ b') ∧
    encB v b ^^^ encB v' b' = encB (v ^^^ v') (b ^^ b') ∧
    encStep v b ^^^ encStep v' b' = encStep (v ^^^ v') (b ^^ b') := by decide +kernel

theorem bit_diff {a b : Nat} (ha : a ≤ 1) (hb : b ≤ 1) : (if ((a == 1) ^^ (b == 1)) = true then 1 else 0) = a ^^^ b := by
  have : a = 0 ∨ a = 1 := by omega
  have : b = 0 ∨ b = 1 := by omega
  rcases ‹a = 0 ∨ a = 1› with rfl | rfl <;> rcases ‹b = 0 ∨ b = 1› with rfl | rfl <;> rfl

theorem hamming_cons (a b : Bool) (x y : Bits) :
    hamming (a :: x) (b :: y) = (if (a ^^ b) = true then 1 else 0) + hamming x y := by
  unfold hamming
  rw [List.zipWith_cons_cons, List.count_cons]
  cases a <;> cases b <;> simp [Nat.add_comm]

theorem hamming_append {a b : Bits} (h : a.length = b.length) (x y : Bits) :
    hamming (a ++ x) (b ++ y) = hamming a b + hamming x y := by
  unfold hamming; rw [List.zipWith_append h, List.count_append]

theorem hamming_self (a : Bits) : hamming a a = 0 := by
  induction a with
  | nil => rfl
  | cons x a ih => rw [hamming_cons, ih]; simp

theorem rateHalf_edge {v v' : Nat} (h : v < 64) (h' : v' < 64) (b b' : Bool) (x y : Bits) :
    hamming ((encA v b == 1) :: (encB v b == 1) :: x) ((encA v' b' == 1) :: (encB v' b' == 1) :: y) =
      encA (v ^^^ v') (b ^^ b') + encB (v ^^^ v') (b ^^ b') + hamming x y := by
  rw [hamming_cons, hamming_cons, bit_diff (enc_le_one v h b).1 (enc_le_one v' h' b').1,
    bit_diff (enc_le_one v h b).2 (enc_le_one v' h' b').2, (enc_linear v h v' h' b b').1, (enc_linear v h v' h' b b').2.1]
  omega

/-- From any two registers to a common one, the outputs differ at least as much as the certificate says. -/
theorem rateHalf_dist (x x' : Bits) : ∀ {v v' : Nat}, v < 64 → v' < 64 → x.length = x'.length →
    rateHalfState v x = rateHalfState v' x' →
    potHalf.getD (v ^^^ v') 0 ≤ hamming (rateHalfOut v x) (rateHalfOut v' x') := by
  induction x generalizing x' with
  | nil =>
    intro v v' _ _ hl hs
    cases x' with
    | nil =>
      have : v = v' := hs
      subst this
      rw [Nat.xor_self]; exact Nat.zero_le _
    | cons => simp at hl
  | cons b x ih =>
    intro v v' hv hv' hl hs
    cases x' with
    | nil => simp at hl
    | cons b' x' =>
      rw [rateHalf_cons, rateHalf_cons, rateHalf_edge hv hv']
      rw [rateHalfState_cons, rateHalfState_cons] at hs
      have i := ih x' (encStep_lt v hv b) (encStep_lt v' hv' b') (by simpa using hl) hs
      rw [(enc_linear v hv v' hv' b b').2.2] at i
      have := potHalf_ok (v ^^^ v') (Nat.xor_lt_two_pow (n := 6) hv hv') (b ^^ b')
      omega

theorem rateHalf_dist_start (x x' : Bits) : ∀ {v : Nat}, v < 64 → x.length = x'.length → x ≠ x' →
    rateHalfState v x = rateHalfState v x' → 10 ≤ hamming (rateHalfOut v x) (rateHalfOut v x') := by
  induction x generalizing x' with
  | nil =>
    intro v _ hl hne _
    cases x' with
    | nil => exact (hne rfl).elim
    | cons => simp at hl
  | cons b x ih =>
    intro v hv hl hne hs
    cases x' with
    | nil => simp at hl
    | cons b' x' =>
      rw [rateHalf_cons, rateHalf_cons, rateHalf_edge hv hv]
      rw [rateHalfState_cons, rateHalfState_cons] at hs
      by_cases hb : b = b'
      · subst hb
        have := ih x' (encStep_lt v hv b) (by simpa using hl) (by simpa using hne) hs
        omega
      · have i := rateHalf_dist x x' (encStep_lt v hv b) (encStep_lt v hv b') (by simpa using hl) hs
        rw [(enc_linear v hv v hv b b').2.2] at i
        have hx : (b ^^ b') = true := by cases b <;> cases b' <;> simp_all
        rw [hx, Nat.xor_self] at i ⊢
        have := potHalf_start
        omega

/-! ### Rate 3/4 -/

/-- The four code bits kept for a row. -/
def row34 (v : Nat) (a b c : Bool) : Bits :=
  [encA v a == 1, encB v a == 1, encA (encStep v a) b == 1, encB (encStep (encStep v a) b) c == 1]

def rowStep (v : Nat) (a b c : Bool) : Nat := encStep (encStep (encStep v a) b) c

theorem rate34Rows_cons (v : Nat) (a b c : Bool) (rows : List Bits) :
    rate34Rows v ([a, b, c] :: rows) = (row34 v a b c ++ (rate34Rows (rowStep v a b c) rows).1,
      (rate34Rows (rowStep v a b c) rows).2) := rfl

theorem bits3 {b : Bits} (h : b.length = 3) : ∃ b0 b1 b2, b = [b0, b1, b2] := by
  match b, h with
  | [b0, b1, b2], _ => exact ⟨b0, b1, b2, rfl⟩

theorem rowStep_lt {v : Nat} (h : v < 64) (a b c : Bool) : rowStep v a b c < 64 :=
  encStep_lt _ (encStep_lt _ (encStep_lt _ h _) _) _

/-- Row weight of the punctured code. -/
def w34 (s : Nat) (a b c : Bool) : Nat :=
  encA s a + encB s a + encA (encStep s a) b + encB (encStep (encStep s a) b) c

theorem pot34_ok : ∀ s < 64, ∀ a b c, pot34.getD s 0 ≤ w34 s a b c + pot34.getD (rowStep s a b c) 0 := by
  decide +kernel

theorem pot34_start : ∀ a b c, (a || b || c) = true → 5 ≤ w34 0 a b c + pot34.getD (rowStep 0 a b c) 0 := by
  decide +kernel

theorem rowStep_linear {v v' : Nat} (h : v < 64) (h' : v' < 64) (a b c a' b' c' : Bool) :
    rowStep v a b c ^^^ rowStep v' a' b' c' = rowStep (v ^^^ v') (a ^^ a') (b ^^ b') (c ^^ c') := by
  unfold rowStep
  have l1 := encStep_lt v h a
  have l1' := encStep_lt v' h' a'
  have l2 := encStep_lt _ l1 b
  have l2' := encStep_lt _ l1' b'
  rw [(enc_linear _ l2 _ l2' c c').2.2, (enc_linear _ l1 _ l1' b b').2.2, (enc_linear _ h _ h' a a').2.2]

theorem row34_edge {v v' : Nat} (h : v < 64) (h' : v' < 64) (a b c a' b' c' : Bool) (x y : Bits) :
    hamming (row34 v a b c ++ x) (row34 v' a' b' c' ++ y) =
      w34 (v ^^^ v') (a ^^ a') (b ^^ b') (c ^^ c') + hamming x y := by
  have l1 := encStep_lt v h a
  have l1' := encStep_lt v' h' a'
  have l2 := encStep_lt _ l1 b
  have l2' := encStep_lt _ l1' b'
  unfold row34 w34
  simp only [List.cons_append, List.nil_append]
  rw [hamming_cons, hamming_cons, hamming_cons, hamming_cons,
    bit_diff (enc_le_one v h a).1 (enc_le_one v' h' a').1, bit_diff (enc_le_one v h a).2 (enc_le_one v' h' a').2,
    bit_diff (enc_le_one _ l1 b).1 (enc_le_one _ l1' b').1, bit_diff (enc_le_one _ l2 c).2 (enc_le_one _ l2' c').2,
    (enc_linear _ h _ h' a a').1, (enc_linear _ h _ h' a a').2.1, (enc_linear _ l1 _ l1' b b').1,
    (enc_linear _ l2 _ l2' c c').2.1, (enc_linear _ l1 _ l1' b b').2.2, (enc_linear _ h _ h' a a').2.2]
  omega

theorem rate34_dist (r : List Bits) : ∀ (r' : List Bits) {v v' : Nat}, v < 64 → v' < 64 → r.length = r'.length →
    (∀ b ∈ r, b.length = 3) → (∀ b ∈ r', b.length = 3) → (rate34Rows v r).2 = (rate34Rows v' r').2 →
    pot34.getD (v ^^^ v') 0 ≤ hamming (rate34Rows v r).1 (rate34Rows v' r').1 := by
  induction r with
  | nil =>
    intro r' v v' _ _ hl _ _ hs
    cases r' with
    | nil =>
      have : v = v' := hs
      subst this
      rw [Nat.xor_self]; exact Nat.zero_le _
    | cons => simp at hl
  | cons b r ih =>
    intro r' v v' hv hv' hl h3 h3' hs
    cases r' with
    | nil => simp at hl
    | cons b' r' =>
      obtain ⟨a0, a1, a2, rfl⟩ := bits3 (h3 b (by simp))
      obtain ⟨c0, c1, c2, rfl⟩ := bits3 (h3' b' (by simp))
      rw [rate34Rows_cons, rate34Rows_cons] at hs ⊢
      rw [row34_edge hv hv']
      have i := ih r' (rowStep_lt hv a0 a1 a2) (rowStep_lt hv' c0 c1 c2) (by simpa using hl)
        (fun b hb => h3 b (by simp [hb])) (fun b hb => h3' b (by simp [hb])) hs
      rw [rowStep_linear hv hv'] at i
      have := pot34_ok (v ^^^ v') (Nat.xor_lt_two_pow (n := 6) hv hv') (a0 ^^ c0) (a1 ^^ c1) (a2 ^^ c2)
      omega

theorem rate34_dist_start (r : List Bits) : ∀ (r' : List Bits) {v : Nat}, v < 64 → r.length = r'.length →
    (∀ b ∈ r, b.length = 3) → (∀ b ∈ r', b.length = 3) → r ≠ r' → (rate34Rows v r).2 = (rate34Rows v r').2 →
    5 ≤ hamming (rate34Rows v r).1 (rate34Rows v r').1 := by
  induction r with
  | nil =>
    intro r' v _ hl _ _ hne _
    cases r' with
    | nil => exact (hne rfl).elim
    | cons => simp at hl
  | cons b r ih =>
    intro r' v hv hl h3 h3' hne hs
    cases r' with
    | nil => simp at hl
    | cons b' r' =>
      obtain ⟨a0, a1, a2, rfl⟩ := bits3 (h3 b (by simp))
      obtain ⟨c0, c1, c2, rfl⟩ := bits3 (h3' b' (by simp))
      rw [rate34Rows_cons, rate34Rows_cons] at hs ⊢
      rw [row34_edge hv hv]
      by_cases hb : a0 = c0 ∧ a1 = c1 ∧ a2 = c2
      · obtain ⟨rfl, rfl, rfl⟩ := hb
        have := ih r' (rowStep_lt hv a0 a1 a2) (by simpa using hl)
          (fun b hb => h3 b (by simp [hb])) (fun b hb => h3' b (by simp [hb])) (by simpa using hne) hs
        omega
      · have i := rate34_dist r r' (rowStep_lt hv a0 a1 a2) (rowStep_lt hv c0 c1 c2) (by simpa using hl)
          (fun b hb => h3 b (by simp [hb])) (fun b hb => h3' b (by simp [hb])) hs
        rw [rowStep_linear hv hv] at i
        rw [Nat.xor_self] at i ⊢
        have := pot34_start (a0 ^^ c0) (a1 ^^ c1) (a2 ^^ c2) (by
          cases a0 <;> cases c0 <;> cases a1 <;> cases c1 <;> cases a2 <;> cases c2 <;> simp_all)
        omega

theorem rate34Rows_state (r : List Bits) (v : Nat) (h3 : ∀ b ∈ r, b.length = 3) :
    (rate34Rows v r).2 = rateHalfState v r.flatten := by
  induction r generalizing v with
  | nil => rfl
  | cons b r ih =>
    obtain ⟨a0, a1, a2, rfl⟩ := bits3 (h3 b (by simp))
    rw [rate34Rows_cons]
    simp only [List.flatten_cons, rateHalfState_append]
    exact ih _ fun b hb => h3 b (by simp [hb])

theorem rate34Rows_length (r : List Bits) (v : Nat) (h3 : ∀ b ∈ r, b.length = 3) :
    (rate34Rows v r).1.length = 4 * r.length := by
  induction r generalizing v with
  | nil => rfl
  | cons b r ih =>
    obtain ⟨a0, a1, a2, rfl⟩ := bits3 (h3 b (by simp))
    rw [rate34Rows_cons]
    simp only [List.length_append, List.length_cons, ih _ fun b hb => h3 b (by simp [hb])]
    simp [row34]; omega

theorem rate34Rows_append (r s : List Bits) (v : Nat) :
    rate34Rows v (r ++ s) = ((rate34Rows v r).1 ++ (rate34Rows (rate34Rows v r).2 s).1, (rate34Rows (rate34Rows v r).2 s).2) := by
  induction r generalizing v with
  | nil => rfl
  | cons b r ih => simp only [List.cons_append, rate34Rows, ih]

theorem row34_inj : ∀ v < 64, ∀ a b c a' b' c', row34 v a b c = row34 v a' b' c' → a = a' ∧ b = b' ∧ c = c' := by
  decide +kernel

theorem rate34Rows_inj (r : List Bits) : ∀ (r' : List Bits) {v : Nat}, v < 64 →
    (∀ b ∈ r, b.length = 3) → (∀ b ∈ r', b.length = 3) → (rate34Rows v r).1 = (rate34Rows v r').1 → r = r' := by
  induction r with
  | nil =>
    intro r' v hv _ h3' he
    have := congrArg List.length he
    rw [rate34Rows_length r' v h3'] at this
    simp [rate34Rows] at this
    exact (List.eq_nil_of_length_eq_zero (by omega)).symm
  | cons b r ih =>
    intro r' v hv h3 h3' he
    cases r' with
    | nil =>
      have := congrArg List.length he
      rw [rate34Rows_length _ v h3] at this
      simp [rate34Rows] at this
    | cons b' r' =>
      obtain ⟨a0, a1, a2, rfl⟩ := bits3 (h3 b (by simp))
      obtain ⟨c0, c1, c2, rfl⟩ := bits3 (h3' b' (by simp))
      rw [rate34Rows_cons, rate34Rows_cons] at he
      obtain ⟨e1, e2⟩ := List.append_inj he (by simp [row34])
      obtain ⟨rfl, rfl, rfl⟩ := row34_inj v hv _ _ _ _ _ _ e1
      rw [ih r' (rowStep_lt hv a0 a1 a2) (fun b hb => h3 b (by simp [hb])) (fun b hb => h3' b (by simp [hb])) e2]

end SunPhy
