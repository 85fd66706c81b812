import Verif.Proofs.OqpskCode
/-
C48 — bit differential encoding is reversible.
-/
namespace SunPhy.C48
open SunPhy

/-- Exclusive or of all the bits of a list. -/
def xorAll (l : Bits) : Bool := l.foldr xor false

theorem from0 (m : Bits) : ∀ (k : Nat) (e : Bool) (i : Nat), i < m.length →
    (bdeFrom 0 k e m)[i]? = some (e ^^ xorAll (m.take (i + 1))) := by
  induction m with
  | nil => intro k e i h; simp at h
  | cons a m ih =>
    intro k e i h
    simp only [bdeFrom, show ¬ (0 > 0 ∧ k % 0 = 0) by omega, if_false]
    cases i with
    | zero => simp [xorAll, Bool.xor_comm]
    | succ i =>
      rw [List.getElem?_cons_succ, ih _ _ i (by simpa using h)]
      simp [xorAll, Bool.xor_comm, Bool.xor_left_comm, Bool.xor_assoc]

/-- **C48 (running xor).**  Output `i` is the exclusive or of the initial state and the message bits up to and including `i`. -/
theorem C48_running_xor (m : Bits) (e : Bool) :
    (bde m e).length = m.length ∧ ∀ i, i < m.length → (bde m e)[i]? = some (e ^^ xorAll (m.take (i + 1))) :=
  ⟨bde_length _ _ _, fun i h => from0 m 0 e i h⟩

/-- **C48 (recovery).**  Xoring each output with its predecessor (the initial state for the first) restores the message. -/
theorem C48_recover (m : Bits) (e : Bool) : List.zipWith xor (e :: bde m e) (bde m e) = m := by
  unfold bde
  suffices ∀ k, List.zipWith xor (e :: bdeFrom 0 k e m) (bdeFrom 0 k e m) = m from this 0
  intro k
  induction m generalizing e k with
  | nil => rfl
  | cons a m ih =>
    simp only [bdeFrom]
    rw [List.zipWith_cons_cons]
    congr 1
    · rw [if_neg (by omega)]
      cases e <;> cases a <;> rfl
    · exact ih _ _

/-- **C48 (injective).** -/
theorem C48_injective (m m' : Bits) (e : Bool) (h : bde m e = bde m' e) : m = m' := by
  rw [← C48_recover m e, ← C48_recover m' e, h]

theorem fromM (M : Nat) (hM : 0 < M) (m : Bits) : ∀ (k : Nat) (e : Bool) (i : Nat), i < m.length →
    (bdeFrom M k e m)[i]? = some ((if (k + i) / M * M < k then e else false) ^^
      xorAll ((m.take (i + 1)).drop ((k + i) / M * M - k))) := by
  induction m with
  | nil => intro k e i h; simp at h
  | cons a m ih =>
    intro k e i h
    simp only [bdeFrom]
    cases i with
    | zero =>
      simp only [List.getElem?_cons_zero, Nat.add_zero, Nat.zero_add, List.take_succ_cons, List.take_zero]
      have hd := Nat.div_add_mod k M
      have hm := Nat.mod_lt k hM
      rw [Nat.mul_comm] at hd
      by_cases h0 : k % M = 0
      · rw [if_pos ⟨hM, h0⟩, if_neg (by omega), show k / M * M - k = 0 by omega]
        simp [xorAll]
      · rw [if_neg (by omega), if_pos (by omega), show k / M * M - k = 0 by omega]
        simp [xorAll, Bool.xor_comm]
    | succ i =>
      rw [List.getElem?_cons_succ, ih _ _ i (by simpa using h)]
      rw [show k + 1 + i = k + (i + 1) by omega]
      have hd := Nat.div_add_mod (k + (i + 1)) M
      have hm := Nat.mod_lt (k + (i + 1)) hM
      rw [Nat.mul_comm] at hd
      generalize hq : (k + (i + 1)) / M * M = q at *
      have hqM : q % M = 0 := by rw [← hq, Nat.mul_mod_left]
      rcases Nat.lt_trichotomy q k with hlt | heq | hgt
      · have : k % M ≠ 0 := by
          intro h0
          have h1 : k / M ≤ (k + (i + 1)) / M := Nat.div_le_div_right (by omega)
          have h2 : k / M * M = k := by have := Nat.div_add_mod k M; rw [Nat.mul_comm] at this; omega
          have h3 := Nat.mul_le_mul_right M h1
          omega
        rw [if_pos (show q < k + 1 by omega), if_pos hlt, if_neg (show ¬ (M > 0 ∧ k % M = 0) by omega), show q - (k + 1) = 0 by omega,
          show q - k = 0 by omega]
        simp [xorAll, Bool.xor_comm, Bool.xor_left_comm, Bool.xor_assoc]
      · subst heq
        rw [if_pos (show q < q + 1 by omega), if_neg (Nat.lt_irrefl q), if_pos (show M > 0 ∧ q % M = 0 from ⟨hM, hqM⟩), show q - (q + 1) = 0 by omega, Nat.sub_self]
        simp [xorAll]
      · rw [if_neg (show ¬ q < k + 1 by omega), if_neg (show ¬ q < k by omega), show q - k = (q - (k + 1)) + 1 by omega]
        simp [xorAll]

/-- **C48 (restart).**  With `M > 0` output `i` is the exclusive or of the message bits from the last multiple of `M` up to `i`;
the initial state has no effect. -/
theorem C48_restart (m : Bits) (e : Bool) (M : Nat) (hM : 0 < M) (i : Nat) (h : i < m.length) :
    (bde m e M)[i]? = some (xorAll ((m.take (i + 1)).drop (i / M * M))) := by
  have := fromM M hM m 0 e i h
  unfold bde
  rw [this, if_neg (by omega)]
  simp

example : bde [true, true, false, true] true = [false, true, true, false] ∧ bde [true, true, false, true] true 2 = [true, false, false, true] := by
  decide

end SunPhy.C48
