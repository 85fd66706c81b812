import Verif.Proofs.Conv
/-
C10 — the rate 1/2 encoder is the K=7 (133,171) convolutional code.
-/
namespace SunPhy.C10
open SunPhy Spec

/-- Delays of the generator 133 (octal) and 171 (octal). -/
def gA : List Nat := [0, 2, 3, 5, 6]
def gB : List Nat := [0, 1, 2, 3, 6]

theorem delayed_past (past x : Bits) (j : Nat) :
    delayed (past.reverse ++ x) (past.length + 0) (j + 1) = past.getD j false := by
  unfold delayed
  by_cases h : j < past.length
  · rw [if_pos (by omega), List.getD_eq_getElem?_getD, List.getElem?_append_left (by simp; omega),
      List.getElem?_reverse (by omega), List.getD_eq_getElem?_getD]
    congr 2; omega
  · rw [if_neg (by omega)]
    simp [List.getElem?_eq_none (show past.length ≤ j by omega)]

theorem delayed_now (past x : Bits) (b : Bool) : delayed (past.reverse ++ b :: x) (past.length + 0) 0 = b := by
  unfold delayed
  simp

theorem out_taps (x : Bits) : ∀ (past : Bits) (i : Nat), i < x.length →
    (rateHalfOut (regOf past) x)[2 * i]? = some (tapSum gA (past.reverse ++ x) (past.length + i)) ∧
    (rateHalfOut (regOf past) x)[2 * i + 1]? = some (tapSum gB (past.reverse ++ x) (past.length + i)) := by
  induction x with
  | nil => intro past i h; simp at h
  | cons b x ih =>
    intro past i h
    rw [rateHalf_cons, encStep_regOf]
    cases i with
    | zero =>
      simp only [Nat.mul_zero, List.getElem?_cons_zero, Nat.zero_add, List.getElem?_cons_succ, Option.some.injEq]
      unfold tapSum gA gB
      simp only [List.map_cons, List.map_nil, List.foldr_cons, List.foldr_nil, delayed_past, delayed_now]
      unfold regOf
      rw [encA_reg6, encB_reg6]
      generalize past.getD 0 false = p0
      generalize past.getD 1 false = p1
      generalize past.getD 2 false = p2
      generalize past.getD 4 false = p4
      generalize past.getD 5 false = p5
      clear ih h
      revert b p0 p1 p2 p4 p5
      decide
    | succ i =>
      have := ih (b :: past) i (by simpa using h)
      rw [show 2 * (i + 1) = 2 * i + 1 + 1 by omega]
      simp only [List.getElem?_cons_succ]
      rw [show past.length + (i + 1) = (b :: past).length + i by simp; omega]
      simpa using this

/-- **C10.**  From the zero register, code bit `2n` is `x[n]+x[n-2]+x[n-3]+x[n-5]+x[n-6]` and code bit `2n+1` is
`x[n]+x[n-1]+x[n-2]+x[n-3]+x[n-6]` modulo 2, with zeros before the start; the output is twice as long as the input. -/
theorem C10_taps (x : Bits) :
    (rateHalfOut (rateHalfInit 0) x).length = 2 * x.length ∧
    ∀ n, n < x.length →
      (rateHalfOut (rateHalfInit 0) x)[2 * n]? = some (tapSum [0, 2, 3, 5, 6] x n) ∧
      (rateHalfOut (rateHalfInit 0) x)[2 * n + 1]? = some (tapSum [0, 1, 2, 3, 6] x n) := by
  refine ⟨rateHalfOut_length _ _, fun n h => ?_⟩
  have := out_taps x [] n h
  simp only [List.reverse_nil, List.nil_append, List.length_nil, Nat.zero_add] at this
  exact this

/-- The separate arrays `A` and `B` returned by the encoder are the even and odd code bits. -/
theorem C10_AB (v : Nat) (x : Bits) :
    (rateHalfSeq v x).1.length = x.length ∧ (rateHalfSeq v x).2.1.length = x.length ∧
    ∀ n, (rateHalfSeq v x).1[n]? = (rateHalfOut v x)[2 * n]? ∧ (rateHalfSeq v x).2.1[n]? = (rateHalfOut v x)[2 * n + 1]? := by
  induction x generalizing v with
  | nil => simp [rateHalfSeq, rateHalfOut]
  | cons b x ih =>
    obtain ⟨h1, h2, h3⟩ := ih (encStep v b)
    rw [rateHalf_cons]
    simp only [rateHalfSeq, rateHalfSingle, List.length_cons, h1, h2, true_and]
    intro n
    cases n with
    | zero => simp
    | succ n => rw [show 2 * (n + 1) = 2 * n + 1 + 1 by omega]; simpa using h3 n

theorem seed_reg (s : Nat) : rateHalfInit s = regOf (((List.range 6).map s.testBit).reverse) := by
  have h : rateHalfInit s = s % 64 := by unfold rateHalfInit; exact Nat.and_two_pow_sub_one_eq_mod s 6
  have hb : ((List.range 6).map s.testBit) = (List.range 6).map (s % 64).testBit := by
    apply List.map_congr_left
    intro i hi
    rw [show (64 : Nat) = 2 ^ 6 from rfl, Nat.testBit_mod_two_pow]
    simp [List.mem_range.1 hi]
  rw [h, hb]
  have hl : s % 64 < 64 := Nat.mod_lt _ (by decide)
  generalize s % 64 = v at hl
  clear h hb
  revert v
  decide

/-- **C10, other seeds.**  An encoder built with a seed works as if the six lowest bits of the seed, least significant first, had been
encoded just before the input: only these six bits matter. -/
theorem C10_seed (s : Nat) (x : Bits) :
    (rateHalfOut (rateHalfInit s) x).length = 2 * x.length ∧
    ∀ n, n < x.length →
      (rateHalfOut (rateHalfInit s) x)[2 * n]? = some (tapSum [0, 2, 3, 5, 6] ((List.range 6).map s.testBit ++ x) (6 + n)) ∧
      (rateHalfOut (rateHalfInit s) x)[2 * n + 1]? = some (tapSum [0, 1, 2, 3, 6] ((List.range 6).map s.testBit ++ x) (6 + n)) := by
  refine ⟨rateHalfOut_length _ _, fun n h => ?_⟩
  rw [seed_reg]
  have := out_taps x (((List.range 6).map s.testBit).reverse) n h
  rw [List.reverse_reverse] at this
  simpa [gA, gB] using this

theorem out_append (x y : Bits) : ∀ v, rateHalfOut v (x ++ y) = rateHalfOut v x ++ rateHalfOut (rateHalfState v x) y := by
  induction x with
  | nil => intro v; rfl
  | cons b x ih =>
    intro v
    show (encA v b == 1) :: (encB v b == 1) :: rateHalfOut (encStep v b) (x ++ y) = _
    rw [ih]; rfl

theorem state_zeros (n : Nat) : ∀ v, rateHalfState v (List.replicate n false) = v >>> n := by
  induction n with
  | zero => intro v; rfl
  | succ n ih =>
    intro v
    show rateHalfState (encStep v false) (List.replicate n false) = _
    rw [ih, show encStep v false = v >>> 1 by simp [encStep], ← Nat.shiftRight_add, Nat.add_comm]

theorem observable : ∀ v < 64, ∀ w < 64, rateHalfOut v (List.replicate 6 false) = rateHalfOut w (List.replicate 6 false) → v = w := by
  decide +kernel

/-- **C10 (reset).**  Whatever was encoded before, `reset()` brings the encoder to the state of a new one, and `reset(seed)` to one that
encodes like a new one built with that seed exactly when the seed has at most six bits (the constructor keeps the six lowest bits, `reset`
keeps all of them, and the others reach the register later). -/
theorem C10_reset (v : Nat) :
    rateHalfReset v = rateHalfInit ∧ rateHalfInit = 0 ∧
    ∀ s, (∀ x, rateHalfOut (rateHalfReset v s) x = rateHalfOut (rateHalfInit s) x) ↔ s < 64 := by
  refine ⟨rfl, rfl, fun s => ⟨fun h => ?_, fun h x => ?_⟩⟩
  · by_contra hs
    have hm : rateHalfInit s = s % 64 := Nat.and_two_pow_sub_one_eq_mod s 6
    have hlog : 6 ≤ Nat.log2 s := (Nat.le_log2 (by omega)).2 (by omega)
    have h1 : 2 ^ Nat.log2 s ≤ s := Nat.log2_self_le (by omega)
    have h2 : s < 2 ^ (Nat.log2 s + 1) := Nat.lt_log2_self
    have e := h (List.replicate (Nat.log2 s - 5) false ++ List.replicate 6 false)
    rw [out_append, out_append, state_zeros, state_zeros] at e
    have e := (List.append_inj e (by simp [rateHalfOut_length])).2
    have eq : ∀ n, Nat.log2 s = n + 5 → (s >>> n) < 64 ∧ 32 ≤ s >>> n ∧ ((s % 64) >>> n) < 32 := by
      intro n hn
      have hn1 : 1 ≤ n := by omega
      rw [hn] at h1 h2
      rw [Nat.shiftRight_eq_div_pow, Nat.shiftRight_eq_div_pow]
      have p1 : 2 ^ (n + 5) = 2 ^ n * 32 := by rw [Nat.pow_add]
      have p2 : 2 ^ (n + 5 + 1) = 2 ^ n * 64 := by rw [show n + 5 + 1 = n + 6 by omega, Nat.pow_add]
      have hpos := Nat.two_pow_pos n
      refine ⟨(Nat.div_lt_iff_lt_mul hpos).2 (by rw [Nat.mul_comm]; omega), (Nat.le_div_iff_mul_le hpos).2 (by rw [Nat.mul_comm]; omega), ?_⟩
      have : 2 ≤ 2 ^ n := by calc 2 = 2 ^ 1 := rfl
        _ ≤ 2 ^ n := Nat.pow_le_pow_right (by omega) hn1
      rw [Nat.div_lt_iff_lt_mul hpos]
      have := Nat.mod_lt s (show 64 > 0 by decide)
      omega
    obtain ⟨g1, g2, g3⟩ := eq (Nat.log2 s - 5) (by omega)
    rw [hm] at e
    have := observable _ g1 _ (by omega) e
    omega
  · have : rateHalfReset v s = rateHalfInit s := ((Nat.and_two_pow_sub_one_eq_mod s 6).trans (Nat.mod_eq_of_lt h)).symm
    rw [this]

example : rateHalfOut (rateHalfReset 5 64) [false, false, false] ≠ rateHalfOut (rateHalfInit 64) [false, false, false] := by decide
example : rateHalfOut (rateHalfInit 0x65) [true, false] = rateHalfOut (rateHalfInit 0x25) [true, false] ∧
    rateHalfOut (rateHalfInit 0x25) [true, false] ≠ rateHalfOut (rateHalfInit 0x05) [true, false] := by decide
example : rateHalfOut (rateHalfInit 0) [true, false, false, false, false, false, false] =
    [true, true, false, true, true, true, true, true, false, false, true, false, true, true] := by decide
example : tapSum [0, 2, 3, 5, 6] [true, false, true] 2 = false := by decide

end SunPhy.C10
