import Verif.Model.PolyFloat
import Verif.Props.C44
import Mathlib.Tactic.Linarith
import Mathlib.Tactic.NormNum
import Mathlib.Algebra.Order.Floor.Ring
/-
C94 — the header check sequences, computed by numpy in double precision, are exactly the integer ones: no rounding error can reach a header bit.
-/
namespace SunPhy.C94
open SunPhy

/-- The rounding leaves every integer of at most 53 bits unchanged. -/
def ExactInts (rn : ℚ → ℚ) : Prop := ∀ n : ℤ, |n| ≤ 2 ^ 53 → rn n = n

theorem log2_nat_le {n : ℕ} (h : n ≠ 0) (h2 : n ≤ 2 ^ 53) : n.log2 ≤ 53 := by
  have := Nat.log2_self_le h
  by_contra hc
  have : 2 ^ 54 ≤ 2 ^ n.log2 := Nat.pow_le_pow_right (by norm_num) (by omega)
  omega

/-- Double precision is exact on integers up to `2^53`. -/
theorem binary64_nat (n : ℕ) (h : n ≤ 2 ^ 53) : binary64 (n : ℚ) = n := by
  by_cases h0 : n = 0
  · subst h0; rfl
  have hp : (0 : ℚ) < n := by exact_mod_cast Nat.pos_of_ne_zero h0
  have hnn : (n : ℚ).num.toNat = n := by simp
  have hdd : (n : ℚ).den.log2 = 0 := by simp; rfl
  obtain ⟨a1, a2⟩ := C44.log2_bounds h0
  unfold binary64
  rw [if_neg (by linarith)]
  simp only [hnn, hdd]
  have e1 : (2 : ℚ) ^ 52 * 2 ^ ((n.log2 : ℤ) - ((0 : ℕ) : ℤ) - 52) ≤ n := by
    rw [show (2 : ℚ) ^ 52 = 2 ^ (52 : ℤ) by norm_num, ← zpow_add₀ (by norm_num)]
    convert a1 using 2
    push_cast; ring
  rw [if_pos e1]
  set e : ℤ := (n.log2 : ℤ) - ((0 : ℕ) : ℤ) - 52 with he
  have hpos : (0 : ℚ) < 2 ^ e := by positivity
  -- the scaled number is an integer
  have hint : ∃ z : ℤ, (n : ℚ) / 2 ^ e = z := by
    by_cases hl : n.log2 ≤ 52
    · refine ⟨(n : ℤ) * 2 ^ (52 - n.log2), ?_⟩
      rw [div_eq_iff hpos.ne']
      push_cast
      rw [mul_assoc, ← zpow_natCast (2 : ℚ) (52 - n.log2), ← zpow_add₀ (by norm_num)]
      have : ((52 - n.log2 : ℕ) : ℤ) + e = 0 := by rw [he]; push_cast; omega
      rw [this]; simp
    · have h53 : n.log2 = 53 := le_antisymm (log2_nat_le h0 h) (by omega)
      have := Nat.log2_self_le h0
      rw [h53] at this
      have hn : n = 2 ^ 53 := le_antisymm h this
      refine ⟨2 ^ 52, ?_⟩
      rw [div_eq_iff hpos.ne', he, h53, hn]
      norm_num
  obtain ⟨z, hz⟩ := hint
  rw [hz]
  have hf : (z : ℚ).floor = z := Rat.floor_intCast z
  rw [hf]
  simp only [sub_self]
  rw [if_pos (by norm_num), ← hz]
  field_simp

theorem float64_exact : ExactInts float64 := by
  intro n hn
  unfold float64
  rcases lt_or_ge n 0 with h | h
  · have hq : (n : ℚ) < 0 := by exact_mod_cast h
    rw [if_pos hq]
    have : (-(n : ℚ)) = ((-n).toNat : ℚ) := by
      have : ((-n).toNat : ℤ) = -n := Int.toNat_of_nonneg (by omega)
      rw [← Int.cast_natCast, this]; push_cast; rfl
    rw [this, binary64_nat _ (by rw [abs_of_neg h] at hn; omega), ← this]; ring
  · have hq : ¬ (n : ℚ) < 0 := by push Not; exact_mod_cast h
    rw [if_neg hq]
    have : (n : ℚ) = (n.toNat : ℚ) := by
      have : (n.toNat : ℤ) = n := Int.toNat_of_nonneg h
      rw [← Int.cast_natCast, this]
    rw [this, binary64_nat _ (by rw [abs_of_nonneg h] at hn; omega)]

/-! ### The floating point routines on integer coefficients -/

/-- Integer coefficients as rationals. -/
def up (l : List ℤ) : List ℚ := l.map fun (n : ℤ) => (n : ℚ)

/-- All coefficients are at most `M` in absolute value. -/
def Bd (M : ℤ) (l : List ℤ) : Prop := ∀ x ∈ l, |x| ≤ M

theorem Bd.mono {M N : ℤ} {l : List ℤ} (h : Bd M l) (hMN : M ≤ N) : Bd N l := fun x hx => (h x hx).trans hMN

theorem Bd.cons {M : ℤ} {x : ℤ} {l : List ℤ} (hx : |x| ≤ M) (h : Bd M l) : Bd M (x :: l) := by
  intro y hy
  rcases List.mem_cons.1 hy with rfl | hy
  · exact hx
  · exact h y hy

theorem Bd.head {M : ℤ} {x : ℤ} {l : List ℤ} (h : Bd M (x :: l)) : |x| ≤ M := h x (by simp)
theorem Bd.tail {M : ℤ} {x : ℤ} {l : List ℤ} (h : Bd M (x :: l)) : Bd M l := fun y hy => h y (by simp [hy])

theorem up_dropWhile (l : List ℤ) : (up l).dropWhile (· == 0) = up (l.dropWhile (· == 0)) := by
  induction l with
  | nil => rfl
  | cons x l ih =>
    by_cases hx : x = 0
    · subst hx
      simpa [up] using ih
    · have : ((x : ℚ) == 0) = false := by simpa using hx
      have h2 : (x == 0) = false := by simpa using hx
      simp [up, List.dropWhile, hx, h2]

theorem poly1d_up (l : List ℤ) : poly1dF (up l) = up (poly1d l) := by
  unfold poly1dF poly1d
  rw [up_dropWhile]
  cases l.dropWhile (· == 0) with
  | nil => simp [up]
  | cons x l => simp [up]

theorem Bd.poly1d {M : ℤ} (hM : 0 ≤ M) {l : List ℤ} (h : Bd M l) : Bd M (poly1d l) := by
  unfold SunPhy.poly1d
  split
  · intro x hx; simp at hx; subst hx; simpa using hM
  · intro x hx
    exact h x ((List.dropWhile_sublist _).subset hx)

theorem addFront_up (rn : ℚ → ℚ) (hr : ExactInts rn) {M N : ℤ} (hMN : M + N ≤ 2 ^ 53) (a b : List ℤ) (ha : Bd M a) (hb : Bd N b) :
    addFrontF rn (up a) (up b) = up (addFront a b) := by
  induction a generalizing b with
  | nil => simp [up, addFrontF, addFront]
  | cons x a ih =>
    cases b with
    | nil => simp [up, addFrontF, addFront]
    | cons y b =>
      have := ih b ha.tail hb.tail
      simp only [up, List.map_cons, addFrontF, addFront] at this ⊢
      rw [this]
      congr 1
      have h1 := hr (x + y) ((abs_add_le x y).trans ((add_le_add ha.head hb.head).trans hMN))
      push_cast at h1
      rw [h1]; push_cast; rfl

theorem Bd.addFront {M N : ℤ} (hM : 0 ≤ M) (hN : 0 ≤ N) (a b : List ℤ) (ha : Bd M a) (hb : Bd N b) : Bd (M + N) (addFront a b) := by
  induction a generalizing b with
  | nil => simp only [SunPhy.addFront]; exact hb.mono (by omega)
  | cons x a ih =>
    cases b with
    | nil => simp only [SunPhy.addFront]; exact ha.mono (by omega)
    | cons y b =>
      simp only [SunPhy.addFront]
      exact Bd.cons ((abs_add_le x y).trans (add_le_add ha.head hb.head)) (ih b ha.tail hb.tail)

/-- Products of 0/±1 polynomials: rounded convolution is exact and coefficients are at most the number of terms. -/
theorem convolve_up (rn : ℚ → ℚ) (hr : ExactInts rn) (a b : List ℤ) (ha : Bd 1 a) (hb : Bd 1 b) (hl : a.length ≤ 2 ^ 52) :
    convolveF rn (up a) (up b) = up (convolve a b) ∧ Bd a.length (convolve a b) := by
  induction a with
  | nil => simp [up, convolveF, convolve, Bd]
  | cons x a ih =>
    have hl' : a.length + 1 ≤ 2 ^ 52 := by simpa using hl
    obtain ⟨i1, i2⟩ := ih ha.tail (by omega)
    have hmul : ∀ y ∈ b, |x * y| ≤ 1 := fun y hy => by
      rw [abs_mul]
      have h1 := ha.head
      have h2 := hb y hy
      nlinarith [abs_nonneg x, abs_nonneg y]
    have e1 : (up b).map (fun y => rn ((x : ℚ) * y)) = up (b.map (x * ·)) := by
      simp only [up, List.map_map]
      apply List.map_congr_left
      intro y hy
      have := hr (x * y) ((hmul y hy).trans (by norm_num))
      push_cast at this
      simp only [Function.comp]
      rw [this]; push_cast; rfl
    have hB1 : Bd 1 (b.map (x * ·)) := by
      intro z hz
      obtain ⟨y, hy, rfl⟩ := List.mem_map.1 hz
      exact hmul y hy
    have hB2 : Bd (a.length : ℤ) (0 :: convolve a b) := Bd.cons (by simp) i2
    constructor
    · have : convolveF rn (up (x :: a)) (up b) = addFrontF rn ((up b).map fun y => rn ((x : ℚ) * y)) (0 :: convolveF rn (up a) (up b)) := rfl
      rw [this, e1, i1]
      have h0 : (0 : ℚ) :: up (convolve a b) = up (0 :: convolve a b) := by simp [up]
      rw [h0, addFront_up rn hr (M := 1) (N := a.length) (by push_cast; omega) _ _ hB1 hB2]
      rfl
    · have := Bd.addFront (by norm_num) (by omega) _ _ hB1 hB2
      rw [List.length_cons]
      exact this.mono (by push_cast; omega)

theorem poly1d_length_le (l : List ℤ) (h : l ≠ []) : (poly1d l).length ≤ l.length := by
  unfold poly1d
  split
  · have := List.length_pos_of_ne_nil h; simp; omega
  · exact (List.dropWhile_sublist _).length_le

theorem polymul_up (rn : ℚ → ℚ) (hr : ExactInts rn) (a b : List ℤ) (ha : Bd 1 a) (hb : Bd 1 b) (hl : a.length ≤ 2 ^ 52) :
    polymulF rn (up a) (up b) = up (polymul a b) := by
  unfold polymulF polymul
  rw [poly1d_up, poly1d_up]
  refine (convolve_up rn hr _ _ (ha.poly1d (by norm_num)) (hb.poly1d (by norm_num)) ?_).1
  by_cases h : a = []
  · subst h; simp [poly1d]
  · exact (poly1d_length_le a h).trans hl

theorem subPrefix_up (rn : ℚ → ℚ) (hr : ExactInts rn) {M : ℤ} (hM : 2 * M ≤ 2 ^ 53) (d : ℤ) (hd : |d| ≤ M) (r t : List ℤ) (hR : Bd M r) (ht : Bd 1 t) :
    subPrefixF rn d (up r) (up t) = up (subPrefix d r t) ∧ Bd (2 * M) (subPrefix d r t) := by
  have hM0 : 0 ≤ M := (abs_nonneg d).trans hd
  induction t generalizing r with
  | nil => exact ⟨by cases r <;> simp [up, subPrefixF, subPrefix], by cases r <;> simpa [subPrefix] using hR.mono (by omega)⟩
  | cons y t ih =>
    cases r with
    | nil => simp [up, subPrefixF, subPrefix, Bd]
    | cons x r =>
      obtain ⟨i1, i2⟩ := ih r hR.tail ht.tail
      have hdy : |d * y| ≤ M := by
        rw [abs_mul]
        have h2 := ht.head
        nlinarith [abs_nonneg d, abs_nonneg y]
      have hx : |x - d * y| ≤ 2 * M := (abs_sub x (d * y)).trans (by have := hR.head; omega)
      constructor
      · have e : subPrefixF rn d (up (x :: r)) (up (y :: t)) = rn ((x : ℚ) - rn ((d : ℚ) * (y : ℚ))) :: subPrefixF rn d (up r) (up t) := rfl
        have e1 : rn ((d : ℚ) * (y : ℚ)) = ((d * y : ℤ) : ℚ) := by
          have := hr (d * y) (by omega)
          push_cast at this ⊢; exact this
        have e2 : rn ((x : ℚ) - ((d * y : ℤ) : ℚ)) = ((x - d * y : ℤ) : ℚ) := by
          have := hr (x - d * y) (by omega)
          rw [← this]; push_cast; rfl
        rw [e, e1, e2, i1]; rfl
      · exact Bd.cons hx i2

theorem polydivLoop_up (rn : ℚ → ℚ) (hr : ExactInts rn) (vt : List ℤ) (hv : Bd 1 vt) (s : ℕ) (M : ℤ) (hM0 : 0 ≤ M) (hM : M * 2 ^ s ≤ 2 ^ 53) (r : List ℤ)
    (hR : Bd M r) : polydivLoopF rn (up (1 :: vt)) s (up r) = up (polydivLoop (1 :: vt) s r) := by
  induction s generalizing M r with
  | zero => cases r <;> simp [up, polydivLoopF, polydivLoop]
  | succ s ih =>
    cases r with
    | nil => simp [up, polydivLoopF, polydivLoop]
    | cons x r =>
      have h1 : rn (1 / 1) = 1 := by have := hr 1 (by norm_num); norm_num at this ⊢; exact this
      have hp : (1 : ℤ) ≤ 2 ^ s := one_le_pow₀ (by norm_num)
      have hM2 : 2 * M * 2 ^ s ≤ 2 ^ 53 := by rw [pow_succ] at hM; linarith
      have h2M : 2 * M ≤ 2 ^ 53 := by nlinarith
      have hx : rn (x : ℚ) = x := hr x (by have := hR.head; omega)
      obtain ⟨s1, s2⟩ := subPrefix_up rn hr h2M x hR.head r vt hR.tail hv
      have h0 : rn 0 = 0 := by have := hr 0 (by norm_num); simpa using this
      have e : polydivLoopF rn (up (1 :: vt)) (s + 1) (up (x :: r))
          = rn ((x : ℚ) - rn (rn (rn (1 / 1) * x) * 1)) :: polydivLoopF rn (up (1 :: vt)) s (subPrefixF rn (rn (rn (1 / 1) * x)) (up r) (up vt)) := by
        simp [polydivLoopF, up]
      rw [e, h1, one_mul, hx, mul_one, hx, sub_self, h0, s1, ih (2 * M) (by omega) hM2 _ s2]
      simp [polydivLoop, up]

theorem trimFront_up (l : List ℤ) : trimFrontF (up l) = up (trimFront l) := by
  induction l with
  | nil => rfl
  | cons x l ih =>
    cases l with
    | nil => rfl
    | cons y l =>
      have e : trimFrontF (up (x :: y :: l)) = if (x : ℚ) ≤ 1 / 10 ^ 8 ∧ - (1 / 10 ^ 8) ≤ (x : ℚ) then trimFrontF (up (y :: l)) else up (x :: y :: l) := rfl
      rw [e, trimFront]
      by_cases hx : x = 0
      · rw [if_pos hx, if_pos (by subst hx; norm_num), ih]
      · rw [if_neg hx, if_neg]
        rintro ⟨h1, h2⟩
        have a1 : (x : ℚ) < 1 := lt_of_le_of_lt h1 (by norm_num)
        have a2 : (-1 : ℚ) < x := lt_of_lt_of_le (by norm_num) h2
        have b1 : x < 1 := by exact_mod_cast a1
        have b2 : -1 < x := by exact_mod_cast a2
        omega

theorem polydivRem_up (rn : ℚ → ℚ) (hr : ExactInts rn) (u : List ℤ) (hu : Bd 1 u) (hl : u.length ≤ 61) :
    polydivRemF rn (up u) [1, 0, 0, 0, 0, 0, 1, 1, 1] = up (polydivRem u polyG) := by
  have hG : ([1, 0, 0, 0, 0, 0, 1, 1, 1] : List ℚ) = up (1 :: [0, 0, 0, 0, 0, 1, 1, 1]) := by simp [up]
  unfold polydivRemF polydivRem
  rw [hG]
  have hlen : (up u).length = u.length := by simp [up]
  have hg : (up (1 :: [0, 0, 0, 0, 0, 1, 1, 1])).length = 9 := by simp [up]
  rw [hlen, hg, polydivLoop_up rn hr _ (by unfold Bd; decide) _ 1 (by norm_num) _ _ hu, trimFront_up]
  · rfl
  · have : (2 : ℤ) ^ (u.length + 1 - 9) ≤ 2 ^ 53 := pow_le_pow_right₀ (by norm_num) (by omega)
    linarith

theorem trunc_int (n : ℤ) : truncF (n : ℚ) = n := by
  unfold truncF
  split
  · rw [← Int.cast_neg, Rat.floor_intCast]; ring
  · exact Rat.floor_intCast n

/-- The floating point `np.mod(x, 2)` of an integer is its parity. -/
theorem npMod2_int (rn : ℚ → ℚ) (hr : ExactInts rn) (n : ℤ) : truncF (npMod2F rn (n : ℚ)) = n % 2 := by
  have h1 : rn 1 = 1 := by have := hr 1 (by norm_num); simpa using this
  have hfl : ∀ m : ℤ, ((m : ℚ) / 2).floor = m / 2 := by
    intro m
    have := Rat.floor_intCast_div_natCast m 2
    have h2 : ((m : ℚ) / 2).floor = ⌊(m : ℚ) / 2⌋ := rfl
    rw [h2]
    simpa using this
  unfold npMod2F
  simp only
  by_cases hn : n < 0
  · have hq : (n : ℚ) / 2 < 0 := by have : (n : ℚ) < 0 := by exact_mod_cast hn
                                    linarith
    have ht : truncF ((n : ℚ) / 2) = - ((-n) / 2) := by
      unfold truncF
      rw [if_pos hq, ← neg_div, ← Int.cast_neg, hfl]
    rw [ht]
    have e : (n : ℚ) - 2 * ((-((-n) / 2) : ℤ) : ℚ) = ((n + 2 * ((-n) / 2) : ℤ) : ℚ) := by push_cast; ring
    rw [e]
    rcases Int.emod_two_eq_zero_or_one n with h | h
    · have : n + 2 * ((-n) / 2) = 0 := by omega
      rw [this, h]; simp [truncF]; rfl
    · have : n + 2 * ((-n) / 2) = -1 := by omega
      rw [this, h, if_pos (by norm_num), show (((-1 : ℤ) : ℚ) + 2) = 1 by norm_num, h1]
      exact trunc_int 1
  · have hq : ¬ (n : ℚ) / 2 < 0 := by
      have : (0 : ℚ) ≤ n := by exact_mod_cast (not_lt.1 hn)
      linarith
    have ht : truncF ((n : ℚ) / 2) = n / 2 := by unfold truncF; rw [if_neg hq, hfl]
    rw [ht]
    have e : (n : ℚ) - 2 * ((n / 2 : ℤ) : ℚ) = ((n % 2 : ℤ) : ℚ) := by
      have := Int.emod_def n 2
      rw [this]; push_cast; ring
    rw [e, if_neg (by have : 0 ≤ n % 2 := by omega
                      have : (0 : ℚ) ≤ ((n % 2 : ℤ) : ℚ) := by exact_mod_cast this
                      linarith), trunc_int]

theorem map_mod_up (rn : ℚ → ℚ) (hr : ExactInts rn) (l : List ℤ) : ((up l).map (npMod2F rn)).map truncF = mod2 l := by
  simp only [up, mod2, List.map_map]
  apply List.map_congr_left
  intro n _
  exact npMod2_int rn hr n

theorem bits_up (b : Bits) : (b.map fun x => if x then (1 : ℚ) else 0) = up (bitsToInts b) := by
  simp only [up, bitsToInts, List.map_map]
  apply List.map_congr_left
  intro x _
  cases x <;> simp [b2n]

theorem bits_bd (b : Bits) : Bd 1 (bitsToInts b) := by
  intro x hx
  obtain ⟨y, -, rfl⟩ := List.mem_map.1 hx
  cases y <;> simp [b2n]

theorem mono_bd (n : ℕ) : Bd 1 (1 :: List.replicate n 0) := by
  apply Bd.cons (by norm_num)
  intro x hx
  rw [List.eq_of_mem_replicate hx]; norm_num

theorem up_mono (n : ℕ) : ((1 : ℚ) :: List.replicate n 0) = up (1 :: List.replicate n 0) := by simp [up]

/-- Multiplying by a power of x keeps 0/1 coefficients. -/
theorem convolve_mono_bd (a : List ℤ) (ha : Bd 1 a) (n : ℕ) : convolve a (1 :: List.replicate n 0) = if a = [] then [] else a ++ List.replicate n 0 := by
  induction a with
  | nil => rfl
  | cons x a ih =>
    rw [convolve, ih ha.tail]
    have hz : ∀ (m : ℕ) (l : List ℤ), m ≤ l.length → addFront (List.replicate m 0) l = l := by
      intro m
      induction m with
      | zero => intro l _; rfl
      | succ m im =>
        intro l hl
        cases l with
        | nil => simp at hl
        | cons y l => rw [List.replicate_succ, addFront, zero_add, im l (by simpa using hl)]
    by_cases h : a = []
    · subst h
      simp only [List.map_cons, List.map_replicate, mul_zero, mul_one, if_true, addFront, add_zero, List.cons_append, List.nil_append]
      rw [if_neg (by simp)]
      congr 1
      cases n <;> rfl
    · rw [if_neg h, if_neg (by simp)]
      simp only [List.map_cons, List.map_replicate, mul_zero, mul_one, addFront, add_zero, List.cons_append]
      congr 1
      exact hz n _ (by simp)

/-- **C94 (MR-OFDM).**  For every rounding that is exact on integers of at most 53 bits, the floating point header check sequence of up to 53 input bits is the
integer one. -/
theorem C94_ofdm (rn : ℚ → ℚ) (hr : ExactInts rn) (input : Bits) (h : input.length ≤ 53) : hcsCalculationF rn input = hcsCalculation input := by
  have hp1 : ∀ l : List ℤ, poly1d l ≠ [] := by
    intro l; unfold poly1d; split
    · simp
    · assumption
  unfold hcsCalculationF hcsCalculation
  simp only
  rw [up_mono 22, up_mono 8, bits_up, show (List.replicate 8 (1 : ℚ)) = up (List.replicate 8 1) by simp [up]]
  have b8 : Bd 1 (List.replicate 8 (1 : ℤ)) := by intro x hx; rw [List.eq_of_mem_replicate hx]; norm_num
  simp only [poly1d_up]
  rw [polymul_up rn hr _ _ ((mono_bd 22).poly1d (by norm_num)) (b8.poly1d (by norm_num)) (by decide),
    polymul_up rn hr _ _ ((bits_bd input).poly1d (by norm_num)) ((mono_bd 8).poly1d (by norm_num)) ?_]
  · simp only [poly1d_up]
    rw [polydivRem_up rn hr _ (by unfold Bd; decide) (by decide), polydivRem_up rn hr _ ?_ ?_]
    · simp only [poly1d_up, map_mod_up rn hr]
    · apply Bd.poly1d (by norm_num)
      unfold polymul
      rw [show poly1d (poly1d (1 :: List.replicate 8 (0:ℤ))) = 1 :: List.replicate 8 0 by decide,
        convolve_mono_bd _ (((bits_bd input).poly1d (by norm_num)).poly1d (by norm_num)), if_neg (hp1 _)]
      intro x hx
      rcases List.mem_append.1 hx with hx | hx
      · exact ((bits_bd input).poly1d (by norm_num)).poly1d (by norm_num) x hx
      · rw [List.eq_of_mem_replicate hx]; norm_num
    · have hne : polymul (poly1d (bitsToInts input)) (poly1d (1 :: List.replicate 8 0)) ≠ [] := by
        unfold polymul
        rw [show poly1d (poly1d (1 :: List.replicate 8 (0:ℤ))) = 1 :: List.replicate 8 0 by decide,
          convolve_mono_bd _ (((bits_bd input).poly1d (by norm_num)).poly1d (by norm_num)), if_neg (hp1 _)]
        simp
      refine (poly1d_length_le _ hne).trans ?_
      unfold polymul
      rw [show poly1d (poly1d (1 :: List.replicate 8 (0:ℤ))) = 1 :: List.replicate 8 0 by decide,
        convolve_mono_bd _ (((bits_bd input).poly1d (by norm_num)).poly1d (by norm_num)), if_neg (hp1 _)]
      have h1 : (poly1d (poly1d (bitsToInts input))).length ≤ max 1 input.length := by
        refine (poly1d_length_le _ (hp1 _)).trans ?_
        by_cases hi : bitsToInts input = []
        · rw [hi]; simp [poly1d]
        · refine (poly1d_length_le _ hi).trans ?_
          simp [bitsToInts]
      simp only [List.length_append, List.length_replicate]
      omega
  · by_cases hi : bitsToInts input = []
    · rw [hi]; simp [poly1d]
    · refine (poly1d_length_le _ hi).trans ?_
      simp only [bitsToInts, List.length_map]; omega

/-- **C94 (MR-O-QPSK).**  The same for the O-QPSK header. -/
theorem C94_oqpsk (rn : ℚ → ℚ) (hr : ExactInts rn) (M : Bits) (h : M.length ≤ 53) : oqpskHcsF rn M = oqpskHcs M := by
  have hp1 : ∀ l : List ℤ, poly1d l ≠ [] := by
    intro l; unfold poly1d; split
    · simp
    · assumption
  unfold oqpskHcsF oqpskHcs
  simp only
  have hm : Bd 1 (mod2 (List.map toUint8 (polymul (bitsToInts M) (1 :: List.replicate 8 0)))) := by
    intro x hx
    obtain ⟨y, -, rfl⟩ := List.mem_map.1 hx
    rw [abs_le]; omega
  have hl : (mod2 (List.map toUint8 (polymul (bitsToInts M) (1 :: List.replicate 8 0)))).length ≤ 61 := by
    simp only [mod2, List.length_map]
    unfold polymul
    rw [show poly1d (1 :: List.replicate 8 (0:ℤ)) = 1 :: List.replicate 8 0 by decide,
      convolve_mono_bd _ ((bits_bd M).poly1d (by norm_num)), if_neg (hp1 _)]
    have h1 : (poly1d (bitsToInts M)).length ≤ max 1 M.length := by
      by_cases hi : bitsToInts M = []
      · rw [hi]; simp [poly1d]
      · refine (poly1d_length_le _ hi).trans ?_
        simp [bitsToInts]
    simp only [List.length_append, List.length_replicate]
    omega
  have := polydivRem_up rn hr _ hm hl
  unfold up at this
  have e : ((polydivRem (mod2 (List.map toUint8 (polymul (bitsToInts M) (1 :: List.replicate 8 0)))) polyG).map fun (n : ℤ) => (n : ℚ)).map
      (fun x => toUint8 (truncF x)) = (polydivRem (mod2 (List.map toUint8 (polymul (bitsToInts M) (1 :: List.replicate 8 0)))) polyG).map toUint8 := by
    rw [List.map_map]
    apply List.map_congr_left
    intro n _
    simp only [Function.comp, trunc_int]
  rw [this, e]

/-- **C94 (double precision).**  In IEEE 754 double precision every MR-OFDM header check sequence (22 bits) and every MR-O-QPSK one (16 bits) is exact. -/
theorem C94_double (input : Bits) : (input.length ≤ 53 → hcsCalculationF float64 input = hcsCalculation input) ∧
    (input.length ≤ 53 → oqpskHcsF float64 input = oqpskHcs input) :=
  ⟨C94_ofdm float64 float64_exact input, C94_oqpsk float64 float64_exact input⟩

/-- A concrete header: 22 bits with intermediate coefficients of both signs. -/
example : hcsCalculationF float64 (natBits 22 0x2A5F31) = [0, 0, 1, 0, 1, 0, 0, 0] := by
  rw [(C94_double _).1 (by decide)]; decide +kernel

/-- The remainders really are negative numbers before the reduction modulo 2. -/
example : ∃ x ∈ polydivRem (bitsToInts (natBits 22 0x2A5F31) ++ List.replicate 8 0) polyG, x < 0 := by decide +kernel

end SunPhy.C94
