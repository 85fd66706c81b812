import Verif.Proofs.PolyLemmas
import Verif.Proofs.Conv
import Mathlib.RingTheory.Coprime.Lemmas
import Mathlib.Algebra.Polynomial.Eval.Defs
/-
Distance 4 of the code generated by `x^8 + x^2 + x + 1` for lengths up to 30.
-/
namespace SunPhy
open Spec Polynomial

theorem bitPoly_nil : bitPoly [] = 0 := rfl
theorem bitPoly_cons (b : Bool) (l : Bits) : bitPoly (b :: l) = (if b then X ^ l.length else 0) + bitPoly l := by
  unfold bitPoly
  rw [List.map_cons, toPoly_cons, List.length_map]
  cases b <;> simp

theorem bitPoly_append (a b : Bits) : bitPoly (a ++ b) = bitPoly a * X ^ b.length + bitPoly b := by
  unfold bitPoly
  rw [List.map_append, toPoly_append, List.length_map]

theorem two_eq_zero_poly : (2 : (ZMod 2)[X]) = 0 := by
  have : ((2 : ZMod 2)) = 0 := by decide
  rw [show (2 : (ZMod 2)[X]) = C 2 from rfl, this, C_0]

theorem add_self_poly (p : (ZMod 2)[X]) : p + p = 0 := by
  rw [← two_mul, two_eq_zero_poly, zero_mul]

theorem neg_poly (p : (ZMod 2)[X]) : -p = p := by
  rw [neg_eq_iff_add_eq_zero, add_self_poly]

theorem bitPoly_xor : ∀ (a b : Bits), a.length = b.length → bitPoly (List.zipWith xor a b) = bitPoly a + bitPoly b := by
  intro a
  induction a with
  | nil => intro b h; cases b with
    | nil => simp [bitPoly_nil]
    | cons => simp at h
  | cons x a ih =>
    intro b h
    cases b with
    | nil => simp at h
    | cons y b =>
      have hl : a.length = b.length := by simpa using h
      rw [List.zipWith_cons_cons, bitPoly_cons, bitPoly_cons, bitPoly_cons, ih b hl, List.length_zipWith, hl, Nat.min_self]
      cases x <;> cases y <;> simp
      · ring
      · ring
      · linear_combination -(add_self_poly (X ^ b.length))

theorem bitPoly_eval_one (e : Bits) : (bitPoly e).eval 1 = ((e.count true : Nat) : ZMod 2) := by
  induction e with
  | nil => simp [bitPoly_nil]
  | cons b e ih =>
    rw [bitPoly_cons, eval_add, ih, List.count_cons]
    cases b <;> simp [add_comm]

theorem bitPoly_falses (n : Nat) : bitPoly (List.replicate n false) = 0 := by
  unfold bitPoly
  rw [List.map_replicate]
  simpa using toPoly_zeros n

theorem split_first_true (e : Bits) (n : Nat) (h : e.count true = n + 1) :
    ∃ i e', e = List.replicate i false ++ true :: e' ∧ e'.count true = n := by
  induction e with
  | nil => simp at h
  | cons b e ih =>
    cases b with
    | true => exact ⟨0, e, rfl, by simpa using h⟩
    | false =>
      obtain ⟨i, e', rfl, h2⟩ := ih (by simpa using h)
      exact ⟨i + 1, e', rfl, h2⟩

theorem count_zero_replicate (e : Bits) (h : e.count true = 0) : e = List.replicate e.length false := by
  rw [List.eq_replicate_iff]
  refine ⟨rfl, fun b hb => ?_⟩
  cases b with
  | false => rfl
  | true => exact (List.count_eq_zero.1 h hb).elim

/-- No `x^(j+1) + 1` with `j < 30` is divisible by the generator (its order is 127). -/
theorem order_ge : ∀ j < 30, ¬ ((polydivRem (1 :: (List.replicate j 0 ++ [1])) polyG).all fun x => x % 2 == 0) = true := by
  decide +kernel

theorem not_dvd_binomial (j : Nat) (hj : j < 30) : ¬ G ∣ (X : (ZMod 2)[X]) ^ (j + 1) + 1 := by
  intro h
  have hp : toPoly (1 :: (List.replicate j 0 ++ [1])) = (X : (ZMod 2)[X]) ^ (j + 1) + 1 := by
    rw [toPoly_cons, toPoly_append, toPoly_zeros]
    simp [toPoly]
  have h0 := polydivRem_modByMonic (1 :: (List.replicate j 0 ++ [1])) (by simp)
  rw [hp, (modByMonic_eq_zero_iff_dvd G_monic).2 h] at h0
  have hz := toPoly_inj _ (List.replicate (polydivRem (1 :: (List.replicate j 0 ++ [1])) polyG).length 0) (by simp)
    (h0.trans (toPoly_zeros _).symm)
  apply order_ge j hj
  rw [List.all_eq_true]
  intro x hx
  have : x % 2 ∈ mod2 (polydivRem (1 :: (List.replicate j 0 ++ [1])) polyG) := List.mem_map.2 ⟨x, hx, rfl⟩
  rw [hz] at this
  obtain ⟨y, hy, hy2⟩ := List.mem_map.1 this
  rw [(List.mem_replicate.1 hy).2] at hy2
  simpa using hy2.symm

theorem G_coprime_X : IsCoprime G (X : (ZMod 2)[X]) := by
  refine ⟨1, -(X ^ 7 + X + 1), ?_⟩
  unfold G; ring

/-- Two different bit strings of equal length at most 31 whose polynomials agree modulo the generator differ in at least
four positions. -/
theorem crc_distance (a b : Bits) (hl : a.length = b.length) (hn : a.length ≤ 31) (hne : a ≠ b)
    (hd : G ∣ bitPoly a - bitPoly b) : 4 ≤ hamming a b := by
  have hx : G ∣ bitPoly (List.zipWith xor a b) := by
    rw [bitPoly_xor a b hl, ← neg_poly (bitPoly b), ← sub_eq_add_neg]; exact hd
  have hlen : (List.zipWith xor a b).length = a.length := by rw [List.length_zipWith, hl, Nat.min_self]
  unfold hamming
  generalize he : List.zipWith xor a b = e at *
  -- even weight
  have hpar : ((e.count true : Nat) : ZMod 2) = 0 := by
    rw [← bitPoly_eval_one]
    obtain ⟨q, hq⟩ := hx
    rw [hq, eval_mul]
    have : G.eval 1 = 0 := by unfold G; simp; decide
    rw [this, zero_mul]
  have heven : e.count true % 2 = 0 := by
    have := (ZMod.natCast_eq_zero_iff _ 2).1 hpar
    omega
  -- not zero
  have h0 : e.count true ≠ 0 := by
    intro h0
    apply hne
    have hz := count_zero_replicate e h0
    clear hx hpar heven h0 hd hne hn
    induction a generalizing b e with
    | nil => cases b with
      | nil => rfl
      | cons => simp at hl
    | cons x a ih =>
      cases b with
      | nil => simp at hl
      | cons y b =>
        rw [List.zipWith_cons_cons] at he
        subst he
        rw [List.length_cons, List.replicate_succ, List.cons.injEq] at hz
        rw [ih b (by simpa using hl) (List.zipWith xor a b) rfl (by simpa using hlen) hz.2]
        have h1 := hz.1
        clear hz ih hlen hl
        cases x <;> cases y <;> first | rfl | cases h1
  -- not two
  have h2 : e.count true ≠ 2 := by
    intro h2
    obtain ⟨i, e1, rfl, c1⟩ := split_first_true e 1 h2
    obtain ⟨j, e2, rfl, c2⟩ := split_first_true e1 0 c1
    have hz := count_zero_replicate e2 c2
    generalize hk : e2.length = k at hz
    subst hz
    have hb : bitPoly (List.replicate i false ++ true :: (List.replicate j false ++ true :: List.replicate k false)) =
        X ^ k * (X ^ (j + 1) + 1) := by
      rw [bitPoly_append, bitPoly_falses, bitPoly_cons, bitPoly_append, bitPoly_falses, bitPoly_cons, bitPoly_falses]
      simp
      ring
    rw [hb] at hx
    have hc : IsCoprime G ((X : (ZMod 2)[X]) ^ k) := IsCoprime.pow_right G_coprime_X
    refine not_dvd_binomial j ?_ (hc.dvd_of_dvd_mul_left hx)
    simp at hlen
    omega
  omega

end SunPhy
