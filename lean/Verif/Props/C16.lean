import Verif.Proofs.PolyLemmas
/-
C16 — the MR-OFDM HCS, computed with real-valued polynomial division, is the GF(2) CRC of the header.
-/
namespace SunPhy.C16
open SunPhy Spec Polynomial

theorem bitsToInts_poly (b : Bits) : toPoly (bitsToInts b) = bitPoly b := by
  unfold bitsToInts bitPoly
  congr 1
  apply List.map_congr_left
  intro x _
  cases x <;> rfl

theorem partA : mod2 (poly1d (polydivRem (poly1d (polymul (poly1d (1 :: List.replicate 22 0)) (poly1d (List.replicate 8 1)))) polyG)) =
    [0, 1, 0, 0, 1, 0, 1, 1] := by decide +kernel

theorem monomial_poly (n : Nat) : toPoly (1 :: List.replicate n 0) = X ^ n := by
  rw [toPoly_cons, toPoly_zeros, List.length_replicate]; simp

theorem ones_poly : toPoly (List.replicate 8 1) =
    ((X : (ZMod 2)[X]) ^ 7 + X ^ 6 + X ^ 5 + X ^ 4 + X ^ 3 + X ^ 2 + X + 1) := by
  simp [toPoly, List.replicate]; ring

theorem partA_poly : toPoly ([0, 1, 0, 0, 1, 0, 1, 1] : List Int) =
    ((X : (ZMod 2)[X]) ^ 22 * (X ^ 7 + X ^ 6 + X ^ 5 + X ^ 4 + X ^ 3 + X ^ 2 + X + 1)) %ₘ G := by
  rw [← partA, toPoly_mod2, toPoly_poly1d, polydivRem_modByMonic _ (poly1d_ne_nil _), toPoly_poly1d, toPoly_polymul,
    toPoly_poly1d, toPoly_poly1d]
  rw [monomial_poly, ones_poly]

theorem poly1d_length_le (l : List Int) : (poly1d l).length ≤ max 1 l.length := by
  unfold poly1d
  split
  · simp
  · have := (List.dropWhile_sublist (p := (· == (0 : Int))) (l := l)).length_le
    omega

theorem polyadd_left {a b : List Int} (h : b.length ≤ a.length) : (polyadd a b).length = a.length ∧
    toPoly (polyadd a b) = toPoly a + toPoly b := by
  unfold polyadd
  simp only
  rw [Nat.max_eq_left h, Nat.sub_self, List.replicate_zero, List.nil_append]
  have gen : ∀ (a c : List Int), a.length = c.length → (List.zipWith (· + ·) a c).length = a.length ∧
      toPoly (List.zipWith (· + ·) a c) = toPoly a + toPoly c := by
    intro a
    induction a with
    | nil => intro c hc; cases c with
      | nil => simp [toPoly_nil]
      | cons => simp at hc
    | cons x a ih =>
      intro c hc
      cases c with
      | nil => simp at hc
      | cons y c =>
        obtain ⟨h1, h2⟩ := ih c (by simpa using hc)
        have hc' : a.length = c.length := by simpa using hc
        refine ⟨by simp at hc ⊢; omega, ?_⟩
        rw [List.zipWith_cons_cons, toPoly_cons, h1, h2, toPoly_cons, toPoly_cons, hc']
        push_cast
        rw [C_add]; ring
  have := gen a (List.replicate (a.length - b.length) 0 ++ b) (by simp; omega)
  refine ⟨this.1, ?_⟩
  rw [this.2, toPoly_append, toPoly_zeros]; ring

theorem hcs_eq (input : Bits) : ∃ r : List Int, hcsCalculation input = r.map (1 - ·) ∧ r.length = 8 ∧
    (∀ x ∈ r, x = 0 ∨ x = 1) ∧
    toPoly r = ((X : (ZMod 2)[X]) ^ 22 * (X ^ 7 + X ^ 6 + X ^ 5 + X ^ 4 + X ^ 3 + X ^ 2 + X + 1) + X ^ 8 * bitPoly input) %ₘ G := by
  unfold hcsCalculation
  simp only [partA]
  refine ⟨_, rfl, ?_⟩
  generalize hu : poly1d (polymul (poly1d (bitsToInts input)) (poly1d (1 :: List.replicate 8 0))) = u
  have hup : toPoly u = X ^ 8 * bitPoly input := by
    rw [← hu, toPoly_poly1d, toPoly_polymul, toPoly_poly1d, toPoly_poly1d, bitsToInts_poly, monomial_poly, mul_comm]
  have hne : u ≠ [] := by rw [← hu]; exact poly1d_ne_nil _
  obtain ⟨_, hl, _⟩ := polydivRem_spec u hne
  have hBlen : (mod2 (poly1d (polydivRem u polyG))).length ≤ ([0, 1, 0, 0, 1, 0, 1, 1] : List Int).length := by
    have := poly1d_length_le (polydivRem u polyG)
    simp only [mod2, List.length_map, List.length_cons, List.length_nil]; omega
  obtain ⟨a1, a2⟩ := polyadd_left hBlen
  refine ⟨by simpa [mod2] using a1, ?_, ?_⟩
  · intro x hx
    simp only [mod2, List.mem_map] at hx
    obtain ⟨y, _, rfl⟩ := hx
    omega
  · rw [toPoly_mod2, a2, toPoly_mod2, toPoly_poly1d, polydivRem_modByMonic _ hne, hup, partA_poly, add_modByMonic]

/-- **C16.**  For every header prefix (22 bits in the PHR), the HCS is a list of exactly 8 zeros/ones, and its one's
complement, read as a polynomial over GF(2) with the first bit the highest power, is
`(x^22 (x^7 + … + x + 1) + x^8 M(x)) mod (x^8 + x^2 + x + 1)`. -/
theorem C16_crc (input : Bits) :
    (hcsCalculation input).length = 8 ∧ (∀ x ∈ hcsCalculation input, x = 0 ∨ x = 1) ∧
    toPoly ((hcsCalculation input).map (1 - ·)) =
      ((X : (ZMod 2)[X]) ^ 22 * (X ^ 7 + X ^ 6 + X ^ 5 + X ^ 4 + X ^ 3 + X ^ 2 + X + 1) + X ^ 8 * bitPoly input) %ₘ G := by
  obtain ⟨r, e, hl, h01, hp⟩ := hcs_eq input
  rw [e]
  refine ⟨by simpa using hl, ?_, ?_⟩
  · intro x hx
    obtain ⟨y, hy, rfl⟩ := List.mem_map.1 hx
    rcases h01 y hy with rfl | rfl <;> simp
  · rw [List.map_map]
    have : ((fun x : Int => 1 - x) ∘ fun x : Int => 1 - x) = id := by funext x; simp
    rw [this, List.map_id, hp]

/-- The equation of `C16_crc` determines the eight bits: no other 0/1 list of length 8 satisfies it. -/
theorem C16_unique (input : Bits) (h : List Int) (hl : h.length = 8) (h01 : ∀ x ∈ h, x = 0 ∨ x = 1)
    (hp : toPoly (h.map (1 - ·)) =
      ((X : (ZMod 2)[X]) ^ 22 * (X ^ 7 + X ^ 6 + X ^ 5 + X ^ 4 + X ^ 3 + X ^ 2 + X + 1) + X ^ 8 * bitPoly input) %ₘ G) :
    h = hcsCalculation input := by
  obtain ⟨k1, k2, k3⟩ := C16_crc input
  have := toPoly_inj _ _ (by simp [hl, k1]) (hp.trans k3.symm)
  have id2 : ∀ l : List Int, (∀ x ∈ l, x = 0 ∨ x = 1) → (mod2 (l.map (1 - ·))).map (1 - ·) = l := by
    intro l hl
    simp only [mod2, List.map_map]
    conv_rhs => rw [← List.map_id l]
    apply List.map_congr_left
    intro x hx
    rcases hl x hx with rfl | rfl <;> rfl
  rw [← id2 h h01, this, id2 _ k2]

example : hcsCalculation (natBits 22 0b0001000000001001110000) = [0, 1, 1, 0, 0, 0, 1, 0] := by
  decide +kernel

end SunPhy.C16
