import Verif.Props.C16
import Verif.Proofs.CrcDist
import Verif.Model.MrOqpsk
/-
C17 — headers are protected: any two distinct headers differ in at least 4 bits.
-/
namespace SunPhy.C17
open SunPhy Spec Polynomial

/-- MR-OFDM: the 22 header bits followed by the HCS bits (as stored in the header: 1 is `true`). -/
def ofdmProtected (prefix22 : Bits) : Bits := prefix22 ++ (hcsCalculation prefix22).map (· == 1)

/-- MR-O-QPSK: the 16 header bits followed by the HCS bits. -/
def oqpskProtected (prefix16 : Bits) : Bits := prefix16 ++ (oqpskHcs prefix16).map (· == 1)

theorem bitPoly_of_01 (l : List Int) (h : ∀ x ∈ l, x = 0 ∨ x = 1) : bitPoly (l.map (· == 1)) = toPoly l := by
  unfold bitPoly
  congr 1
  rw [List.map_map]
  conv_rhs => rw [← List.map_id l]
  apply List.map_congr_left
  intro x hx
  rcases h x hx with rfl | rfl <;> rfl

theorem toPoly_complement (l : List Int) : toPoly (l.map (1 - ·)) = toPoly (List.replicate l.length 1) + toPoly l := by
  induction l with
  | nil => simp [toPoly_nil]
  | cons c l ih =>
    rw [List.map_cons, List.length_cons, List.replicate_succ, toPoly_cons, toPoly_cons, toPoly_cons, ih, List.length_map,
      List.length_replicate]
    push_cast
    rw [C_sub, sub_eq_add_neg, neg_poly]; ring

/-- The protected header is a fixed polynomial modulo the generator. -/
theorem ofdm_residue (p : Bits) : ∃ K : (ZMod 2)[X], (∀ q : Bits, q.length = p.length → G ∣ bitPoly (ofdmProtected q) - K) := by
  refine ⟨toPoly (List.replicate 8 1) + (X : (ZMod 2)[X]) ^ 22 * (X ^ 7 + X ^ 6 + X ^ 5 + X ^ 4 + X ^ 3 + X ^ 2 + X + 1), ?_⟩
  intro q _
  obtain ⟨h1, h2, h3⟩ := C16.C16_crc q
  unfold ofdmProtected
  rw [bitPoly_append, bitPoly_of_01 _ h2, List.length_map, h1]
  have h4 := toPoly_complement (hcsCalculation q)
  rw [h1, h3] at h4
  have hdm := modByMonic_add_div ((X : (ZMod 2)[X]) ^ 22 * (X ^ 7 + X ^ 6 + X ^ 5 + X ^ 4 + X ^ 3 + X ^ 2 + X + 1) + X ^ 8 * bitPoly q) G
  generalize toPoly (hcsCalculation q) = R at *
  generalize toPoly (List.replicate 8 1) = O at *
  generalize (X : (ZMod 2)[X]) ^ 22 * (X ^ 7 + X ^ 6 + X ^ 5 + X ^ 4 + X ^ 3 + X ^ 2 + X + 1) = K at *
  generalize hrem : (K + X ^ 8 * bitPoly q) %ₘ G = r at *
  generalize (K + X ^ 8 * bitPoly q) /ₘ G = d at *
  refine ⟨d, ?_⟩
  -- r = O + R,  r + G d = K + X^8 q
  have t : (2 : (ZMod 2)[X]) = 0 := two_eq_zero_poly
  linear_combination -hdm + h4 + (R - K) * t

theorem oqpsk_hcs_spec (q : Bits) : (oqpskHcs q).length = 8 ∧ (∀ x ∈ oqpskHcs q, x = 0 ∨ x = 1) ∧
    toPoly (oqpskHcs q) = (X ^ 8 * bitPoly q) %ₘ G := by
  unfold oqpskHcs
  simp only
  generalize hu : mod2 ((polymul (bitsToInts q) (1 :: List.replicate 8 0)).map toUint8) = u
  have hup : toPoly u = X ^ 8 * bitPoly q := by
    rw [← hu, toPoly_mod2, toPoly_congr_mod2 toUint8 cast_toUint8, toPoly_polymul, C16.bitsToInts_poly, C16.monomial_poly, mul_comm]
  have hne : u ≠ [] := by
    rw [← hu]
    intro h0
    have := congrArg List.length h0
    simp only [mod2, List.length_map, List.length_nil] at this
    have h2 := (convolve_spec (poly1d (bitsToInts q)) (poly1d (1 :: List.replicate 8 0)) (poly1d_ne_nil _)).2 (poly1d_ne_nil _)
    unfold polymul at this
    have h3 := List.length_pos_of_ne_nil (poly1d_ne_nil (bitsToInts q))
    have h4 : (poly1d (1 :: List.replicate 8 0)).length = 9 := rfl
    omega
  obtain ⟨_, hl, _⟩ := polydivRem_spec u hne
  refine ⟨?_, ?_, ?_⟩
  · simp only [mod2, List.length_append, List.length_replicate, List.length_map]; omega
  · intro x hx
    rcases List.mem_append.1 hx with h | h
    · exact .inl (List.mem_replicate.1 h).2
    · simp only [mod2, List.mem_map] at h
      obtain ⟨y, _, rfl⟩ := h
      omega
  · rw [toPoly_append, toPoly_zeros, zero_mul, zero_add, toPoly_mod2, toPoly_congr_mod2 toUint8 cast_toUint8,
      polydivRem_modByMonic _ hne, hup]

theorem oqpsk_residue (q : Bits) : G ∣ bitPoly (oqpskProtected q) := by
  obtain ⟨h1, h2, h3⟩ := oqpsk_hcs_spec q
  unfold oqpskProtected
  rw [bitPoly_append, bitPoly_of_01 _ h2, List.length_map, h1, h3]
  have hdm := modByMonic_add_div (X ^ 8 * bitPoly q) G
  refine ⟨(X ^ 8 * bitPoly q) /ₘ G, ?_⟩
  have t : (2 : (ZMod 2)[X]) = 0 := two_eq_zero_poly
  linear_combination -hdm + ((X ^ 8 * bitPoly q) %ₘ G) * t

/-- **C17 (MR-OFDM).**  Two distinct 22-bit header prefixes, with their HCS, differ in at least 4 of the 30 bits. -/
theorem C17_ofdm (p q : Bits) (hp : p.length = 22) (hq : q.length = 22) (hne : p ≠ q) :
    4 ≤ hamming (ofdmProtected p) (ofdmProtected q) := by
  have l : ∀ x : Bits, (ofdmProtected x).length = x.length + 8 := fun x => by
    simp [ofdmProtected, (C16.C16_crc x).1]
  apply crc_distance
  · rw [l, l, hp, hq]
  · rw [l, hp]; omega
  · intro h
    exact hne (List.append_inj_left h (by rw [hp, hq]))
  · obtain ⟨K, hK⟩ := ofdm_residue p
    have a := hK p rfl
    have b := hK q (by rw [hp, hq])
    have := dvd_sub a b
    simpa using this

/-- **C17 (MR-O-QPSK).**  Two distinct 16-bit header prefixes, with their HCS, differ in at least 4 of the 24 bits. -/
theorem C17_oqpsk (p q : Bits) (hp : p.length = 16) (hq : q.length = 16) (hne : p ≠ q) :
    4 ≤ hamming (oqpskProtected p) (oqpskProtected q) := by
  have l : ∀ x : Bits, (oqpskProtected x).length = x.length + 8 := fun x => by
    simp [oqpskProtected, (oqpsk_hcs_spec x).1]
  apply crc_distance
  · rw [l, l, hp, hq]
  · rw [l, hp]; omega
  · intro h
    exact hne (List.append_inj_left h (by rw [hp, hq]))
  · exact dvd_sub (oqpsk_residue p) (oqpsk_residue q)

/-- **C17 (detection).**  An error pattern of 1, 2 or 3 bits in a received header (prefix and check sequence) never yields
another valid header. -/
theorem C17_detects (p q : Bits) (hp : p.length = 22) (hq : q.length = 22) (errors : Bits) (hl : errors.length = 30)
    (hw : errors.count true ≤ 3) (hrx : List.zipWith xor (ofdmProtected p) errors = ofdmProtected q) : p = q := by
  by_contra hne
  have := C17_ofdm p q hp hq hne
  have e : List.zipWith xor (ofdmProtected p) (ofdmProtected q) = errors := by
    rw [← hrx]
    have lp : (ofdmProtected p).length = 30 := by simp [ofdmProtected, (C16.C16_crc p).1, hp]
    generalize ofdmProtected p = a at *
    apply List.ext_getElem
    · simp [lp, hl]
    · intro i h1 h2
      simp only [List.getElem_zipWith]
      cases a[i]'(by omega) <;> cases errors[i] <;> rfl
  unfold hamming at this
  rw [e] at this
  omega

/-- **C17 (detection, MR-O-QPSK).** -/
theorem C17_oqpsk_detects (p q : Bits) (hp : p.length = 16) (hq : q.length = 16) (errors : Bits) (hl : errors.length = 24)
    (hw : errors.count true ≤ 3) (hrx : List.zipWith xor (oqpskProtected p) errors = oqpskProtected q) : p = q := by
  by_contra hne
  have := C17_oqpsk p q hp hq hne
  have e : List.zipWith xor (oqpskProtected p) (oqpskProtected q) = errors := by
    rw [← hrx]
    have lp : (oqpskProtected p).length = 24 := by simp [oqpskProtected, (oqpsk_hcs_spec p).1, hp]
    generalize oqpskProtected p = a at *
    apply List.ext_getElem
    · simp [lp, hl]
    · intro i h1 h2
      simp only [List.getElem_zipWith]
      cases a[i]'(by omega) <;> cases errors[i] <;> rfl
  unfold hamming at this
  rw [e] at this
  omega

example : ∃ p q : Bits, p.length = 22 ∧ q.length = 22 ∧ p ≠ q ∧ hamming (ofdmProtected p) (ofdmProtected q) = 4 :=
  ⟨List.replicate 22 false, List.replicate 21 false ++ [true], by decide +kernel⟩

end SunPhy.C17
