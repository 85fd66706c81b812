import Verif.Proofs.FskCode
import Verif.Props.C36
/-
C38 — MR-FSK FEC is decodable and corrects errors.
-/
namespace SunPhy.C38
open SunPhy Spec

theorem fec_scheme {s : Nat} (h : s ≠ 0) (d : Bits) : fskFec s d = fskFec 1 d := by
  rw [fskFec_eq, fskFec_eq, fskEncode_scheme h, fskEncode_scheme h]
  simp [fskTailBits, h]

/-- Two coded blocks for equally long data end in the same register, so the distance of the code applies. -/
theorem fec_dist01 {s : Nat} (hs : s < 2) (d d' : Bits) (hl : d.length = d'.length) (hne : d ≠ d') : 6 ≤ hamming (fskFec s d) (fskFec s d') := by
  rw [fskFec_eq, fskFec_eq, ← hl]
  apply fsk_dist_start hs _ _ (by decide)
  · simp [fskTail_length, hl]
  · intro e
    apply hne
    rw [List.append_assoc, List.append_assoc] at e
    exact (List.append_inj e hl).1
  · simp only [fskEncode_append]
    rw [fskTail_zero s (fskState_lt s (by decide) d), fskTail_zero s (fskState_lt s (by decide) d')]

/-- **C38 (distance).**  Two different equally long messages (with tail and pad) differ in at least 6 coded bits, for both schemes. -/
theorem C38_distance (scheme : Nat) (d d' : Bits) (hl : d.length = d'.length) (hne : d ≠ d') : 6 ≤ hamming (fskFec scheme d) (fskFec scheme d') := by
  by_cases h : scheme = 0
  · subst h; exact fec_dist01 (by decide) d d' hl hne
  · rw [fec_scheme h, fec_scheme h d']; exact fec_dist01 (by decide) d d' hl hne

/-- **C38 (injective).** -/
theorem C38_injective (scheme : Nat) (d d' : Bits) (hl : d.length = d'.length) (h : fskFec scheme d = fskFec scheme d') : d = d' := by
  by_contra hne
  have := C38_distance scheme d d' hl hne
  rw [h, hamming_self] at this
  omega

theorem hamming_comm (a b : Bits) : hamming a b = hamming b a := by
  unfold hamming
  rw [List.zipWith_comm]
  congr 1
  congr 1
  funext x y
  exact Bool.xor_comm _ _

theorem hamming_triangle (a b c : Bits) (h1 : a.length = b.length) (h2 : b.length = c.length) : hamming a c ≤ hamming a b + hamming b c := by
  induction a generalizing b c with
  | nil => simp [hamming]
  | cons x a ih =>
    cases b with
    | nil => simp at h1
    | cons y b =>
      cases c with
      | nil => simp at h2
      | cons z c =>
        rw [hamming_cons, hamming_cons, hamming_cons]
        have := ih b c (by simpa using h1) (by simpa using h2)
        cases x <;> cases y <;> cases z <;> simp <;> omega

/-- **C38 (error correction).**  Up to two bit errors in the coded block can be corrected: a received block within distance 2 of two code
blocks (of equal data size) identifies the data uniquely. -/
theorem C38_corrects_two (scheme : Nat) (d d' r : Bits) (hl : d.length = d'.length) (hr : r.length = (fskFec scheme d).length)
    (h : hamming r (fskFec scheme d) ≤ 2) (h' : hamming r (fskFec scheme d') ≤ 2) : d = d' := by
  by_contra hne
  have h6 := C38_distance scheme d d' hl hne
  have hll : (fskFec scheme d).length = (fskFec scheme d').length := by rw [fskFec_length, fskFec_length, hl]
  have := hamming_triangle (fskFec scheme d) r (fskFec scheme d') hr.symm (by omega)
  rw [hamming_comm (fskFec scheme d) r] at this
  omega

/-- **C38 (systematic).**  With the RSC scheme coded bit `2n+1` is data bit `n`. -/
theorem C38_systematic (scheme : Nat) (hs : scheme ≠ 0) (d : Bits) (n : Nat) (h : n < d.length) : (fskFec scheme d)[2 * n + 1]? = d[n]? := by
  rw [fec_scheme hs]
  obtain ⟨tail, x, w, -, hx, -, -, -, h2⟩ := C36.C64_rsc d
  have hn : n < x.length := by rw [hx]; simp; omega
  rw [(h2 n hn).2.2, hx, List.getD_eq_getElem?_getD, List.append_assoc, List.getElem?_append_left h, List.getElem?_eq_getElem h]
  rfl

/-- The distance 6 is attained: no stronger claim holds. -/
theorem C38_distance_sharp : hamming (fskFec 0 [true, true, false, false, false]) (fskFec 0 [false, false, false, false, false]) = 6 ∧
    hamming (fskFec 1 [true, false, false, false, true]) (fskFec 1 [false, false, false, false, false]) = 6 := by decide

example : ([true, false] : Bits).length = ([false, true] : Bits).length ∧ ([true, false] : Bits) ≠ [false, true] := by decide

end SunPhy.C38
