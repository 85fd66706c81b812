import Verif.Proofs.OqpskFrame
import Verif.Props.C17
/-
The MR-O-QPSK PHY header.
-/
namespace SunPhy

theorem assignSlice_error {α} {l : List α} {a b : Nat} {vals : List α} (hb : b ≤ l.length) (hab : a ≤ b) (hv : vals.length ≠ b - a)
    (h2 : 2 ≤ vals.length) : assignSlice l a b vals = .error .ValueError := by
  unfold assignSlice
  simp only
  rw [if_neg (by omega)]
  match vals, h2 with
  | _ :: _ :: _, _ => rfl

/-- The first 16 header bits. -/
def oqpskHdr16 (p : OqpskParams) (r : Bits) (n : Nat) : Bits := (p.sm != 0) :: r ++ [false, false] ++ natBits 11 n

theorem oqpsk_phr_ok (p : OqpskParams) {n : Nat} (h : n < 2048) {r : Bits} (hr : rmBits p.rm = .ok r) (hl : r.length = 2) :
    p.phr n = .ok (oqpskHdr16 p r n ++ (oqpskHcs (oqpskHdr16 p r n)).map (· == 1)) := by
  unfold OqpskParams.phr oqpskHdr16
  have e : toBin n 11 = natBits 11 n := by simp [toBin, binaryRepr_eq (w := 11) (by decide) (show n < 2 ^ 11 from h)]
  rw [e, hr]
  have h11 : (natBits 11 n).length = 11 := natBits_length _ _
  generalize natBits 11 n = len at h11
  generalize (p.sm != 0) = s
  obtain ⟨r0, r1, rfl⟩ : ∃ r0 r1, r = [r0, r1] := by
    match r, hl with
    | [r0, r1], _ => exact ⟨r0, r1, rfl⟩
  have a1 : assignSlice ((List.replicate (oqpskPhrLength * 8) false).set 0 s) 1 (2 + 1) [r0, r1] = .ok (s :: r0 :: r1 :: List.replicate 21 false) := by
    rw [assignSlice_ok (by simp [oqpskPhrLength]) rfl (by decide)]; rfl
  simp only [bind, Except.bind, a1]
  have a2 : setSlice (s :: r0 :: r1 :: List.replicate 21 false) 3 (4 + 1) false = s :: r0 :: r1 :: List.replicate 21 false := by rfl
  rw [a2]
  have a3 : assignSlice (s :: r0 :: r1 :: List.replicate 21 false) 5 (15 + 1) len = .ok ([s, r0, r1, false, false] ++ len ++ List.replicate 8 false) := by
    rw [assignSlice_ok (by simp) (by rw [h11]) (by decide)]; rfl
  simp only [a3]
  have a4 : ([s, r0, r1, false, false] ++ len ++ List.replicate 8 false).take 16 = [s, r0, r1, false, false] ++ len := by
    rw [List.take_append_of_le_length (by simp [h11]), List.take_of_length_le (by simp [h11])]
  rw [a4]
  rw [assignSlice_ok (by simp [h11]) (by rw [List.length_map, (C17.oqpsk_hcs_spec _).1]) (by decide), a4,
    List.drop_of_length_le (by simp [h11])]
  simp

theorem oqpsk_phr_error (p : OqpskParams) {n : Nat} (h : 2048 ≤ n) : p.phr n = .error .ValueError := by
  unfold OqpskParams.phr
  cases hr : rmBits p.rm with
  | error e =>
    have : e = .ValueError := by
      unfold rmBits at hr
      split at hr
      · cases hr
      · split at hr
        · cases hr
        · cases hr; rfl
    subst this; rfl
  | ok r =>
    simp only [bind, Except.bind]
    cases h1 : assignSlice ((List.replicate (oqpskPhrLength * 8) false).set 0 (p.sm != 0)) 1 (2 + 1) r with
    | error e =>
      unfold assignSlice at h1
      simp only at h1
      split at h1
      · cases h1
      · split at h1
        · cases h1
        · cases h1; rfl
    | ok s =>
      have hs : s.length = 24 := by
        unfold assignSlice at h1
        simp only [List.length_set, List.length_replicate, oqpskPhrLength] at h1
        split at h1
        · rename_i hr2
          cases h1; simp; omega
        · split at h1
          · cases h1; simp
          · cases h1
      have hl := toBin_length_ge (n := n) (w := 11) h
      simp only
      rw [assignSlice_error (by simp [setSlice, hs]) (by decide) (by omega) (by omega)]

theorem rmBits_ok {rm : Int} (h0 : 0 ≤ rm) (h3 : rm ≤ 3) : rmBits rm = .ok (natBits 2 rm.toNat) := by
  unfold rmBits
  rw [if_pos h0]
  simp [toBin, binaryRepr_eq (w := 2) (by decide) (show rm.toNat < 2 ^ 2 by omega)]

theorem oqpsk_phr_badrate (p : OqpskParams) (n : Nat) (h : p.rm < -2 ∨ 3 < p.rm) : p.phr n = .error .ValueError := by
  unfold OqpskParams.phr
  unfold rmBits
  by_cases h0 : 0 ≤ p.rm
  · rw [if_pos h0]
    simp only [bind, Except.bind]
    have hl := toBin_length_ge (n := p.rm.toNat) (w := 2) (by omega)
    rw [assignSlice_error (by simp [oqpskPhrLength]) (by decide) (by omega) (by omega)]
  · rw [if_neg h0, if_neg (by omega)]; rfl

end SunPhy
