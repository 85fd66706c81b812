import Verif.Proofs.FieldsLemmas
import Verif.Props.C04
import Verif.Spec.OfdmSupported
/-
C14 — MR-OFDM header field layout.
-/
namespace SunPhy.C14
open SunPhy Spec

/-- The complete header for in-range fields. -/
theorem phrValue_eq (rate length scr n : Nat) (hr : rate ≤ 6) (h1 : 1 ≤ length) (h2 : length ≤ 2047) (hs : scr ≤ 3) (hn : 30 ≤ n) :
    phrValue rate length scr n =
      .ok (natBits 5 rate ++ [false] ++ natBits 11 length ++ [false, false] ++ natBits 2 scr ++ [false] ++
        (hcsCalculation (natBits 5 rate ++ [false] ++ natBits 11 length ++ [false, false] ++ natBits 2 scr ++ [false])).map (· == 1) ++
        List.replicate (n - 30) false) := by
  obtain ⟨m, rfl⟩ : ∃ m, n = 30 + m := ⟨n - 30, by omega⟩
  have e5 : natBits 5 rate = [rate.testBit 4, rate.testBit 3, rate.testBit 2, rate.testBit 1, rate.testBit 0] := rfl
  have e11 : natBits 11 length = [length.testBit 10, length.testBit 9, length.testBit 8, length.testBit 7, length.testBit 6,
    length.testBit 5, length.testBit 4, length.testBit 3, length.testBit 2, length.testBit 1, length.testBit 0] := rfl
  have e2 : natBits 2 scr = [scr.testBit 1, scr.testBit 0] := rfl
  have e30 : List.replicate (30 + m) false = List.replicate 30 false ++ List.replicate m false := List.replicate_append_replicate.symm
  unfold phrValue
  have hc : phrCheck rate length scr = .ok () := by
    unfold phrCheck
    rw [if_neg (by omega), if_neg (by omega), if_neg (by omega)]
  have u1 := uintarr_ok (v := rate) (w := 5) (by decide) (by omega)
  have u2 := uintarr_ok (v := length) (w := 11) (by decide) (by omega)
  have u3 := uintarr_ok (v := scr) (w := 2) (by decide) (by omega)
  simp only [hc, u1, u2, u3, bind, Except.bind]
  rw [e30]
  have s1 : assignSlice (List.replicate 30 false ++ List.replicate m false) 0 (4 + 1) (natBits 5 rate) =
      .ok (natBits 5 rate ++ List.replicate 25 false ++ List.replicate m false) := by
    rw [assignSlice_ok (by simp) (by simp [natBits_length]) (by decide)]
    rfl
  rw [s1]
  simp only
  have s2 : assignSlice (natBits 5 rate ++ List.replicate 25 false ++ List.replicate m false) 6 (16 + 1) (natBits 11 length) =
      .ok (natBits 5 rate ++ [false] ++ natBits 11 length ++ List.replicate 13 false ++ List.replicate m false) := by
    rw [assignSlice_ok (by simp [natBits_length]; omega) (by simp [natBits_length]) (by decide), e5, e11]
    rfl
  rw [s2]
  simp only
  have s3 : assignSlice (natBits 5 rate ++ [false] ++ natBits 11 length ++ List.replicate 13 false ++ List.replicate m false) 19 (20 + 1)
      (natBits 2 scr) = .ok (natBits 5 rate ++ [false] ++ natBits 11 length ++ [false, false] ++ natBits 2 scr ++ [false] ++
        List.replicate 8 false ++ List.replicate m false) := by
    rw [assignSlice_ok (by simp [natBits_length]; omega) (by simp [natBits_length]) (by decide), e5, e11, e2]
    rfl
  rw [s3]
  simp only
  have l22 : (natBits 5 rate ++ [false] ++ natBits 11 length ++ [false, false] ++ natBits 2 scr ++ [false]).length = 22 := by
    simp [natBits_length]
  clear s1 s2 s3 u1 u2 u3 hc e5 e11 e2 e30
  generalize natBits 5 rate ++ [false] ++ natBits 11 length ++ [false, false] ++ natBits 2 scr ++ [false] = p22 at l22 ⊢
  have t22 : (p22 ++ List.replicate 8 false ++ List.replicate m false).take 22 = p22 := by
    rw [List.append_assoc, ← l22, List.take_left]
  have d30 : (p22 ++ List.replicate 8 false ++ List.replicate m false).drop (29 + 1) = List.replicate m false := by
    have : (p22 ++ List.replicate 8 false).length = 29 + 1 := by rw [List.length_append, l22, List.length_replicate]
    rw [← this, List.drop_left]
  rw [t22]
  have hl : ((hcsCalculation p22).map (· == 1)).length = 8 := by rw [List.length_map, (C16.C16_crc _).1]
  rw [assignSlice_ok (by simp [l22]; omega) (by rw [hl]) (by decide), t22, d30, show 30 + m - 30 = m by omega]

/-- Reading a field: the number written most significant bit first in positions `a .. a+w-1`. -/
def field (h : Bits) (a w : Nat) : Nat := C04.denotesMSB ((h.drop a).take w)

theorem field_natBits (x y : Bits) (w v : Nat) (hv : v < 2 ^ w) : field (x ++ natBits w v ++ y) x.length w = v := by
  unfold field
  have e : ((x ++ natBits w v ++ y).drop x.length).take w = natBits w v := by
    rw [List.append_assoc, List.drop_left, List.take_append_of_le_length (by simp [natBits_length]),
      List.take_of_length_le (by simp [natBits_length])]
  rw [e, C04.denotesMSB_eq, natBits_reverse, C04.leValue_range w v hv]

/-- **C14.**  For MCS 0..6, length 1..2047, scrambler 0..3 and any header size of at least 30 bits: the header is built, has
the requested size; bits 0-4 hold the MCS, 6-16 the length, 19-20 the scrambler index, most significant bit first; bits 22-29
are the HCS of bits 0-21; bits 5, 17, 18, 21 and everything from bit 30 on are zero. -/
theorem C14_layout (rate length scr n : Nat) (hr : rate ≤ 6) (h1 : 1 ≤ length) (h2 : length ≤ 2047) (hs : scr ≤ 3) (hn : 30 ≤ n) :
    ∃ h, phrValue rate length scr n = .ok h ∧ h.length = n ∧
      field h 0 5 = rate ∧ field h 6 11 = length ∧ field h 19 2 = scr ∧
      (h.drop 22).take 8 = (hcsCalculation (h.take 22)).map (· == 1) ∧
      h[5]? = some false ∧ h[17]? = some false ∧ h[18]? = some false ∧ h[21]? = some false ∧
      (∀ i, 30 ≤ i → i < n → h[i]? = some false) := by
  refine ⟨_, phrValue_eq rate length scr n hr h1 h2 hs hn, ?_⟩
  generalize hp : natBits 5 rate ++ [false] ++ natBits 11 length ++ [false, false] ++ natBits 2 scr ++ [false] = p22
  have l22 : p22.length = 22 := by rw [← hp]; simp [natBits_length]
  generalize hh : (hcsCalculation p22).map (· == 1) = hcs
  have hl : hcs.length = 8 := by rw [← hh, List.length_map, (C16.C16_crc _).1]
  have ht : (p22 ++ hcs ++ List.replicate (n - 30) false).take 22 = p22 := by
    rw [List.append_assoc, ← l22, List.take_left]
  refine ⟨by simp [l22, hl]; omega, ?_, ?_, ?_, ?_, ?_, ?_, ?_, ?_, ?_⟩
  · have := field_natBits [] ([false] ++ natBits 11 length ++ [false, false] ++ natBits 2 scr ++ [false] ++ hcs ++ List.replicate (n - 30) false) 5 rate (by omega)
    rw [← hp]
    simpa using this
  · have := field_natBits (natBits 5 rate ++ [false]) ([false, false] ++ natBits 2 scr ++ [false] ++ hcs ++ List.replicate (n - 30) false) 11 length (by omega)
    rw [← hp]
    simpa [natBits_length] using this
  · have := field_natBits (natBits 5 rate ++ [false] ++ natBits 11 length ++ [false, false]) ([false] ++ hcs ++ List.replicate (n - 30) false) 2 scr (by omega)
    rw [← hp]
    simpa [natBits_length] using this
  · rw [ht, hh, List.append_assoc, ← l22, List.drop_left, ← hl, List.take_left]
  · rw [List.append_assoc, List.getElem?_append_left (by omega), ← hp]; rfl
  · rw [List.append_assoc, List.getElem?_append_left (by omega), ← hp]; rfl
  · rw [List.append_assoc, List.getElem?_append_left (by omega), ← hp]; rfl
  · rw [List.append_assoc, List.getElem?_append_left (by omega), ← hp]; rfl
  · intro i hi hin
    rw [List.getElem?_append_right (by simp [l22, hl]; omega), List.getElem?_replicate, if_pos (by simp [l22, hl]; omega)]

/-- **C14 (read back).**  The three fields are determined by the header. -/
theorem C14_injective (rate length scr rate' length' scr' n : Nat) (h : Bits) (hr : rate ≤ 6) (h1 : 1 ≤ length) (h2 : length ≤ 2047)
    (hs : scr ≤ 3) (hr' : rate' ≤ 6) (h1' : 1 ≤ length') (h2' : length' ≤ 2047) (hs' : scr' ≤ 3) (hn : 30 ≤ n)
    (e : phrValue rate length scr n = .ok h) (e' : phrValue rate' length' scr' n = .ok h) :
    rate = rate' ∧ length = length' ∧ scr = scr' := by
  obtain ⟨x, ex, _, f1, f2, f3, _⟩ := C14_layout rate length scr n hr h1 h2 hs hn
  obtain ⟨y, ey, _, g1, g2, g3, _⟩ := C14_layout rate' length' scr' n hr' h1' h2' hs' hn
  rw [e] at ex; rw [e'] at ey
  cases ex; cases ey
  exact ⟨f1.symm.trans g1, f2.symm.trans g2, f3.symm.trans g3⟩

/-- **C14 (sizes actually used).**  In every supported configuration the header size is at least 36, so the layout theorem
applies to every frame. -/
theorem C14_sizes (p : OfdmParams) (h : Supported p) : 36 ≤ p.phrLength := by
  have : ∀ p ∈ allSupported, 36 ≤ p.phrLength := by decide +kernel
  exact this p (mem_allSupported h)

example : Supported ⟨4, 3, 1, 2⟩ := ⟨by decide, by decide, by decide⟩
example : (phrValue 4 100 2 36).toBool = true := by decide +kernel

end SunPhy.C14
