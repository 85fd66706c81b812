import Verif.Props.C69
import Verif.Proofs.HammingPerm
/-
C88 — with FEC enabled, the transmitted bits of two different equally long MR-FSK messages differ in at least six places, whatever the scheme,
interleaving and whitening.
-/
namespace SunPhy.C88
open SunPhy Spec

theorem body_hamming (p : FskParams) (hf : p.fecEnabled = true) (m m' : Bits) (hl : m.length = m'.length)
    (h8 : p.interleaving = true → m.length % 8 = 0) (hne : m ≠ m') : 6 ≤ hamming (RefF.body p m) (RefF.body p m') := by
  have e : ∀ y : Bits, y.length = m.length → RefF.coded p.fecScheme (RefF.header p (y.length / 8) ++ y) (RefF.pad (y.length / 8)) =
      fskFec p.fecScheme (RefF.header p (m.length / 8) ++ y) := by
    intro y hy
    have hx : (RefF.header p (y.length / 8) ++ y).length = 16 + y.length := by rw [List.length_append, C69.header_length]
    rw [← coded_ref p.fecScheme _ _ (fsk_pad_ref _ y hx).symm, hy]
  have hd := C38.C38_distance p.fecScheme (RefF.header p (m.length / 8) ++ m) (RefF.header p (m.length / 8) ++ m')
    (by rw [List.length_append, List.length_append, hl]) (by simpa using hne)
  unfold RefF.body
  simp only [hf, if_true]
  rw [e m rfl, e m' hl.symm]
  have hlen : (fskFec p.fecScheme (RefF.header p (m.length / 8) ++ m)).length = (fskFec p.fecScheme (RefF.header p (m.length / 8) ++ m')).length := by
    rw [fskFec_length, fskFec_length, List.length_append, List.length_append, hl]
  cases hi : p.interleaving
  · simpa using hd
  · simp only [if_true]
    rw [fsk_interleave_hamming hlen]
    · exact hd
    · refine (C37.C37_multiple p.fecScheme (RefF.header p (m.length / 8) ++ m)).2 ?_
      have := h8 hi
      rw [List.length_append, C69.header_length]
      omega

theorem bits_hamming (p : FskParams) (m m' : Bits) (hb : (RefF.body p m).length = (RefF.body p m').length) :
    hamming (RefF.bits p m) (RefF.bits p m') = hamming (RefF.body p m) (RefF.body p m') := by
  unfold RefF.bits
  simp only
  rw [hamming_append rfl, hamming_self, Nat.zero_add, ← hb, hamming_range, hamming_getD hb]
  congr 1
  apply Finset.filter_congr
  intro i _
  unfold RefF.at_
  generalize (if p.fecEnabled = true then 32 else 16) = st
  by_cases hs : p.scramble = true ∧ st ≤ i
  · rw [if_pos hs, if_pos hs]
    clear hs
    generalize (RefF.body p m).getD i false = u
    generalize (RefF.body p m').getD i false = v
    generalize Ref.key 0x1FF _ = k
    revert u v k; decide
  · rw [if_neg hs, if_neg hs]

/-- **C88 (distance).**  Two modulators with the same configuration and FEC enabled, whatever they were used for before: the frames of two
different messages of the same length have the same length and differ in at least six bits. -/
theorem C88_distance (o o' : FskObj) (hp : o'.params = o.params) (hf : o.params.fecEnabled = true) (a a' : Arg) (m m' : Bits)
    (ha : checkBinaryArray a = .ok m) (ha' : checkBinaryArray a' = .ok m') (hl : m.length = m'.length) (hne : m ≠ m')
    (b b' : Bits) (hb : ((fskBinary a).call o).1 = .ok b) (hb' : ((fskBinary a').call o').1 = .ok b') :
    b.length = b'.length ∧ 6 ≤ hamming b b' := by
  have h1 := C69.C69_bits o a m ha
  have h2 := C69.C69_bits o' a' m' ha'
  simp only at h1 h2
  rw [hb] at h1
  rw [hb', hp] at h2
  split at h1
  · cases h1
  rename_i hc
  rw [if_neg (by rw [← hl]; exact hc)] at h2
  have e1 := Except.ok.inj h1
  have e2 := Except.ok.inj h2
  subst e1 e2
  have hbl : (RefF.body o.params m).length = (RefF.body o.params m').length := by rw [C69.body_length, C69.body_length, hl]
  refine ⟨?_, ?_⟩
  · unfold RefF.bits; simp [hbl]
  · rw [bits_hamming _ _ _ hbl]
    refine body_hamming o.params hf m m' hl ?_ hne
    intro hi
    by_contra h8
    exact hc (Or.inr ⟨hf, hi, h8⟩)

/-- **C88 (correction).**  A received frame with at most two bit errors determines the message among those of its length. -/
theorem C88_corrects_two (o : FskObj) (hf : o.params.fecEnabled = true) (a a' : Arg) (m m' : Bits)
    (ha : checkBinaryArray a = .ok m) (ha' : checkBinaryArray a' = .ok m') (hl : m.length = m'.length)
    (b b' r : Bits) (hb : ((fskBinary a).call o).1 = .ok b) (hb' : ((fskBinary a').call o).1 = .ok b') (hr : r.length = b.length)
    (h : hamming r b ≤ 2) (h' : hamming r b' ≤ 2) : m = m' := by
  by_contra hne
  obtain ⟨e, h6⟩ := C88_distance o o rfl hf a a' m m' ha ha' hl hne b b' hb hb'
  have := C38.hamming_triangle b r b' hr.symm (by omega)
  rw [C38.hamming_comm b r] at this
  omega

/-! Non-vacuity: two accepted messages, one bit apart. -/
example : let p : FskParams := ⟨50000, 1, 0, .FSK4, true, 1, 0, true, true, 4⟩
    let m : Bits := List.replicate 8 true
    let m' : Bits := false :: List.replicate 7 true
    ((fskBinary (bitsArg m)).call { params := p }).1 = .ok (RefF.bits p m) ∧ ((fskBinary (bitsArg m')).call { params := p }).1 = .ok (RefF.bits p m') ∧
    m.length = m'.length ∧ m ≠ m' := by
  refine ⟨?_, ?_, by decide⟩
  · rw [C69.C69_bits _ _ _ (C03.C03_identity _ (by decide))]; exact if_neg (by decide)
  · rw [C69.C69_bits _ _ _ (C03.C03_identity _ (by decide))]; exact if_neg (by decide)

end SunPhy.C88
