import Verif.Proofs.OqpskIntl
import Verif.Proofs.OqpskPhr
import Verif.Proofs.Mdsss
import Verif.Spec.OqpskSizes
import Verif.Props.C47
import Verif.Props.C48
import Verif.Props.C50
import Verif.Props.C51
import Verif.Props.C57
import Verif.Props.C60
/-
Which MR-O-QPSK frames are produced, and their sizes.
-/
namespace SunPhy
open Spec

theorem shr_uniform (b : Band) : Uniform (shrSpreading b) 1 (shrChipsPerBit b) := by
  cases b <;> exact ⟨by decide, by decide +kernel, by decide +kernel⟩

theorem phr_uniform (b : Band) : Uniform (phrSpreading b) 1 (phrChipsPerBit b) := by
  cases b <;> exact ⟨by decide, by decide +kernel, by decide +kernel⟩

/-- SHR chips. -/
def shrChips (p : OqpskParams) : Bits := spreadOf (shrSpreading p.band) 1 (bde p.shr false)

theorem shr_ok (p : OqpskParams) : dsss (bde p.shr false) (shrSpreading p.band) = .ok (shrChips p) ∧
    (shrChips p).length = (preambleLength p.band + 16) * shrChipsPerBit p.band := by
  refine ⟨dsss_ok (shr_uniform _) _ (Nat.mod_one _), ?_⟩
  unfold shrChips
  rw [spreadOf_length (shr_uniform _), bde_length, Nat.div_one]
  unfold OqpskParams.shr
  rw [List.length_append, List.length_replicate]
  congr 2


theorem phr_ok_iff (p : OqpskParams) (h0 : 0 ≤ p.rm) (h3 : p.rm ≤ 3) (n : Nat) (h : n < 2048) :
    ∃ c, oqpskPhrChips p n = .ok c ∧ c.length = 60 * phrChipsPerBit p.band := by
  obtain ⟨hdr, e, a, l, c, e1, ha, hl, hc, -⟩ := C47.C47_header p h0 h3 n h
  have hlen : hdr.length = 24 := by rw [e1]; simp [ha, hl, hc]
  unfold oqpskPhrChips
  rw [e]
  simp only
  rw [C50.phr_eq _ (by rw [oqpskFec_phr_length, hlen])]
  simp only
  rw [dsss_ok (phr_uniform _) _ (Nat.mod_one _)]
  refine ⟨_, rfl, ?_⟩
  rw [spreadOf_length (phr_uniform _), bde_length]; simp

theorem phr_too_long (p : OqpskParams) (n : Nat) (h : 2048 ≤ n) : oqpskPhrChips p n = .error .ValueError := by
  unfold oqpskPhrChips
  rw [oqpsk_phr_error p h]

theorem psdu_codes (b : Band) (rm : Int) (h0 : 0 ≤ rm) (h3 : rm ≤ 3) :
    ∃ ub, psduBdeDsss b rm = .ok ub ∧
      ((∃ codes, psduSpreadingDsss b rm = .ok (some codes) ∧ Uniform codes (psduGroup b rm.toNat).1 (psduGroup b rm.toNat).2) ∨
       (psduSpreadingDsss b rm = .ok none ∧ psduGroup b rm.toNat = (1, 1))) := by
  have : rm = 0 ∨ rm = 1 ∨ rm = 2 ∨ rm = 3 := by omega
  rcases this with rfl | rfl | rfl | rfl
  · exact ⟨_, rfl, Or.inl ⟨_, rfl, by cases b <;> exact ⟨by decide, by decide +kernel, by decide +kernel⟩⟩⟩
  · exact ⟨_, rfl, Or.inl ⟨_, rfl, by cases b <;> exact ⟨by decide, by decide +kernel, by decide +kernel⟩⟩⟩
  · exact ⟨_, rfl, Or.inl ⟨_, rfl, by cases b <;> exact ⟨by decide, by decide +kernel, by decide +kernel⟩⟩⟩
  · refine ⟨_, rfl, ?_⟩
    cases b
    case b2450 => exact Or.inl ⟨_, rfl, ⟨by decide, by decide +kernel, by decide +kernel⟩⟩
    all_goals exact Or.inr ⟨rfl, rfl⟩

/-- The DSSS spreader succeeds exactly on whole groups; it is injective. -/
theorem spread_dsss (p : OqpskParams) (hs : p.sm = 0) (h0 : 0 ≤ p.rm) (h3 : p.rm ≤ 3) :
    (∀ t : Bits, t.length % (psduGroup p.band p.rm.toNat).1 ≠ 0 → oqpskSpread p t = .error .ValueError) ∧
    (∀ t : Bits, t.length % (psduGroup p.band p.rm.toNat).1 = 0 → ∃ s, oqpskSpread p t = .ok s ∧
      s.length = t.length / (psduGroup p.band p.rm.toNat).1 * (psduGroup p.band p.rm.toNat).2) ∧
    (∀ t t' s : Bits, oqpskSpread p t = .ok s → oqpskSpread p t' = .ok s → t = t') := by
  obtain ⟨ub, e1, hc⟩ := psdu_codes p.band p.rm h0 h3
  have hbl : ∀ t : Bits, (if ub = true then bde t false else t).length = t.length := by
    intro t; split
    · exact bde_length _ _ _
    · rfl
  have hinj : ∀ t t' : Bits, (if ub = true then bde t false else t) = (if ub = true then bde t' false else t') → t = t' := by
    intro t t'; split
    · exact C48.C48_injective _ _ _
    · exact id
  rcases hc with ⟨codes, e2, hu⟩ | ⟨e2, hg⟩
  · have e : ∀ t, oqpskSpread p t = dsss (if ub = true then bde t false else t) codes := by
      intro t; unfold oqpskSpread; rw [if_pos hs, e1, e2]
    refine ⟨fun t ht => ?_, fun t ht => ?_, fun t t' s h h' => ?_⟩
    · rw [e]; exact dsss_error hu _ (by rw [hbl]; exact ht)
    · rw [e]; exact ⟨_, dsss_ok hu _ (by rw [hbl]; exact ht), by rw [spreadOf_length hu, hbl]⟩
    · rw [e] at h h'
      exact hinj t t' (C51.C52_injective codes ⟨p.band, Or.inr (Or.inr ⟨p.rm, e2⟩)⟩ _ _ s h h')
  · have e : ∀ t, oqpskSpread p t = .ok (if ub = true then bde t false else t) := by
      intro t; unfold oqpskSpread; rw [if_pos hs, e1, e2]
    rw [hg]
    refine ⟨fun t ht => absurd (Nat.mod_one _) ht, fun t _ => ⟨_, e t, by rw [hbl, Nat.div_one, Nat.mul_one]⟩, fun t t' s h h' => ?_⟩
    rw [e] at h h'
    exact hinj t t' (Except.ok.inj (h.trans h'.symm))

theorem mdsss_factor (b : Band) (rm : Int) (h0 : 0 ≤ rm) (h3 : rm ≤ 3) (hb : mdsssSupported b = true) :
    mdsssFactor b rm = .ok (mdsssF b rm.toNat) ∧ mdsssF b rm.toNat / 4 ∈ [4, 8, 16, 32] ∧ 4 * (mdsssF b rm.toNat / 4) = mdsssF b rm.toNat := by
  have : rm = 0 ∨ rm = 1 ∨ rm = 2 ∨ rm = 3 := by omega
  rcases this with rfl | rfl | rfl | rfl <;> (cases b <;> first | (exfalso; revert hb; decide) | exact ⟨rfl, by decide, by decide⟩)

theorem spread_mdsss (p : OqpskParams) (hs : p.sm = 1) (h0 : 0 ≤ p.rm) (h3 : p.rm ≤ 3) (hb : mdsssSupported p.band = true) (t : Bits) :
    (tpcBits t.length % 9 = 0 → 0 < tpcBits t.length → ∃ s, oqpskSpread p t = .ok s ∧
      coveringCode (mdsssF p.band p.rm.toNat / 4) = .ok s ∧ s.length = mdsssF p.band p.rm.toNat) ∧
    (tpcBits t.length % 3 ≠ 0 → oqpskSpread p t = .error .ValueError) := by
  obtain ⟨e1, e2, e3⟩ := mdsss_factor p.band p.rm h0 h3 hb
  have e : oqpskSpread p t = mdsss t (mdsssF p.band p.rm.toNat) := by
    unfold oqpskSpread; rw [if_neg (by omega), e1]
  constructor
  · intro h9 hp
    rw [e, mdsss_ok t e2 h9 hp]
    have := covering_ok _ e2
    cases hc : coveringCode (mdsssF p.band p.rm.toNat / 4) with
    | error _ => rw [hc] at this; cases this
    | ok s =>
      rw [hc] at this
      exact ⟨s, rfl, rfl, by rw [Except.ok.inj this, e3]⟩
  · intro h3'
    rw [e, mdsss_error t _ h3']

/-- A frame from its parts. -/
theorem frame_eq (p : OqpskParams) (m : Bits) (c : Bits) (hc : oqpskPhrChips p (m.length / 8) = .ok c) (t : Bits) (ht : oqpskPsduBits p m = .ok t) :
    oqpskFrame p m = (oqpskSpread p t).map fun s => shrChips p ++ c ++ p.insertPilots s := by
  unfold oqpskFrame
  rw [(shr_ok p).1, hc, ht]
  simp only
  cases oqpskSpread p t <;> rfl

/-- Coded PSDU bits of an octet message. -/
theorem psduBits_ok (p : OqpskParams) (m : Bits) (h8 : m.length % 8 = 0) :
    ∃ t, oqpskPsduBits p m = .ok t ∧
      t.length = if (0 ≤ p.rm ∧ p.rm ≤ 1) ∨ p.sm = 0 then 126 * psduBlocks (m.length / 8) else m.length := by
  unfold oqpskPsduBits
  split
  · rename_i hc
    rw [psduInterleaver_eq (psduBlocks (m.length / 8)) _ (oqpskFec_length m h8)]
    exact ⟨_, rfl, by simp⟩
  · exact ⟨_, rfl, rfl⟩

end SunPhy
