import Verif.Props.C68
import Verif.Props.C96
/-
C108 — MR-O-QPSK frames of bit messages of any length are those of the reference transmitter.
-/
namespace SunPhy.C108
open SunPhy Spec Complex C63

/-- The chips of every frame that is produced. -/
theorem frame_ref {p : OqpskParams} (h : Standard p) (m : Bits) (hne : m ≠ []) (h2 : m.length / 8 ≤ 2047) (hS : C96.Spreadable p m.length) :
    oqpskFrame p m = .ok (RefQ.chips p.band (decide (p.sm = 1)) p.rm.toNat m) ∧
      (RefQ.chips p.band (decide (p.sm = 1)) p.rm.toNat m).length = C96.frameChipsOf p m.length := by
  have hd : decide (p.sm ≠ 0) = decide (p.sm = 1) := by
    rcases h.mode with hs | ⟨hs, -⟩ <;> simp [hs]
  obtain ⟨t, ht, -, k2⟩ := C96.spread_bits h m hne
  obtain ⟨c, hc, hcl⟩ := phr_ok_iff p h.rate.1 h.rate.2 (m.length / 8) (by omega)
  obtain ⟨s, hs, hsl⟩ := k2 hS
  have hf : oqpskFrame p m = .ok (shrChips p ++ c ++ p.insertPilots s) := by
    rw [frame_eq p m c hc t ht, hs]; rfl
  have hlen : (shrChips p ++ c ++ p.insertPilots s).length = C96.frameChipsOf p m.length := by
    rw [List.length_append, List.length_append, (shr_ok _).2, hcl, C57.C57_size, hsl]
    unfold C96.frameChipsOf
    generalize p.band = b
    have e1 : preambleLength b = preambleBits b := by cases b <;> rfl
    have e2 : C57.spacing b = (pilots b).2 := by cases b <;> rfl
    have e3 : C57.pilotLen b = (pilots b).1 := by cases b <;> rfl
    rw [e1, e2, e3]
    omega
  have key : shrChips p ++ c ++ p.insertPilots s = RefQ.chips p.band (decide (p.sm = 1)) p.rm.toNat m := by
    unfold RefQ.chips
    rw [shr_ref, pilots_ref]
    rw [phr_ref p h.rate.1 h.rate.2 (m.length / 8) (by omega)] at hc
    rw [← Except.ok.inj hc, hd]
    congr 2
    rcases h.mode with hs0 | ⟨hs1, hb⟩
    · unfold oqpskPsduBits at ht
      rw [if_pos (Or.inr hs0), psduBits_ref m] at ht
      have ht := Except.ok.inj ht
      subst ht
      have hg : (RefQ.psduBits m).length % (psduGroup p.band p.rm.toNat).1 = 0 := by
        by_contra hc
        have := (spread_dsss p hs0 h.rate.1 h.rate.2).1 _ hc
        rw [hs] at this; cases this
      rw [psdu_dsss_ref p hs0 h.rate.1 h.rate.2 m hg] at hs
      rw [← Except.ok.inj hs]
      simp [hs0]
    · have ht0 : 0 < t.length := by
        unfold oqpskPsduBits at ht
        by_cases hq : (0 ≤ p.rm ∧ p.rm ≤ 1) ∨ p.sm = 0
        · rw [if_pos hq, psduBits_ref m] at ht
          rw [← Except.ok.inj ht]
          unfold RefQ.psduBits RefQ.padded blocks63
          simp
          omega
        · rw [if_neg hq] at ht
          rw [← Except.ok.inj ht]
          exact List.length_pos_iff.2 hne
      have hp : 0 < tpcBits t.length := by unfold tpcBits; omega
      have h9 : tpcBits t.length % 9 = 0 := by
        by_contra hn
        obtain ⟨e1, -, -⟩ := mdsss_factor p.band p.rm h.rate.1 h.rate.2 hb
        unfold oqpskSpread at hs
        rw [if_neg (by omega), e1] at hs
        simp only at hs
        rw [C96.mdsss_error_nine t _ hn] at hs
        cases hs
      obtain ⟨s', e, hcov, -⟩ := (spread_mdsss p hs1 h.rate.1 h.rate.2 hb t).1 h9 hp
      rw [hs] at e
      rw [← Except.ok.inj e, mdsss_ref p.band p.rm h.rate.1 h.rate.2 hb] at hcov
      rw [← Except.ok.inj hcov]
      simp [RefQ.psdu, hs1]
  rw [hf, ← key]
  exact ⟨rfl, hlen⟩

/-- **C108.**  On every configuration with rate mode 0..3 and spreading mode 0 or (in the MDSSS bands) 1, whatever the object was used for before, an accepted bit
message of any length is either refused with `ValueError` (2048 octets or more, or a size that cannot be spread) or gives exactly the samples and the sampling
frequency of the reference transmitter. -/
theorem C108_reference (o : OqpskObj) (h : Standard o.params) (a : Arg) (m : Bits) (ha : checkBinaryArray a = .ok m) :
    let q := o.params
    (¬ (m.length / 8 ≤ 2047 ∧ C96.Spreadable q m.length) → ((oqpskBitsToIQ a).call o).1 = .error .ValueError) ∧
    (m.length / 8 ≤ 2047 ∧ C96.Spreadable q m.length → ((oqpskBitsToIQ a).call o).1 =
      .ok (RefQ.samples q.band q.sps (RefQ.chips q.band (decide (q.sm = 1)) q.rm.toNat m), (RefQ.rate q.band (decide (q.sm = 1)) q.rm.toNat : ℚ) * q.sps)) := by
  intro q
  refine ⟨(C96.C96_bits o h a m ha).2, fun ⟨h2, hS⟩ => ?_⟩
  have hne : m ≠ [] := by
    have hacc := (C03.C03_accepts_iff a).1 ⟨m, ha⟩
    have := (C03.C03_validation a).1 hacc
    rw [ha] at this
    rw [Except.ok.inj this]
    cases a <;> simp_all [C03.Acceptable, C03.entries]
  obtain ⟨hf, hlen⟩ := frame_ref h m hne h2 hS
  rw [(oqpskBitsToIQ_result a o).1]
  unfold oqpskBitsResult
  rw [ha]
  simp only
  rw [hf]
  have hpos := C96.chips_pos o.params m.length
  exact C68.samples_ref h _ (by intro he; rw [he, List.length_nil] at hlen; omega) (by rw [hlen]; exact C96.chips_even _ h _)

/-- Non-vacuity: 57 bits at 780 MHz, rate mode 1, are modulated: 114 + 18 coded bits padded with the zeros that seven octets need. -/
example (o : OqpskObj) (ho : o.params = ⟨.b780, 1, 0, 10⟩) (m : Bits) (hm : m.length = 57) :
    ∃ fs, ((oqpskBitsToIQ (bitsArg m)).call o).1 = .ok (RefQ.samples .b780 10 (RefQ.chips .b780 false 1 m), fs) := by
  have hs : Standard o.params := by rw [ho]; exact ⟨by decide, Or.inl rfl, by decide⟩
  have hm0 : m ≠ [] := by rintro rfl; simp at hm
  have := (C108_reference o hs _ m (C03.C03_identity m hm0)).2
  rw [ho] at this
  simp only at this
  exact ⟨_, this (by rw [hm]; unfold C96.Spreadable; decide)⟩

end SunPhy.C108
