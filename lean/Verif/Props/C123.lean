import Verif.Proofs.OqpskLossBits
import Verif.Props.C60Api
import Verif.Props.C59
/-
C123 — exactly what an MR-O-QPSK signal says about a message of any number of bits.
-/
namespace SunPhy.C123
open SunPhy Spec Complex C63

/-- The message bits that a DSSS signal contains: the first 63, and those of the last blocks (`n` is the number of bits of the message).  `n % 8` bits of an
incomplete octet shift the end, and four of them or more bring back one bit. -/
def Contained (n k : Nat) : Prop :=
  k < 63 ∨ 54 * ((8 * (n / 8) + 6 + 62) / 63) + 3 + n % 8 - (if 4 ≤ n % 8 then 1 else 0) ≤ k

/-- The header chips determine the number of octets. -/
theorem phr_inj (p : OqpskParams) (h0 : 0 ≤ p.rm) (h3 : p.rm ≤ 3) (L L' : Nat) (h : L < 2048) (h' : L' < 2048) (c : Bits)
    (p1 : oqpskPhrChips p L = .ok c) (p2 : oqpskPhrChips p L' = .ok c) : L = L' := by
  obtain ⟨hdr, q1, q2⟩ := C47.C47_header p h0 h3 L h
  obtain ⟨hdr', q1', q2'⟩ := C47.C47_header p h0 h3 L' h'
  have hlen : ∀ hdr s r n, C47.IsHeader hdr s r n → hdr.length = 24 := by
    rintro hdr s r n ⟨x, y, z, e, h1, h2, h3, -⟩
    rw [e]; simp [h1, h2, h3]
  have L1 : (oqpskFec hdr false).length = 60 := by rw [oqpskFec_phr_length, hlen _ _ _ _ q2]
  have L2 : (oqpskFec hdr' false).length = 60 := by rw [oqpskFec_phr_length, hlen _ _ _ _ q2']
  obtain ⟨out, i1, -, i3⟩ := C50.C50_phr _ L1
  obtain ⟨out', i1', -, i3'⟩ := C50.C50_phr _ L2
  unfold oqpskPhrChips at p1 p2
  rw [q1] at p1
  rw [q1'] at p2
  simp only [i1] at p1
  simp only [i1'] at p2
  have hb := C51.C52_injective _ ⟨p.band, Or.inr (Or.inl rfl)⟩ _ _ _ p1 p2
  have ho := C48.C48_injective _ _ _ hb
  subst ho
  have hfec : oqpskFec hdr false = oqpskFec hdr' false := by
    have surj : ∀ i < 60, ∃ k < 60, C50.rowCol 10 6 k = i := by decide +kernel
    apply List.ext_getElem?
    intro i
    by_cases hi : i < 60
    · obtain ⟨k, hk, rfl⟩ := surj i hi
      rw [← i3 k hk, ← i3' k hk]
    · rw [List.getElem?_eq_none (by omega), List.getElem?_eq_none (by omega)]
  rw [oqpskFec_eq, oqpskFec_eq] at hfec
  have hpad := rateHalf_seg_inj _ _ (by decide) hfec
  have hh : hdr = hdr' := by
    have e1 : oqpskPad hdr false = hdr ++ List.replicate 6 false := by simp [oqpskPad]
    have e2 : oqpskPad hdr' false = hdr' ++ List.replicate 6 false := by simp [oqpskPad]
    rw [e1, e2] at hpad
    exact List.append_cancel_right hpad
  subst hh
  exact (C47.C47_read_back hdr _ _ _ _ _ _ q2 q2').2.2

theorem phr_inj_ref (p : OqpskParams) (h0 : 0 ≤ p.rm) (h3 : p.rm ≤ 3) (L L' : Nat) (h : L < 2048) (h' : L' < 2048)
    (e : RefQ.phr p.band (decide (p.sm ≠ 0)) p.rm.toNat L = RefQ.phr p.band (decide (p.sm ≠ 0)) p.rm.toNat L') : L = L' :=
  phr_inj p h0 h3 L L' h h' _ (phr_ref p h0 h3 L h) (by rw [phr_ref p h0 h3 L' h', e])

theorem pilots_inj (p : OqpskParams) (x y : Bits) (e : RefQ.withPilots p.band x = RefQ.withPilots p.band y) : x = y := by
  rw [← pilots_ref, ← pilots_ref] at e
  rw [← C57.C57_recover p x, e, C57.C57_recover p y]

/-- Equal frames: equal octet counts and equal PSDU chips. -/
theorem chips_iff (p : OqpskParams) (h : Standard p) (m m' : Bits) (hL : m.length / 8 < 2048) (hL' : m'.length / 8 < 2048) :
    RefQ.chips p.band (decide (p.sm = 1)) p.rm.toNat m = RefQ.chips p.band (decide (p.sm = 1)) p.rm.toNat m' ↔
      m.length / 8 = m'.length / 8 ∧ RefQ.psdu p.band (decide (p.sm = 1)) p.rm.toNat m = RefQ.psdu p.band (decide (p.sm = 1)) p.rm.toNat m' := by
  have hd : decide (p.sm ≠ 0) = decide (p.sm = 1) := by
    rcases h.mode with hs | ⟨hs, -⟩ <;> simp [hs]
  unfold RefQ.chips
  constructor
  · intro e
    rw [List.append_assoc, List.append_assoc] at e
    obtain ⟨e1, e2⟩ := List.append_inj (List.append_cancel_left e) (by rw [C102.phr_length, C102.phr_length])
    rw [← hd] at e1
    exact ⟨phr_inj_ref p h.rate.1 h.rate.2 _ _ hL hL' e1, pilots_inj p _ _ e2⟩
  · rintro ⟨e1, e2⟩
    rw [e1, e2]

/-- The message is accepted: what is known then. -/
theorem accepted (o : OqpskObj) (h : Standard o.params) (a : Arg) (m : Bits) (ha : checkBinaryArray a = .ok m) (r) (hok : ((oqpskBitsToIQ a).call o).1 = .ok r) :
    m ≠ [] ∧ m.length / 8 < 2048 ∧ C96.Spreadable o.params m.length ∧
      r = (RefQ.samples o.params.band o.params.sps (RefQ.chips o.params.band (decide (o.params.sm = 1)) o.params.rm.toNat m),
        (RefQ.rate o.params.band (decide (o.params.sm = 1)) o.params.rm.toNat : ℚ) * o.params.sps) := by
  have hne : m ≠ [] := by
    have hacc := (C03.C03_accepts_iff a).1 ⟨m, ha⟩
    have := (C03.C03_validation a).1 hacc
    rw [ha] at this
    rw [Except.ok.inj this]
    cases a <;> simp_all [C03.Acceptable, C03.entries]
  obtain ⟨hbad, hgood⟩ := C108.C108_reference o h a m ha
  by_cases hS : m.length / 8 ≤ 2047 ∧ C96.Spreadable o.params m.length
  · have hr := hgood hS
    rw [hok] at hr
    exact ⟨hne, by omega, hS.2, Except.ok.inj hr⟩
  · rw [hbad hS] at hok; cases hok

/-- Same signal, same chips. -/
theorem signals_iff (o o' : OqpskObj) (hp : o'.params = o.params) (h : Standard o.params) (hsps : C60.Audible o.params.band o.params.sps) (a a' : Arg) (m m' : Bits)
    (ha : checkBinaryArray a = .ok m) (ha' : checkBinaryArray a' = .ok m') (iq iq' : List ℂ) (fs fs' : ℚ)
    (hok : ((oqpskBitsToIQ a).call o).1 = .ok (iq, fs)) (hok' : ((oqpskBitsToIQ a').call o').1 = .ok (iq', fs')) :
    iq = iq' ↔ RefQ.chips o.params.band (decide (o.params.sm = 1)) o.params.rm.toNat m = RefQ.chips o.params.band (decide (o.params.sm = 1)) o.params.rm.toNat m' := by
  constructor
  · intro e
    subst e
    obtain ⟨j, hj, hg⟩ := (C62.C62_nonzero _ _).2 hsps
    have d1 := C60.C60_api_demodulate o h a m ha iq fs hok j hj hg
    have d2 := C60.C60_api_demodulate o' (by rw [hp]; exact h) a' m' ha' iq fs' hok' j (by rw [hp]; exact hj) (by rw [hp]; exact hg)
    rw [hp] at d2
    rw [d1, d2]
  · intro e
    have e1 := (Prod.mk.inj (accepted o h a m ha _ hok).2.2.2).1
    have e2 := (Prod.mk.inj (accepted o' (by rw [hp]; exact h) a' m' ha' _ hok').2.2.2).1
    rw [hp] at e2
    rw [e1, e2, e]

/-- **C123 (DSSS).**  Two bit messages of any lengths, modulated with the same parameters by DSSS, give the same samples exactly when they have the same number of
bits and agree on all contained bits. -/
theorem C123_dsss (o o' : OqpskObj) (hp : o'.params = o.params) (h : Standard o.params) (hs : o.params.sm = 0) (hsps : C60.Audible o.params.band o.params.sps)
    (a a' : Arg) (m m' : Bits) (ha : checkBinaryArray a = .ok m) (ha' : checkBinaryArray a' = .ok m') (iq iq' : List ℂ) (fs fs' : ℚ)
    (hok : ((oqpskBitsToIQ a).call o).1 = .ok (iq, fs)) (hok' : ((oqpskBitsToIQ a').call o').1 = .ok (iq', fs')) :
    iq = iq' ↔ m.length = m'.length ∧ ∀ k < m.length, Contained m.length k → m[k]? = m'[k]? := by
  rw [signals_iff o o' hp h hsps a a' m m' ha ha' iq iq' fs fs' hok hok']
  obtain ⟨hne, hL, hS, -⟩ := accepted o h a m ha _ hok
  obtain ⟨hne', hL', hS', -⟩ := accepted o' (by rw [hp]; exact h) a' m' ha' _ hok'
  rw [hp] at hS'
  rw [chips_iff _ h _ _ hL hL']
  have hd : decide (o.params.sm = 1) = false := by simp [hs]
  rw [hd]
  have sp (m : Bits) (hne : m ≠ []) (hS : C96.Spreadable o.params m.length) :
      oqpskSpread o.params (RefQ.psduBits m) = .ok (RefQ.psdu o.params.band false o.params.rm.toNat m) := by
    obtain ⟨t, ht, -, k2⟩ := C96.spread_bits h m hne
    obtain ⟨s, hs2, -⟩ := k2 hS
    unfold oqpskPsduBits at ht
    rw [if_pos (Or.inr hs), psduBits_ref m] at ht
    obtain rfl := Except.ok.inj ht
    have hg : (RefQ.psduBits m).length % (psduGroup o.params.band o.params.rm.toNat).1 = 0 := by
      by_contra hc
      have := (spread_dsss o.params hs h.rate.1 h.rate.2).1 _ hc
      rw [hs2] at this; cases this
    exact psdu_dsss_ref o.params hs h.rate.1 h.rate.2 m hg
  have s1 := sp m hne hS
  have s2 := sp m' hne' hS'
  have hps : RefQ.psdu o.params.band false o.params.rm.toNat m = RefQ.psdu o.params.band false o.params.rm.toNat m' ↔ RefQ.psduBits m = RefQ.psduBits m' := by
    constructor
    · intro e
      rw [← e] at s2
      exact (spread_dsss o.params hs h.rate.1 h.rate.2).2.2 _ _ _ s1 s2
    · intro e
      rw [e] at s1
      exact Except.ok.inj (s1.symm.trans s2)
  rw [hps]
  have hbl : ∀ m, (RefQ.psduBits m).length = C96.codedBits m.length := by
    intro m
    obtain ⟨out, ho, hol⟩ := C96.interleaver_total (oqpskFec m true) (blocks63 (m.length / 8)) (2 * (m.length % 8)) (C96.blocks_pos _) (C96.fec_length m)
    rw [psduBits_ref] at ho
    rw [Except.ok.inj ho, hol, C96.fec_length]
  have hlen : m.length / 8 = m'.length / 8 ∧ RefQ.psduBits m = RefQ.psduBits m' → m.length = m'.length := by
    rintro ⟨e1, e2⟩
    have e3 := congrArg List.length e2
    rw [hbl, hbl] at e3
    unfold C96.codedBits at e3
    rw [e1] at e3
    omega
  have key (hl : m.length = m'.length) : RefQ.psduBits m = RefQ.psduBits m' ↔ ∀ k < m.length, Contained m.length k → m[k]? = m'[k]? := by
    have := psdu_loss_bits m m' hl
    rw [psduBits_ref, psduBits_ref] at this
    exact ⟨fun e => this.1 (by rw [e]), fun e => Except.ok.inj (this.2 e)⟩
  constructor
  · rintro ⟨e1, e2⟩
    have hl := hlen ⟨e1, e2⟩
    exact ⟨hl, (key hl).1 e2⟩
  · rintro ⟨e1, e2⟩
    exact ⟨by rw [e1], (key e1).2 e2⟩

/-- **C123 (MDSSS).**  With MDSSS the samples only tell the number of whole octets of the message. -/
theorem C123_mdsss (o o' : OqpskObj) (hp : o'.params = o.params) (h : Standard o.params) (hs : o.params.sm = 1) (hsps : C60.Audible o.params.band o.params.sps)
    (a a' : Arg) (m m' : Bits) (ha : checkBinaryArray a = .ok m) (ha' : checkBinaryArray a' = .ok m') (iq iq' : List ℂ) (fs fs' : ℚ)
    (hok : ((oqpskBitsToIQ a).call o).1 = .ok (iq, fs)) (hok' : ((oqpskBitsToIQ a').call o').1 = .ok (iq', fs')) :
    iq = iq' ↔ m.length / 8 = m'.length / 8 := by
  rw [signals_iff o o' hp h hsps a a' m m' ha ha' iq iq' fs fs' hok hok']
  obtain ⟨-, hL, -, -⟩ := accepted o h a m ha _ hok
  obtain ⟨-, hL', -, -⟩ := accepted o' (by rw [hp]; exact h) a' m' ha' _ hok'
  rw [chips_iff _ h _ _ hL hL']
  have hd : decide (o.params.sm = 1) = true := by simp [hs]
  rw [hd]
  exact ⟨fun e => e.1, fun e => ⟨e, by unfold RefQ.psdu; simp⟩⟩

theorem contained_all {n k : Nat} (hn : n ≤ 63) (hk : k < n) : Contained n k := Or.inl (by omega)

/-- **C123 (up to 63 bits).**  Different DSSS messages give different samples if they have at most 63 bits. -/
theorem C123_short (o o' : OqpskObj) (hp : o'.params = o.params) (h : Standard o.params) (hs : o.params.sm = 0) (hsps : C60.Audible o.params.band o.params.sps)
    (a a' : Arg) (m m' : Bits) (ha : checkBinaryArray a = .ok m) (ha' : checkBinaryArray a' = .ok m') (h63 : m.length ≤ 63) (iq iq' : List ℂ) (fs fs' : ℚ)
    (hok : ((oqpskBitsToIQ a).call o).1 = .ok (iq, fs)) (hok' : ((oqpskBitsToIQ a').call o').1 = .ok (iq', fs')) :
    iq = iq' ↔ m = m' := by
  rw [C123_dsss o o' hp h hs hsps a a' m m' ha ha' iq iq' fs fs' hok hok']
  constructor
  · rintro ⟨hl, e⟩
    apply List.ext_getElem?
    intro k
    by_cases hk : k < m.length
    · exact e k hk (contained_all h63 hk)
    · rw [List.getElem?_eq_none (by omega), List.getElem?_eq_none (by omega)]
  · rintro rfl
    exact ⟨rfl, fun _ _ _ => rfl⟩

/-- **C123 (from 64 bits on).**  Every longer DSSS message shares its samples with another one: bit 63 (the last bit of the eighth octet) is never sent. -/
theorem C123_long (o o' : OqpskObj) (hp : o'.params = o.params) (h : Standard o.params) (hs : o.params.sm = 0) (m : Bits) (h64 : 64 ≤ m.length)
    (hok : ∃ r, ((oqpskBitsToIQ (bitsArg m)).call o).1 = .ok r) :
    m.set 63 (!m.getD 63 false) ≠ m ∧ ((oqpskBitsToIQ (bitsArg (m.set 63 (!m.getD 63 false)))).call o').1 = ((oqpskBitsToIQ (bitsArg m)).call o).1 := by
  have hne : m ≠ [] := by rintro rfl; simp at h64
  have hne' : m.set 63 (!m.getD 63 false) ≠ [] := by
    intro e
    have := congrArg List.length e
    simp at this
    exact hne this
  have ha := C03.C03_identity m hne
  have ha' := C03.C03_identity _ hne'
  obtain ⟨r, hr⟩ := hok
  obtain ⟨-, hL, hS, er⟩ := accepted o h _ m ha r hr
  have hlen : (m.set 63 (!m.getD 63 false)).length = m.length := List.length_set
  have hg := (C108.C108_reference o' (by rw [hp]; exact h) _ _ ha').2
  simp only [hp, hlen] at hg
  have hg := hg ⟨by omega, hS⟩
  refine ⟨?_, ?_⟩
  · intro e
    have := congrArg (fun l : Bits => l[63]?) e
    rw [List.getElem?_set_self (by omega), List.getElem?_eq_getElem (by omega), List.getD_eq_getElem _ _ (by omega)] at this
    have := Option.some.inj this
    generalize m[63] = x at this
    cases x <;> cases this
  · rw [hg, hr, er]
    have hd : decide (o.params.sm = 1) = false := by simp [hs]
    rw [hd]
    have hb : RefQ.psduBits (m.set 63 (!m.getD 63 false)) = RefQ.psduBits m := by
      have := psdu_loss_bits (m.set 63 (!m.getD 63 false)) m hlen
      rw [psduBits_ref, psduBits_ref] at this
      refine Except.ok.inj (this.2 ?_)
      intro i hi hc
      rw [hlen] at hi hc
      rw [List.getElem?_set_ne]
      rintro rfl
      rcases hc with hc | hc
      · omega
      · unfold endFrom blocks63 at hc
        have : 8 ≤ m.length / 8 := by omega
        split at hc <;> omega
    unfold RefQ.chips RefQ.psdu
    rw [hlen, hb]

/-- 70 bits (8 octets and 6 bits) at 868 MHz are accepted; of 70 bits, the last seven are lost, and of 1004 bits (125 octets, 16 blocks, and four bits) those
from 63 to 869. -/
example : ∃ r, ((oqpskBitsToIQ (bitsArg (List.replicate 70 true))).call { params := ⟨.b868, 3, 0, 3⟩ }).1 = .ok r ∧ Standard ⟨.b868, 3, 0, 3⟩ ∧ C60.Audible .b868 3 ∧
    (Contained 70 62 ∧ ¬ Contained 70 63 ∧ ¬ Contained 70 69) ∧ (Contained 1004 62 ∧ ¬ Contained 1004 63 ∧ ¬ Contained 1004 869 ∧ Contained 1004 870) := by
  have h := (C108.C108_reference { params := ⟨.b868, 3, 0, 3⟩ } ⟨by decide, by decide, by decide⟩ (bitsArg (List.replicate 70 true)) _
    (C03.C03_identity _ (by decide))).2 ⟨by decide, by unfold C96.Spreadable; decide⟩
  exact ⟨_, h, ⟨by decide, by decide, by decide⟩, by unfold C60.Audible; decide, by unfold Contained; decide, by unfold Contained; decide⟩

end SunPhy.C123
