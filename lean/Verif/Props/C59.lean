import Verif.Proofs.OqpskLoss
import Verif.Props.C62
import Verif.Props.C63
/-
C59 — MR-O-QPSK: when do different messages give different signals (DSSS)?
-/
namespace SunPhy.C59
open SunPhy Spec C63

/-- Bit `k` of an octet message, least significant bit of each octet first. -/
def messageBit (msg : List UInt8) (k : Nat) : Bool := (msg.getD (k / 8) 0).toNat.testBit (k % 8)

theorem bits_of (a : Arg) (msg : List UInt8) (h : C01.Denotes a msg) (hne : 1 ≤ msg.length) (m : Bits) (hm : toBinaryArray a = .ok m) (k : Nat)
    (hk : k < 8 * msg.length) : m[k]? = some (messageBit msg k) := by
  obtain ⟨m', e, -, hb⟩ := C01.C01_lsb_first a msg h (List.length_pos_iff.1 hne)
  rw [hm] at e
  obtain rfl := Except.ok.inj e
  have := hb (k / 8) (k % 8) (by omega) (by omega)
  rw [show 8 * (k / 8) + k % 8 = k by omega] at this
  rw [this]
  unfold messageBit
  rw [List.getD_eq_getElem?_getD, List.getElem?_eq_getElem (by omega)]; rfl

/-- With at least three samples per symbol the chips can be read off the samples, whatever the band. -/
theorem pulse_ok (p : OqpskParams) (h : 3 ≤ p.sps) : ∃ j < p.sps, pulseSample p.band p.sps j ≠ 0 :=
  (C62.C62_nonzero p.band p.sps).2 (by split <;> omega)

/-- Equal signals come from equal frames. -/
theorem frames_of_signals (o o' : OqpskObj) (hp : o'.params = o.params) (h : Standard o.params) (hsps : 3 ≤ o.params.sps) (a a' : Arg) (msg msg' : List UInt8)
    (hd : C01.Denotes a msg) (hd' : C01.Denotes a' msg') (h1 : 1 ≤ msg.length) (h1' : 1 ≤ msg'.length) (iq : List ℂ) (fs fs' : ℚ)
    (e : ((oqpskBytesToIQ a).call o).1 = .ok (iq, fs)) (e' : ((oqpskBytesToIQ a').call o').1 = .ok (iq, fs')) :
    ∃ m m' frame, toBinaryArray a = .ok m ∧ toBinaryArray a' = .ok m' ∧ m.length = 8 * msg.length ∧ m'.length = 8 * msg'.length ∧
      msg.length ≤ 2047 ∧ msg'.length ≤ 2047 ∧ ¬ Unmodulable o.params msg.length ∧ ¬ Unmodulable o.params msg'.length ∧
      oqpskFrame o.params m = .ok frame ∧ oqpskFrame o.params m' = .ok frame := by
  have part : ∀ (o : OqpskObj) (h : Standard o.params) (a : Arg) (msg : List UInt8) (fs : ℚ), C01.Denotes a msg → 1 ≤ msg.length →
      ((oqpskBytesToIQ a).call o).1 = .ok (iq, fs) →
      ∃ m frame, toBinaryArray a = .ok m ∧ m.length = 8 * msg.length ∧ msg.length ≤ 2047 ∧ ¬ Unmodulable o.params msg.length ∧
        oqpskFrame o.params m = .ok frame ∧ frame.length % 2 = 0 ∧ oqpskModulator o.params frame o.params.sps = .ok (iq, fs) := by
    intro o h a msg fs hd h1 e
    obtain ⟨m, hm, hl, er⟩ := bytes_frame o a msg hd h1
    obtain ⟨k1, k2⟩ := frame_outcome h m msg.length hl h1
    by_cases hc : 2048 ≤ msg.length ∨ Unmodulable o.params msg.length
    · rw [er, k1 hc] at e; cases e
    · have hu : ¬ Unmodulable o.params msg.length := fun hu => hc (Or.inr hu)
      obtain ⟨c, s, hf, -, -, -, hlen⟩ := k2 (by omega) hu
      refine ⟨m, _, hm, hl, by omega, hu, hf, ?_, ?_⟩
      · rw [hlen]; exact size_even _ _ _ _ (by have := h.rate; omega)
      · rw [er, hf] at e; exact e
  obtain ⟨m, fr, a1, a2, a3, a4, a5, a6, a7⟩ := part o h a msg fs hd h1 e
  obtain ⟨m', fr', b1, b2, b3, b4, b5, b6, b7⟩ := part o' (by rw [hp]; exact h) a' msg' fs' hd' h1' e'
  rw [hp] at b4 b5 b7
  have := C60.C60_injective o.params fr fr' a6 b6 o.params.sps h.sps iq fs fs' a7 b7 (pulse_ok _ hsps)
  subst this
  exact ⟨m, m', fr, a1, b1, a2, b2, a3, b3, a4, b4, a5, b5⟩

/-- **C59 (length).**  Messages of different lengths never give the same signal. -/
theorem C59_length (o o' : OqpskObj) (hp : o'.params = o.params) (h : Standard o.params) (hsps : 3 ≤ o.params.sps) (a a' : Arg) (msg msg' : List UInt8)
    (hd : C01.Denotes a msg) (hd' : C01.Denotes a' msg') (h1 : 1 ≤ msg.length) (h1' : 1 ≤ msg'.length) (iq : List ℂ) (fs fs' : ℚ)
    (e : ((oqpskBytesToIQ a).call o).1 = .ok (iq, fs)) (e' : ((oqpskBytesToIQ a').call o').1 = .ok (iq, fs')) : msg.length = msg'.length := by
  obtain ⟨m, m', fr, -, -, l1, l2, l3, l4, u1, u2, f1, f2⟩ := frames_of_signals o o' hp h hsps a a' msg msg' hd hd' h1 h1' iq fs fs' e e'
  obtain ⟨c, s, g1, p1, -⟩ := (frame_outcome h m msg.length l1 h1).2 l3 u1
  obtain ⟨c', s', g2, p2, -⟩ := (frame_outcome h m' msg'.length l2 h1').2 l4 u2
  have ef := Except.ok.inj ((f1.symm.trans g1).symm.trans (f2.symm.trans g2))
  obtain ⟨d, d1, d2⟩ := phr_ok_iff o.params h.rate.1 h.rate.2 msg.length (by omega)
  obtain ⟨d', d1', d2'⟩ := phr_ok_iff o.params h.rate.1 h.rate.2 msg'.length (by omega)
  rw [p1] at d1; rw [p2] at d1'
  obtain rfl := Except.ok.inj d1
  obtain rfl := Except.ok.inj d1'
  rw [List.append_assoc, List.append_assoc] at ef
  have ec := (List.append_inj (List.append_cancel_left ef) (by rw [d2, d2'])).1
  subst ec
  -- the header chips determine the header
  obtain ⟨hdr, q1, q2⟩ := C47.C47_header o.params h.rate.1 h.rate.2 msg.length (by omega)
  obtain ⟨hdr', q1', q2'⟩ := C47.C47_header o.params h.rate.1 h.rate.2 msg'.length (by omega)
  have hlen : ∀ hdr s r n, C47.IsHeader hdr s r n → hdr.length = 24 := by
    rintro hdr s r n ⟨x, y, z, e, h1, h2, h3, -⟩
    rw [e]; simp [h1, h2, h3]
  have L1 : (oqpskFec hdr false).length = 60 := by rw [oqpskFec_phr_length, hlen _ _ _ _ q2]
  have L2 : (oqpskFec hdr' false).length = 60 := by rw [oqpskFec_phr_length, hlen _ _ _ _ q2']
  obtain ⟨out, i1, -, i3⟩ := C50.C50_phr _ L1
  obtain ⟨out', i1', -, i3'⟩ := C50.C50_phr _ L2
  unfold oqpskPhrChips at p1 p2
  rw [q1] at p1
  rw [q1'] at p2
  simp only [i1] at p1
  simp only [i1'] at p2
  have hb := C51.C52_injective _ ⟨o.params.band, Or.inr (Or.inl rfl)⟩ _ _ _ p1 p2
  have ho := C48.C48_injective _ _ _ hb
  subst ho
  have hfec : oqpskFec hdr false = oqpskFec hdr' false := by
    have surj : ∀ i < 60, ∃ k < 60, C50.rowCol 10 6 k = i := by decide +kernel
    apply List.ext_getElem?
    intro i
    by_cases hi : i < 60
    · obtain ⟨k, hk, rfl⟩ := surj i hi
      rw [← i3 k hk, ← i3' k hk]
    · rw [List.getElem?_eq_none (by omega), List.getElem?_eq_none (by omega)]
  rw [oqpskFec_eq, oqpskFec_eq] at hfec
  have hpad := rateHalf_seg_inj _ _ (by decide) hfec
  have hh : hdr = hdr' := by
    have e1 : oqpskPad hdr false = hdr ++ List.replicate 6 false := by simp [oqpskPad]
    have e2 : oqpskPad hdr' false = hdr' ++ List.replicate 6 false := by simp [oqpskPad]
    rw [e1, e2] at hpad
    exact List.append_cancel_right hpad
  subst hh
  exact (C47.C47_read_back hdr _ _ _ _ _ _ q2 q2').2.2

/-- **C59 (exact loss).**  With DSSS, two messages of the same length that can be modulated give the same signal exactly when they agree in all
bits except `63 … 54·NB+2`, where `NB` is the number of 63-bit blocks: those bits are not transmitted. -/
theorem C59_exact (o o' : OqpskObj) (hp : o'.params = o.params) (h : Standard o.params) (hs : o.params.sm = 0) (hsps : 3 ≤ o.params.sps) (a a' : Arg)
    (msg msg' : List UInt8) (hd : C01.Denotes a msg) (hd' : C01.Denotes a' msg') (h1 : 1 ≤ msg.length) (hl : msg.length = msg'.length)
    (hok : ∃ r, ((oqpskBytesToIQ a).call o).1 = .ok r) :
    ((oqpskBytesToIQ a).call o).1 = ((oqpskBytesToIQ a').call o').1 ↔
      ∀ k < 8 * msg.length, (k < 63 ∨ 54 * blocks63 msg.length + 3 ≤ k) → messageBit msg k = messageBit msg' k := by
  obtain ⟨m, hm, ml, er⟩ := bytes_frame o a msg hd h1
  obtain ⟨m', hm', ml', er'⟩ := bytes_frame o' a' msg' hd' (by omega)
  rw [hp] at er'
  rw [← hl] at ml'
  have hcond : msg.length ≤ 2047 ∧ ¬ Unmodulable o.params msg.length := by
    by_contra hc
    obtain ⟨r, hr⟩ := hok
    rw [(outcome o h a msg hd h1).1 hc] at hr; cases hr
  obtain ⟨c, s, f1, p1, ⟨t, t1, t2⟩, -, -⟩ := (frame_outcome h m msg.length ml h1).2 hcond.1 hcond.2
  obtain ⟨c', s', f2, p2, ⟨t', t1', t2'⟩, -, -⟩ := (frame_outcome h m' msg.length ml' h1).2 hcond.1 hcond.2
  obtain rfl : c = c' := Except.ok.inj (p1.symm.trans p2)
  have hsig : ((oqpskBytesToIQ a).call o).1 = ((oqpskBytesToIQ a').call o').1 ↔ t = t' := by
    constructor
    · intro e
      obtain ⟨⟨iq, fs⟩, hr⟩ := hok
      obtain ⟨n, n', fr, n1, n2, -, -, -, -, -, -, g1, g2⟩ :=
        frames_of_signals o o' hp h hsps a a' msg msg' hd hd' h1 (by omega) iq fs fs hr (by rw [← e]; exact hr)
      obtain rfl := Except.ok.inj (n1.symm.trans hm)
      obtain rfl := Except.ok.inj (n2.symm.trans hm')
      have ef := Except.ok.inj ((g1.symm.trans f1).symm.trans (g2.symm.trans f2))
      have es := C57.C57_injective _ _ _ (List.append_cancel_left ef)
      subst es
      exact (spread_dsss o.params hs h.rate.1 h.rate.2).2.2 t t' s t2 t2'
    · intro e
      subst e
      obtain rfl : s = s' := Except.ok.inj (t2.symm.trans t2')
      rw [er, er', f1, f2]
  rw [hsig]
  have hpsdu : t = t' ↔ oqpskInterleaver (oqpskFec m true) true = oqpskInterleaver (oqpskFec m' true) true := by
    have u : ∀ m, oqpskPsduBits o.params m = oqpskInterleaver (oqpskFec m true) true := by
      intro m; unfold oqpskPsduBits; rw [if_pos (Or.inr hs)]
    rw [u] at t1 t1'
    rw [t1, t1']
    exact ⟨fun e => by rw [e], fun e => Except.ok.inj e⟩
  rw [hpsdu, psdu_loss m m' (by omega) (by omega), ml]
  have hL8 : 8 * msg.length / 8 = msg.length := by omega
  rw [hL8]
  have hb : psduBlocks msg.length = blocks63 msg.length := rfl
  rw [hb]
  have g : ∀ k < 8 * msg.length, m[k]? = m'[k]? ↔ messageBit msg k = messageBit msg' k := by
    intro k hk
    rw [bits_of a msg hd h1 m hm k hk, bits_of a' msg' hd' (by omega) m' hm' k (by omega), Option.some.injEq]
  exact ⟨fun hh k hk hc => (g k hk).1 (hh k hk hc), fun hh k hk hc => (g k hk).2 (hh k hk hc)⟩

theorem eq_of_bits (msg msg' : List UInt8) (hl : msg.length = msg'.length) (h : ∀ k < 8 * msg.length, messageBit msg k = messageBit msg' k) : msg = msg' := by
  apply List.ext_getElem hl
  intro i hi hi'
  have : msg[i].toNat = msg'[i].toNat := by
    apply Nat.eq_of_testBit_eq
    intro j
    by_cases hj : j < 8
    · have := h (8 * i + j) (by omega)
      unfold messageBit at this
      rw [show (8 * i + j) / 8 = i by omega, show (8 * i + j) % 8 = j by omega] at this
      rw [List.getD_eq_getElem?_getD, List.getD_eq_getElem?_getD, List.getElem?_eq_getElem hi, List.getElem?_eq_getElem hi'] at this
      exact this
    · have lt : ∀ x : UInt8, x.toNat < 2 ^ j := fun x =>
        Nat.lt_of_lt_of_le x.toNat_lt (Nat.pow_le_pow_right (by decide) (by omega))
      rw [Nat.testBit_lt_two_pow (lt _), Nat.testBit_lt_two_pow (lt _)]
  exact UInt8.toNat_inj.1 this

/-- **C59 (partial).**  Messages of at most 7 octets that give the same signal are equal. -/
theorem C59_short_partial (o o' : OqpskObj) (hp : o'.params = o.params) (h : Standard o.params) (hs : o.params.sm = 0) (hsps : 3 ≤ o.params.sps) (a a' : Arg)
    (msg msg' : List UInt8) (hd : C01.Denotes a msg) (hd' : C01.Denotes a' msg') (h1 : 1 ≤ msg.length) (h1' : 1 ≤ msg'.length) (h7 : msg.length ≤ 7)
    (iq : List ℂ) (fs : ℚ) (e : ((oqpskBytesToIQ a).call o).1 = .ok (iq, fs)) (e' : ((oqpskBytesToIQ a').call o').1 = .ok (iq, fs)) : msg = msg' := by
  have hl := C59_length o o' hp h hsps a a' msg msg' hd hd' h1 h1' iq fs fs e e'
  have := (C59_exact o o' hp h hs hsps a a' msg msg' hd hd' h1 hl ⟨_, e⟩).1 (by rw [e, e'])
  exact eq_of_bits msg msg' hl fun k hk => this k hk (Or.inl (by omega))

/-- **C59 (refutation).**  For every length of 8 octets or more that can be modulated there are two different messages with the same
signal: they differ in the most significant bit of octet 7. -/
theorem C59_false (o : OqpskObj) (h : Standard o.params) (hs : o.params.sm = 0) (hsps : 3 ≤ o.params.sps) (msg : List UInt8) (h8 : 8 ≤ msg.length)
    (hok : ∃ r, ((oqpskBytesToIQ (.bytes msg)).call o).1 = .ok r) :
    ∃ msg' : List UInt8, msg' ≠ msg ∧ msg'.length = msg.length ∧
      ((oqpskBytesToIQ (.bytes msg')).call o).1 = ((oqpskBytesToIQ (.bytes msg)).call o).1 := by
  have hx : ∀ x : Nat, x < 256 → (x ^^^ 128) < 256 ∧ (x ^^^ 128) ≠ x ∧ ∀ j < 7, (x ^^^ 128).testBit j = x.testBit j := by decide +kernel
  let y : UInt8 := UInt8.ofNat ((msg.getD 7 0).toNat ^^^ 128)
  obtain ⟨q1, q2, q3⟩ := hx (msg.getD 7 0).toNat (msg.getD 7 0).toNat_lt
  have hy : y.toNat = (msg.getD 7 0).toNat ^^^ 128 := by
    simp only [y, UInt8.toNat_ofNat']
    exact Nat.mod_eq_of_lt q1
  refine ⟨msg.set 7 y, ?_, by simp, ?_⟩
  · intro e
    have := congrArg (fun l : List UInt8 => (l.getD 7 0).toNat) e
    simp only [List.getD_eq_getElem?_getD, List.getElem?_set_self (show 7 < msg.length by omega), Option.getD_some] at this
    rw [hy, List.getD_eq_getElem?_getD] at this
    rw [List.getD_eq_getElem?_getD] at q2
    exact q2 this
  · symm
    refine (C59_exact o o rfl h hs hsps (.bytes msg) (.bytes (msg.set 7 y)) msg (msg.set 7 y) rfl rfl (by omega) (by simp) hok).2 ?_
    intro k hk hc
    have hk63 : k ≠ 63 := by
      rintro rfl
      rcases hc with hc | hc
      · omega
      · have : 2 ≤ blocks63 msg.length := by unfold blocks63; omega
        omega
    unfold messageBit
    by_cases h7 : k / 8 = 7
    · rw [h7, List.getD_eq_getElem?_getD (l := msg.set 7 y), List.getElem?_set_self (by omega), Option.getD_some, hy, q3 _ (by omega)]
    · rw [List.getD_eq_getElem?_getD, List.getD_eq_getElem?_getD, List.getElem?_set_ne (fun e => h7 e.symm)]

/-- Configurations and messages that meet the hypotheses. -/
example (o : OqpskObj) (ho : o.params = ⟨.b470, 0, 0, 10⟩) : ∃ r, ((oqpskBytesToIQ (.bytes (List.replicate 20 7))).call o).1 = .ok r :=
  C53_one_bit_partial o (by rw [ho]; exact ⟨by decide, by decide, by decide⟩) (by rw [ho]) (by rw [ho]; rfl) _ (List.replicate 20 7) rfl
    (by simp) (by simp)

end SunPhy.C59
