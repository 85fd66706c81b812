import Verif.Props.C67
import Verif.Props.C68
import Verif.Props.C108
import Verif.Props.C69
/-
C87 — the attributes that a successful call leaves on the modulator are the stages of *this* message.  MR-FSK.
-/
namespace SunPhy.C87
open SunPhy Spec

/-- The attributes of an MR-FSK modulator after an accepted message, in terms of the reference transmitter: a stage that is switched off leaves
its attribute as it was. -/
def fskAfter (o : FskObj) (m : Bits) : FskObj :=
  let p := o.params
  let x := RefF.header p (m.length / 8) ++ m
  let coded := RefF.coded p.fecScheme x (RefF.pad (m.length / 8))
  let white := (RefF.bits p m).drop (RefF.preamble p ++ RefF.sfd p).length
  { params := p
    PHR_PSDU := some white
    PHR_PSDU_encoded := if p.fecEnabled then some coded else o.PHR_PSDU_encoded
    PHR_PSDU_interleaved := if p.fecEnabled ∧ p.interleaving then some (RefF.interleave coded) else o.PHR_PSDU_interleaved
    PHR_PSDU_scrambled := if p.scramble then some white else o.PHR_PSDU_scrambled
    binarySignal := some (RefF.bits p m) }

theorem fsk_drop (p : FskParams) (m : Bits) :
    (RefF.bits p m).drop (RefF.preamble p ++ RefF.sfd p).length = fskWhiten p (RefF.body p m) := by
  rw [whiten_ref]
  unfold RefF.bits
  simp only
  rw [List.drop_left]

/-- **C87 (MR-FSK).** -/
theorem C87_fsk (o : FskObj) (a : Arg) (m : Bits) (ha : checkBinaryArray a = .ok m) (b : Bits)
    (h : ((fskBinary a).call o).1 = .ok b) : ((fskBinary a).call o).2 = fskAfter o m := by
  have hb := C69.C69_bits o a m ha
  simp only at hb
  rw [h] at hb
  split at hb
  · exact absurd hb (by simp)
  rename_i hc
  rw [not_or] at hc
  obtain ⟨h1, h2⟩ := hc
  have hbody := C69.body_ref o.params m
  rw [if_neg h2] at hbody
  unfold fskAfter
  simp only
  rw [fsk_drop]
  have hbits : RefF.bits o.params m = o.params.shr ++ fskWhiten o.params (RefF.body o.params m) := by
    rw [← fsk_drop, fsk_shr_ref]
    unfold RefF.bits; simp only; rw [List.drop_left]
  rw [hbits]
  have hl : (RefF.header o.params (m.length / 8) ++ m).length = 16 + m.length := by rw [List.length_append, C69.header_length]
  have hcod := coded_ref o.params.fecScheme _ (RefF.pad (m.length / 8)) (fsk_pad_ref _ m hl).symm
  rw [← hcod]
  unfold fskCoded at hbody
  unfold fskBinary
  rw [ha]
  simp only [PyM.call_bind, PyM.call_get, PyM.seqR_ok, PyM.call_lift]
  rw [fsk_header_ref _ (by omega)]
  simp only [PyM.seqR_ok, PyM.call_modify]
  have hil : o.params.fecEnabled = true → o.params.interleaving = true →
      fskInterleaver (fskFec o.params.fecScheme (RefF.header o.params (m.length / 8) ++ m)) =
        .ok (RefF.interleave (fskFec o.params.fecScheme (RefF.header o.params (m.length / 8) ++ m))) := by
    intro e1 e2
    simp only [e1, e2, if_true] at hbody
    rw [hbody]
    congr 1
    unfold RefF.body
    simp only [e1, e2, if_true]
    rw [← hcod]
  have hbd : RefF.body o.params m = if o.params.fecEnabled then
      if o.params.interleaving then RefF.interleave (fskFec o.params.fecScheme (RefF.header o.params (m.length / 8) ++ m))
      else fskFec o.params.fecScheme (RefF.header o.params (m.length / 8) ++ m)
      else RefF.header o.params (m.length / 8) ++ m := by
    rw [hcod]; rfl
  rw [hbd]
  cases hf : o.params.fecEnabled
  · cases hs : o.params.scramble <;>
      simp [PyM.call_bind, PyM.seqR_ok, PyM.call_modify, PyM.call_attr, PyM.call_pure, fskWhiten, hf, hs, fskPhrLength]
  · cases hi : o.params.interleaving
    · cases hs : o.params.scramble <;>
        simp [PyM.call_bind, PyM.seqR_ok, PyM.call_modify, PyM.call_attr, PyM.call_pure, fskWhiten, hf, hs, hi, fskPhrLength]
    · cases hs : o.params.scramble <;>
        simp [PyM.call_bind, PyM.seqR_ok, PyM.call_modify, PyM.call_attr, PyM.call_pure, PyM.call_lift, fskWhiten, hf, hs, hi,
          hil hf hi, fskPhrLength]

/-- **C87 (MR-FSK, `bitsToIQ`).**  The same attributes after `bitsToIQ` as soon as the bits of the frame exist (4FSK may still refuse an odd
number of them). -/
theorem C87_fsk_bitsToIQ (rn : ℚ → ℚ) (o : FskObj) (a : Arg) (m : Bits) (ha : checkBinaryArray a = .ok m) (b : Bits)
    (h : ((fskBinary a).call o).1 = .ok b) : ((fskBitsToIQ rn a).call o).2 = fskAfter o m := by
  have := C87_fsk o a m ha b h
  unfold fskBitsToIQ
  rw [PyM.call_bind]
  generalize (fskBinary a).call o = r at *
  obtain ⟨r1, r2⟩ := r
  simp only at h this
  subst h
  rw [PyM.seqR_ok, PyM.call_bind, PyM.call_get, PyM.seqR_ok, PyM.call_lift]
  exact this

/-- The attributes of an MR-OFDM modulator after an accepted message, in terms of the reference transmitter. -/
structure OfdmAfter (o : OfdmObj) (p : OfdmParams) (m : Bits) : Prop where
  params : o.params = p
  header : o.PHY_header = some (Ref.header p (m.length / 8))
  headerEncoded : o.PHY_header_encoded = some (Ref.conv (Ref.header p (m.length / 8)))
  headerInterleaved : o.PHY_header_interleaved = some (Ref.headerStream p (m.length / 8))
  pad : o.N_PAD = some (Ref.groups p m.length * Ref.groupBits p.option p.mcs - 6 - m.length)
  padded : o.payload_pad = some (m ++ List.replicate (Ref.groups p m.length * Ref.groupBits p.option p.mcs - m.length) false)
  scrambled : o.payload_scrambled = some (Ref.payload p m)
  encoded : o.payload_encoded = some (if Ref.threeQuarters p.mcs then Ref.conv34 (Ref.payload p m) else Ref.conv (Ref.payload p m))
  interleaved : o.payload_interleaved = some (Ref.payloadStream p m)
  table : let K := depth p.interleaving p.option p.mcs
    o.ij = some ((List.range K).map fun k => perm1 K (rows p.mcs) (perm2 K (rows p.mcs) (step p.mcs) k))

/-- **C87 (MR-OFDM).** -/
theorem C87_ofdm (o : OfdmObj) (h : Supported o.params) (a : Arg) (m : Bits) (ha : checkBinaryArray a = .ok m) (r : List ℂ × ℚ)
    (hr : ((ofdmModBitsToIQ a).call o).1 = .ok r) : OfdmAfter ((ofdmModBitsToIQ a).call o).2 o.params m := by
  have hn : 1 ≤ m.length / 8 ∧ m.length / 8 ≤ 2047 := by
    by_contra hn
    rw [(bitsToIQ_result h a).1] at hr
    unfold ofdmResult at hr
    rw [ha] at hr
    simp only at hr
    rw [if_neg hn] at hr
    cases hr
  obtain ⟨h1, h2⟩ := hn
  have hs : ((ofdmModBitsToIQ a).call o).2 =
    { o with PHY_header := some (headerBits o.params (m.length / 8))
             PHY_header_encoded := some (rateHalfOut (rateHalfInit 0) (headerBits o.params (m.length / 8)))
             PHY_header_interleaved := some (headerCoded o.params (m.length / 8))
             mod_phy := some (stateAfter (optPilots ℂ o.params.option) OfdmState.init (headerSymbols o.params))
             N_PAD := some (o.params.padding m).2
             payload_pad := some (o.params.padding m).1
             payload_scrambled := some (o.params.payloadScrambled m)
             payload_encoded := some (payloadCode o.params m)
             ij := some (o.params.intlIJ o.params.mcs)
             payload_interleaved := some (payloadCoded o.params m) } := by
    unfold ofdmModBitsToIQ
    simp only [PyM.call_bind, PyM.call_get, PyM.seqR_ok, PyM.call_lift, ha, stf_ok h, ltf_ok h, headerM_ok h h1 h2, PyM.call_modify,
      PyM.call_attr, PyM.call_pure]
    rw [payloadM_ok (o := { o with
                 PHY_header := some (headerBits o.params (m.length / 8))
                 PHY_header_encoded := some (rateHalfOut (rateHalfInit 0) (headerBits o.params (m.length / 8)))
                 ij := some (o.params.intlIJ (lowestMcs o.params.option))
                 PHY_header_interleaved := some (headerCoded o.params (m.length / 8))
                 mod_phy := some (stateAfter (optPilots ℂ o.params.option) OfdmState.init (headerSymbols o.params)) }) h m]
    rfl
  rw [hs]
  obtain ⟨-, -, -, -, -, er, -, -, -, ed, -, -, -, -, e3⟩ := ref_tables o.params (mem_allSupported h)
  obtain ⟨c1, c2⟩ := padding_length h m
  obtain ⟨k, q1, q2, -, -, q5⟩ := C21.C21_padding o.params h m
  have hk : k * o.params.nDbps = Ref.groups o.params m.length * Ref.groupBits o.params.option o.params.mcs := by
    rw [← q2, c1, groups_ref h, ed]
  constructor <;> simp only
  · rw [header_ref h]
  · rw [conv_eq, header_ref h]
  · rw [headerCoded_ref h]
  · rw [← hk]; congr 1; omega
  · rw [← hk, q1]
  · rw [payload_ref h]
  · congr 1
    unfold payloadCode encodeBits
    rw [er]
    cases h34 : Ref.threeQuarters o.params.mcs with
    | false => simp only [Bool.false_eq_true, if_false]; rw [conv_eq, payload_ref h]
    | true =>
      simp only [if_true]
      rw [conv34_eq, payload_ref h]
      rw [payloadScrambled_length h, Nat.mul_mod, ed, e3 h34]
      simp
  · rw [payloadCoded_ref h]
  · congr 1
    exact (C19.table_eq h (Or.inl rfl)).2

open C63

theorem oqpsk_state (o : OqpskObj) (a : Arg) (m : Bits) (ha : checkBinaryArray a = .ok m) (cshr phr il cphr t s : Bits)
    (h1 : dsss (bde o.params.shr false) (shrSpreading o.params.band) = .ok cshr) (h2 : o.params.phr (m.length / 8) = .ok phr)
    (h3 : oqpskInterleaver (oqpskFec phr false) false = .ok il)
    (h4 : dsss (bde il ((bde o.params.shr false).getLastD false)) (phrSpreading o.params.band) = .ok cphr)
    (h5 : oqpskPsduBits o.params m = .ok t) (h6 : oqpskSpread o.params t = .ok s) :
    let p := o.params
    let fec := (0 ≤ p.rm ∧ p.rm ≤ 1) ∨ p.sm = 0
    ((oqpskChips a).call o).2 =
      { params := p
        shr_bde := some (bde p.shr false), cSHR := some cshr
        phr_encoded := some (oqpskFec phr false), phr_interleaved := some il
        phr_bde := some (bde il ((bde p.shr false).getLastD false)), cPHR := some cphr
        PSDU_encoded := if fec then some (oqpskFec m true) else o.PSDU_encoded
        PSDU_interleaved := if fec then some t else o.PSDU_interleaved
        PSDU_temp := some t
        PSDU_BDE := if p.sm = 0 then
            match psduBdeDsss p.band p.rm with
            | .ok ub => some (if ub then bde t false else t)
            | .error _ => none
          else o.PSDU_BDE
        cPSDU := some (p.insertPilots s), cPPDU := some (cshr ++ cphr ++ p.insertPilots s) } := by
  intro p fec
  unfold oqpskPsduBits at h5
  unfold oqpskSpread at h6
  unfold oqpskChips
  rw [ha]
  simp only [PyM.call_bind, PyM.call_get, PyM.seqR_ok, PyM.seqR_error, PyM.call_lift, PyM.call_modify, PyM.call_attr, PyM.call_pure, h1, h2, h3, h4]
  by_cases hf : (0 ≤ o.params.rm ∧ o.params.rm ≤ 1) ∨ o.params.sm = 0
  · have hf' : fec := hf
    rw [if_pos hf] at h5
    simp only [hf, if_true, PyM.call_bind, PyM.seqR_ok, PyM.call_lift, PyM.call_modify, PyM.call_attr, PyM.call_pure, h5, hf']
    by_cases hs : o.params.sm = 0
    · have hs' : p.sm = 0 := hs
      rw [if_pos hs] at h6
      simp only [hs, hs', if_true, PyM.call_bind, PyM.seqR_ok, PyM.call_lift, PyM.call_modify, PyM.call_attr, PyM.call_pure]
      cases h7 : psduBdeDsss o.params.band o.params.rm with
      | error e => rw [h7] at h6; cases h6
      | ok ub =>
        rw [h7] at h6
        simp only [PyM.seqR_ok] at h6 ⊢
        cases h8 : psduSpreadingDsss o.params.band o.params.rm with
        | error e => rw [h8] at h6; cases h6
        | ok cs =>
          rw [h8] at h6
          cases cs with
          | none =>
            simp only [Except.ok.injEq] at h6
            simp only [PyM.call_bind, PyM.seqR_ok, PyM.call_lift, PyM.call_modify, PyM.call_attr, PyM.call_pure, h6]
            rfl
          | some codes =>
            simp only at h6
            simp only [PyM.call_bind, PyM.seqR_ok, PyM.call_lift, PyM.call_modify, PyM.call_attr, PyM.call_pure, h6]
            rfl
    · have hs' : ¬ p.sm = 0 := hs
      rw [if_neg hs] at h6
      simp only [hs, hs', if_false, PyM.call_bind, PyM.seqR_ok, PyM.call_lift, PyM.call_modify, PyM.call_attr, PyM.call_pure]
      cases h7 : mdsssFactor o.params.band o.params.rm with
      | error e => rw [h7] at h6; cases h6
      | ok f =>
        rw [h7] at h6
        simp only at h6
        simp only [PyM.call_bind, PyM.seqR_ok, PyM.call_lift, PyM.call_modify, PyM.call_attr, PyM.call_pure, h6]
        rfl
  · have hf' : ¬ fec := hf
    have hs : ¬ o.params.sm = 0 := fun h => hf (Or.inr h)
    have hs' : ¬ p.sm = 0 := hs
    rw [if_neg hf] at h5
    rw [if_neg hs] at h6
    have h5 := Except.ok.inj h5
    subst h5
    simp only [if_neg hf, if_neg hf', if_neg hs']
    simp only [if_neg hs, PyM.call_bind, PyM.seqR_ok, PyM.call_lift, PyM.call_modify, PyM.call_attr, PyM.call_pure]
    cases h7 : mdsssFactor o.params.band o.params.rm with
    | error e => rw [h7] at h6; cases h6
    | ok f =>
      rw [h7] at h6
      simp only at h6
      simp only [PyM.call_bind, PyM.seqR_ok, PyM.call_lift, PyM.call_modify, PyM.call_attr, PyM.call_pure, h6]
      rfl

/-- The attributes of an MR-O-QPSK modulator after an accepted message, in terms of the reference transmitter.  Coding of the PSDU is skipped
by the MDSSS rate modes 2 and 3, which leave the attributes of those stages as they were. -/
def oqpskAfter (o : OqpskObj) (m : Bits) : OqpskObj :=
  let p := o.params
  let f := decide (p.sm = 1)
  let hdr := RefQ.header f p.rm.toNat (m.length / 8)
  let hb := RefQ.headerBits f p.rm.toNat (m.length / 8)
  let coded := p.sm = 0 ∨ p.rm ≤ 1
  { params := p
    shr_bde := some (RefQ.shrBits p.band)
    cSHR := some (RefQ.shr p.band)
    phr_encoded := some (Ref.conv (hdr ++ List.replicate 6 false))
    phr_interleaved := some hb
    phr_bde := some (RefQ.differential ((RefQ.shrBits p.band).getD (preambleBits p.band + 15) false) hb)
    cPHR := some (RefQ.phr p.band f p.rm.toNat (m.length / 8))
    PSDU_encoded := if coded then some (Ref.conv (RefQ.padded m)) else o.PSDU_encoded
    PSDU_interleaved := if coded then some (RefQ.psduBits m) else o.PSDU_interleaved
    PSDU_temp := some (if coded then RefQ.psduBits m else m)
    PSDU_BDE := if p.sm = 0 then
        some (if RefQ.psduDifferential p.band p.rm.toNat then RefQ.differential false (RefQ.psduBits m) else RefQ.psduBits m)
      else o.PSDU_BDE
    cPSDU := some (RefQ.withPilots p.band (RefQ.psdu p.band f p.rm.toNat m))
    cPPDU := some (RefQ.chips p.band f p.rm.toNat m) }

theorem phr_stages (p : OqpskParams) (h0 : 0 ≤ p.rm) (h3 : p.rm ≤ 3) (n : Nat) (h : n < 2048) :
    p.phr n = .ok (RefQ.header (decide (p.sm ≠ 0)) p.rm.toNat n) ∧
    oqpskFec (RefQ.header (decide (p.sm ≠ 0)) p.rm.toNat n) false = Ref.conv (RefQ.header (decide (p.sm ≠ 0)) p.rm.toNat n ++ List.replicate 6 false) ∧
    oqpskInterleaver (oqpskFec (RefQ.header (decide (p.sm ≠ 0)) p.rm.toNat n) false) false = .ok (RefQ.headerBits (decide (p.sm ≠ 0)) p.rm.toNat n) ∧
    bde (RefQ.headerBits (decide (p.sm ≠ 0)) p.rm.toNat n) ((bde p.shr false).getLastD false) =
      RefQ.differential ((RefQ.shrBits p.band).getD (preambleBits p.band + 15) false) (RefQ.headerBits (decide (p.sm ≠ 0)) p.rm.toNat n) := by
  have hl : (RefQ.header (decide (p.sm ≠ 0)) p.rm.toNat n).length = 24 := by
    unfold RefQ.header
    simp only [List.length_append, List.length_cons, List.length_nil]
    rw [show (RefQ.crc8 ([decide (p.sm ≠ 0)] ++ Ref.field 2 p.rm.toNat ++ [false, false] ++ Ref.field 11 n)).length = 8 from
      (crc_fold _ (List.replicate 8 false) (by simp)).1]
    simp [Ref.field]
  refine ⟨?_, ?_, ?_, ?_⟩
  · rw [oqpsk_phr_ok p h (rmBits_ok h0 h3) (natBits_length _ _)]
    congr 1
    have e : oqpskHdr16 p (natBits 2 p.rm.toNat) n =
        [decide (p.sm ≠ 0)] ++ Ref.field 2 p.rm.toNat ++ [false, false] ++ Ref.field 11 n := by
      unfold oqpskHdr16
      rw [field_eq, field_eq, show (p.sm != 0) = decide (p.sm ≠ 0) by by_cases h : p.sm = 0 <;> simp [h]]
      rfl
    rw [oqpskHcs_ref, e]
    rfl
  · rw [oqpskFec_ref]; rfl
  · rw [C50.phr_eq _ (by rw [oqpskFec_phr_length, hl]), oqpskFec_ref]
    congr 1
  · rw [bde_ref, shrBits_ref]
    congr 1
    generalize p.band = b; cases b <;> decide +kernel

/-- **C87 (MR-O-QPSK).**  For messages of any number of bits. -/
theorem C87_oqpsk (o : OqpskObj) (h : Standard o.params) (a : Arg) (m : Bits) (ha : checkBinaryArray a = .ok m)
    (b : Bits) (hr : ((oqpskChips a).call o).1 = .ok b) :
    ((oqpskChips a).call o).2 = oqpskAfter o m := by
  have hne : m ≠ [] := by
    have hacc := (C03.C03_accepts_iff a).1 ⟨m, ha⟩
    have := (C03.C03_validation a).1 hacc
    rw [ha] at this
    rw [Except.ok.inj this]
    cases a <;> simp_all [C03.Acceptable, C03.entries]
  rw [(oqpskChips_result a o).1, ha] at hr
  simp only at hr
  have h2 : m.length / 8 ≤ 2047 := by
    by_contra hc
    rw [oqpskFrame, phr_too_long o.params (m.length / 8) (by omega)] at hr
    rw [(shr_ok o.params).1] at hr
    cases hr
  obtain ⟨t, ht, k1, k2⟩ := C96.spread_bits h m hne
  obtain ⟨c, hc, -⟩ := phr_ok_iff o.params h.rate.1 h.rate.2 (m.length / 8) (by omega)
  have hS : C96.Spreadable o.params m.length := by
    by_contra hn
    rw [frame_eq o.params m c hc t ht, k1 hn] at hr
    cases hr
  obtain ⟨s, hs, -⟩ := k2 hS
  have hf : oqpskFrame o.params m = .ok (shrChips o.params ++ c ++ o.params.insertPilots s) := by
    rw [frame_eq o.params m c hc t ht, hs]; rfl
  have hfr := (C108.frame_ref h m hne h2 hS).1
  obtain ⟨L, hL8⟩ : ∃ L, m.length / 8 = L := ⟨_, rfl⟩
  rw [hL8] at h2 hc
  have hd : decide (o.params.sm ≠ 0) = decide (o.params.sm = 1) := by
    rcases h.mode with hs | ⟨hs, -⟩ <;> simp [hs]
  obtain ⟨p1, p2, p3, p4⟩ := phr_stages o.params h.rate.1 h.rate.2 L (by omega)
  rw [hd] at p1 p2 p3 p4
  have hc' := phr_ref o.params h.rate.1 h.rate.2 L (by omega)
  rw [hd, hc] at hc'
  have hc' := Except.ok.inj hc'
  have p5 : dsss (bde (RefQ.headerBits (decide (o.params.sm = 1)) o.params.rm.toNat L) ((bde o.params.shr false).getLastD false))
      (phrSpreading o.params.band) = .ok c := by
    unfold oqpskPhrChips at hc
    rw [p1] at hc
    simp only at hc
    rw [p3] at hc
    exact hc
  have hst := oqpsk_state o a m ha (shrChips o.params) _ _ c t s (shr_ok o.params).1 (by rw [hL8]; exact p1) p3 p5 ht hs
  simp only at hst
  rw [hst]
  have hpil : o.params.insertPilots s = RefQ.withPilots o.params.band (RefQ.psdu o.params.band (decide (o.params.sm = 1)) o.params.rm.toNat m) := by
    rw [hf] at hfr
    have hfr := Except.ok.inj hfr
    unfold RefQ.chips at hfr
    rw [shr_ref, hL8, ← hc'] at hfr
    exact List.append_cancel_left hfr
  have hfec : oqpskFec m true = Ref.conv (RefQ.padded m) := by
    rw [oqpskFec_ref, oqpskPad_ref]
  have hcod : ((0 ≤ o.params.rm ∧ o.params.rm ≤ 1) ∨ o.params.sm = 0) ↔ (o.params.sm = 0 ∨ o.params.rm ≤ 1) := by
    have := h.rate.1
    constructor
    · rintro (h | h)
      · exact Or.inr h.2
      · exact Or.inl h
    · rintro (h | h)
      · exact Or.inr h
      · exact Or.inl ⟨this, h⟩
  have ht' : t = if o.params.sm = 0 ∨ o.params.rm ≤ 1 then RefQ.psduBits m else m := by
    unfold oqpskPsduBits at ht
    by_cases hq : o.params.sm = 0 ∨ o.params.rm ≤ 1
    · rw [if_pos (hcod.2 hq), psduBits_ref m] at ht
      rw [if_pos hq]; exact (Except.ok.inj ht).symm
    · rw [if_neg (fun h => hq (hcod.1 h))] at ht
      rw [if_neg hq]; exact (Except.ok.inj ht).symm
  unfold oqpskAfter
  simp only
  rw [hpil, p2, p4, hc', shrBits_ref, shr_ref, hfec, hL8, (psdu_table o.params.band o.params.rm h.rate.1 h.rate.2).1]
  unfold RefQ.chips
  rw [hL8]
  by_cases hq : o.params.sm = 0 ∨ o.params.rm ≤ 1
  · rw [if_pos hq] at ht'
    subst ht'
    simp only [if_pos hq, if_pos (hcod.2 hq), bde_ref]
  · rw [if_neg hq] at ht'
    subst ht'
    have hq' := fun h => hq (hcod.1 h)
    have hs0 : ¬ o.params.sm = 0 := fun h => hq (Or.inl h)
    simp only [if_neg hq, if_neg hq', if_neg hs0]

/-- **C87 (MR-O-QPSK, `bitsToIQ`).**  The same attributes after `bitsToIQ`. -/
theorem C87_oqpsk_bitsToIQ (o : OqpskObj) (h : Standard o.params) (a : Arg) (m : Bits) (ha : checkBinaryArray a = .ok m)
    (r : List ℂ × ℚ) (hr : ((oqpskBitsToIQ a).call o).1 = .ok r) :
    ((oqpskBitsToIQ a).call o).2 = oqpskAfter o m := by
  unfold oqpskBitsToIQ at hr ⊢
  rw [PyM.call_bind] at hr ⊢
  have key := C87_oqpsk o h a m ha
  generalize (oqpskChips a).call o = q at *
  obtain ⟨q1, q2⟩ := q
  cases q1 with
  | error e => rw [PyM.seqR_error] at hr; cases hr
  | ok b =>
    rw [PyM.seqR_ok, PyM.call_bind, PyM.call_get, PyM.seqR_ok, PyM.call_lift]
    exact key b rfl

/-! Non-vacuity: accepted messages. -/
example : ((fskBinary (bitsArg (List.replicate 8 true))).call { params := ⟨50000, 1, 0, .FSK2, true, 1, 0, true, true, 4⟩ }).1 =
    .ok (RefF.bits ⟨50000, 1, 0, .FSK2, true, 1, 0, true, true, 4⟩ (List.replicate 8 true)) := by
  rw [C69.C69_bits _ _ _ (C03.C03_identity _ (by decide))]; exact if_neg (by decide)
example : ((oqpskChips (bitsArg (List.replicate 40 true))).call { params := ⟨.b868, 1, 0, 10⟩ }).1 =
    .ok (RefQ.chips .b868 false 1 (List.replicate 40 true)) := by
  rw [(oqpskChips_result _ _).1, C03.C03_identity _ (by decide)]
  exact C68.frame_ref ⟨by decide, by decide, by decide⟩ _ 5 (by decide) (by decide) (by decide) (by unfold Unmodulable; decide)

end SunPhy.C87
