import Verif.Proofs.OqpskOutcome
import Verif.Props.C01
import Verif.Props.C03
/-
C46 — which MR-O-QPSK configurations are accepted.
C53 — which messages are modulated with DSSS.
C54 — MDSSS does not transmit the message.
C55 — which messages are modulated with MDSSS.
C63 — frame size.
-/
namespace SunPhy.C63
open SunPhy Spec

/-- **C46 (constructor).**  `UnsupportedError` exactly for MDSSS in the 470, 868, 920 and 950 MHz bands; otherwise the object stores the
arguments. -/
theorem C46_constructor (b : Band) (rm sm : Int) (sps : Nat) :
    ((mrOqpskInit b rm sm sps = .error .UnsupportedError) ↔ sm = 1 ∧ b ∈ [.b470, .b868, .b920, .b950]) ∧
    (¬ (sm = 1 ∧ b ∈ [.b470, .b868, .b920, .b950]) → mrOqpskInit b rm sm sps = .ok ⟨b, rm, sm, sps⟩) := by
  unfold mrOqpskInit
  have h : ∀ b : Band, (¬ mdsssSupported b = true) ↔ b ∈ [Band.b470, .b868, .b920, .b950] := by intro b; cases b <;> decide
  by_cases hc : sm = 1 ∧ b ∈ [Band.b470, .b868, .b920, .b950]
  · rw [if_pos ⟨hc.1, (h b).2 hc.2⟩]
    exact ⟨⟨fun _ => hc, fun _ => rfl⟩, fun hn => absurd hc hn⟩
  · rw [if_neg (fun hh => hc ⟨hh.1, (h b).1 hh.2⟩)]
    exact ⟨⟨fun e => (nomatch e), fun hh => absurd hh hc⟩, fun _ => rfl⟩

/-- **C46 (other modes).**  An object with a rate mode outside 0..3, or a spreading mode outside 0..1, never returns a signal. -/
theorem C46_no_signal (o : OqpskObj) (h : o.params.rm < 0 ∨ 3 < o.params.rm ∨ (o.params.sm ≠ 0 ∧ o.params.sm ≠ 1)) (a : Arg) :
    (∃ e, ((oqpskBitsToIQ a).call o).1 = .error e) ∧ (∃ e, ((oqpskBytesToIQ a).call o).1 = .error e) := by
  have hd : ∃ e, dataRate o.params.sm o.params.band o.params.rm = .error e := by
    unfold dataRate
    simp only
    generalize o.params.band = b
    cases b <;> simp only <;> split_ifs <;> first | exact ⟨_, rfl⟩ | (exfalso; omega)
  obtain ⟨e, hd⟩ := hd
  have hmod : ∀ c, oqpskModulator o.params c o.params.sps = .error e := by
    intro c; unfold oqpskModulator; rw [hd]; rfl
  have hbits : ∀ a, ∃ e, oqpskBitsResult o.params a = .error e := by
    intro a
    unfold oqpskBitsResult
    cases checkBinaryArray a with
    | error e => exact ⟨_, rfl⟩
    | ok m =>
      simp only
      cases oqpskFrame o.params m with
      | error e => exact ⟨_, rfl⟩
      | ok c => exact ⟨_, hmod c⟩
  refine ⟨?_, ?_⟩
  · rw [(oqpskBitsToIQ_result a o).1]; exact hbits a
  · rw [(oqpskBytesToIQ_result a o).1]
    unfold oqpskBytesResult
    cases toBinaryArray a with
    | error e => exact ⟨_, rfl⟩
    | ok m => exact hbits _

/-- A configuration with standard modes. -/
structure Standard (p : OqpskParams) : Prop where
  rate : 0 ≤ p.rm ∧ p.rm ≤ 3
  mode : p.sm = 0 ∨ (p.sm = 1 ∧ mdsssSupported p.band = true)
  sps : 1 ≤ p.sps

/-- What the constructor accepts, with standard modes. -/
theorem standard_of_init (b : Band) (rm sm : Int) (sps : Nat) (p : OqpskParams) (h : mrOqpskInit b rm sm sps = .ok p) (hr : 0 ≤ rm ∧ rm ≤ 3)
    (hs : sm = 0 ∨ sm = 1) (hp : 1 ≤ sps) : Standard p := by
  unfold mrOqpskInit at h
  split at h
  · cases h
  · rename_i hn
    have := Except.ok.inj h; subst this
    refine ⟨hr, ?_, hp⟩
    rcases hs with hs | hs
    · exact Or.inl hs
    · refine Or.inr ⟨hs, ?_⟩
      by_contra hb
      exact hn ⟨hs, hb⟩

theorem rate_ok {p : OqpskParams} (h : Standard p) : ∃ r, dataRate p.sm p.band p.rm = .ok r := by
  obtain ⟨⟨h0, h3⟩, hm, -⟩ := h
  unfold dataRate
  simp only
  generalize p.band = b at *
  rcases hm with hm | ⟨hm, hb⟩
  · cases b <;> simp only <;> split_ifs <;> first | exact ⟨_, rfl⟩ | (exfalso; omega)
  · cases b <;> simp only <;> split_ifs <;> first | exact ⟨_, rfl⟩ | (exfalso; omega) | (exfalso; revert hb; decide)

/-- The octet interface, from the frame. -/
theorem bytes_frame (o : OqpskObj) (a : Arg) (msg : List UInt8) (h : C01.Denotes a msg) (hne : 1 ≤ msg.length) :
    ∃ m : Bits, toBinaryArray a = .ok m ∧ m.length = 8 * msg.length ∧
      ((oqpskBytesToIQ a).call o).1 = (match oqpskFrame o.params m with
        | .error e => .error e
        | .ok chips => oqpskModulator o.params chips o.params.sps) := by
  have hn : msg ≠ [] := List.length_pos_iff.1 hne
  obtain ⟨m, e, hl, -⟩ := C01.C01_lsb_first a msg h hn
  refine ⟨m, e, hl, ?_⟩
  rw [(oqpskBytesToIQ_result a o).1]
  unfold oqpskBytesResult
  rw [e]
  simp only
  unfold oqpskBitsResult
  rw [C03.C03_identity m (by rintro rfl; rw [List.length_nil] at hl; omega)]
  rfl

/-- Spread PSDU of an octet message. -/
theorem spread_outcome {p : OqpskParams} (h : Standard p) (m : Bits) (L : Nat) (hm : m.length = 8 * L) (hL : 1 ≤ L) :
    ∃ t, oqpskPsduBits p m = .ok t ∧
      (blocks63 L % 2 = 1 ∧ (p.sm = 0 ∧ fourBitGroups p.band p.rm.toNat = true ∨ p.sm = 1 ∧ p.rm ≤ 1) →
        oqpskSpread p t = .error .ValueError) ∧
      (¬ (blocks63 L % 2 = 1 ∧ (p.sm = 0 ∧ fourBitGroups p.band p.rm.toNat = true ∨ p.sm = 1 ∧ p.rm ≤ 1)) →
        ∃ s, oqpskSpread p t = .ok s ∧ s.length = psduChips p.band (decide (p.sm = 1)) p.rm.toNat L ∧
          (p.sm = 1 → coveringCode (mdsssF p.band p.rm.toNat / 4) = .ok s)) := by
  obtain ⟨⟨h0, h3⟩, hmode, -⟩ := h
  obtain ⟨t, ht, hlen⟩ := psduBits_ok p m (by omega)
  refine ⟨t, ht, ?_⟩
  have hL8 : m.length / 8 = L := by omega
  rw [hL8] at hlen
  have hNB : 1 ≤ blocks63 L := by unfold blocks63; omega
  have hpb : psduBlocks L = blocks63 L := rfl
  rw [hpb] at hlen
  rcases hmode with hs | ⟨hs, hb⟩
  · rw [if_pos (Or.inr hs)] at hlen
    obtain ⟨k1, k2, -⟩ := spread_dsss p hs h0 h3
    have hg : (psduGroup p.band p.rm.toNat).1 = 1 ∨ (psduGroup p.band p.rm.toNat).1 = 4 := by
      generalize p.band = b
      have : p.rm.toNat = 0 ∨ p.rm.toNat = 1 ∨ p.rm.toNat = 2 ∨ p.rm.toNat = 3 := by omega
      rcases this with e | e | e | e <;> rw [e] <;> cases b <;> decide
    have hf : fourBitGroups p.band p.rm.toNat = true ↔ (psduGroup p.band p.rm.toNat).1 = 4 := by simp [fourBitGroups]
    rw [hf]
    constructor
    · rintro ⟨hodd, h4⟩
      have h4 : (psduGroup p.band p.rm.toNat).1 = 4 := by rcases h4 with h4 | h4 <;> omega
      exact k1 t (by rw [h4, hlen]; omega)
    · intro hn
      obtain ⟨s, e, hl⟩ := k2 t (by rcases hg with hg | hg <;> rw [hg, hlen] <;> omega)
      refine ⟨s, e, ?_, fun h => by omega⟩
      rw [hl, hlen]
      unfold psduChips
      rw [if_neg (by simp; omega)]
  · obtain ⟨k1, k2⟩ := spread_mdsss p hs h0 h3 hb t
    have hpc : psduChips p.band (decide (p.sm = 1)) p.rm.toNat L = mdsssF p.band p.rm.toNat := by
      unfold psduChips; rw [if_pos (by simp [hs])]
    rw [hpc]
    by_cases hr : p.rm ≤ 1
    · rw [if_pos (Or.inl ⟨h0, hr⟩)] at hlen
      obtain ⟨t1, t2⟩ := tpcBits_coded (blocks63 L)
      rw [← hlen] at t1 t2
      constructor
      · rintro ⟨hodd, -⟩
        exact k2 (by have := t2 hodd; omega)
      · intro hn
        have : blocks63 L % 2 = 0 := by
          by_contra hc
          exact hn ⟨by omega, Or.inr ⟨hs, hr⟩⟩
        obtain ⟨s, e, hcv, hl⟩ := k1 (t1 this) (by unfold tpcBits; omega)
        exact ⟨s, e, hl, fun _ => hcv⟩
    · rw [if_neg (by omega), hm] at hlen
      constructor
      · rintro ⟨-, hc⟩; omega
      · intro _
        have e := tpcBits_octets L
        rw [← hlen] at e
        obtain ⟨s, e', hcv, hl⟩ := k1 (by omega) (by omega)
        exact ⟨s, e', hl, fun _ => hcv⟩

/-- The messages for which modulation fails: an odd number of 63-bit blocks, with 4-bit spreading or MDSSS rate modes 0 and 1. -/
def Unmodulable (p : OqpskParams) (L : Nat) : Prop :=
  blocks63 L % 2 = 1 ∧ (p.sm = 0 ∧ fourBitGroups p.band p.rm.toNat = true ∨ p.sm = 1 ∧ p.rm ≤ 1)

theorem size_even (b : Band) (f : Bool) (rm L : Nat) (h3 : rm ≤ 3) : frameChips b f rm L % 2 = 0 := by
  have hp : psduChips b f rm L % 2 = 0 := by
    unfold psduChips
    have : rm = 0 ∨ rm = 1 ∨ rm = 2 ∨ rm = 3 := by omega
    split
    · rcases this with rfl | rfl | rfl | rfl <;> cases b <;> rfl
    · rcases this with rfl | rfl | rfl | rfl <;> cases b <;> simp only [psduGroup] <;> omega
  unfold frameChips
  cases b <;> simp only [pilots, shrChipsPerBit, phrChipsPerBit] <;> omega

theorem frame_outcome {p : OqpskParams} (h : Standard p) (m : Bits) (L : Nat) (hm : m.length = 8 * L) (hL : 1 ≤ L) :
    ((2048 ≤ L ∨ Unmodulable p L) → oqpskFrame p m = .error .ValueError) ∧
    (L ≤ 2047 → ¬ Unmodulable p L → ∃ c s, oqpskFrame p m = .ok (shrChips p ++ c ++ p.insertPilots s) ∧ oqpskPhrChips p L = .ok c ∧
      (∃ t, oqpskPsduBits p m = .ok t ∧ oqpskSpread p t = .ok s) ∧ (p.sm = 1 → coveringCode (mdsssF p.band p.rm.toNat / 4) = .ok s) ∧
      (shrChips p ++ c ++ p.insertPilots s).length = frameChips p.band (decide (p.sm = 1)) p.rm.toNat L) := by
  have hL8 : m.length / 8 = L := by omega
  have hlong : 2048 ≤ L → oqpskFrame p m = .error .ValueError := by
    intro h2
    unfold oqpskFrame
    rw [(shr_ok p).1, hL8, phr_too_long p L h2]
  obtain ⟨t, ht, k1, k2⟩ := spread_outcome h m L hm hL
  constructor
  · by_cases h2 : 2048 ≤ L
    · exact fun _ => hlong h2
    · rintro (h2' | hu)
      · exact hlong h2'
      · obtain ⟨c, hc, -⟩ := phr_ok_iff p h.rate.1 h.rate.2 L (by omega)
        rw [frame_eq p m c (by rw [hL8]; exact hc) t ht, k1 hu]; rfl
  · intro h2 hu
    obtain ⟨c, hc, hcl⟩ := phr_ok_iff p h.rate.1 h.rate.2 L (by omega)
    obtain ⟨s, hs, hsl, hcv⟩ := k2 hu
    refine ⟨c, s, ?_, hc, ⟨t, ht, hs⟩, hcv, ?_⟩
    · rw [frame_eq p m c (by rw [hL8]; exact hc) t ht, hs]; rfl
    · rw [List.length_append, List.length_append, (shr_ok p).2, hcl, C57.C57_size, hsl]
      unfold frameChips
      have e1 : preambleLength p.band = preambleBits p.band := by generalize p.band = b; cases b <;> rfl
      have e2 : C57.spacing p.band = (pilots p.band).2 := by generalize p.band = b; cases b <;> rfl
      have e3 : C57.pilotLen p.band = (pilots p.band).1 := by generalize p.band = b; cases b <;> rfl
      rw [e1, e2, e3]
      omega

theorem frame_pos (b : Band) (f : Bool) (rm L : Nat) : 0 < frameChips b f rm L := by
  unfold frameChips
  have : 0 < (preambleBits b + 16) * shrChipsPerBit b := by cases b <;> decide
  omega

/-- Outcome of `bytesToIQ`. -/
theorem outcome (o : OqpskObj) (h : Standard o.params) (a : Arg) (msg : List UInt8) (hd : C01.Denotes a msg) (h1 : 1 ≤ msg.length) :
    (¬ (msg.length ≤ 2047 ∧ ¬ Unmodulable o.params msg.length) → ((oqpskBytesToIQ a).call o).1 = .error .ValueError) ∧
    (msg.length ≤ 2047 ∧ ¬ Unmodulable o.params msg.length → ∃ (iq : List ℂ) (r : Nat), ((oqpskBytesToIQ a).call o).1 = .ok (iq, (r : ℚ) * o.params.sps) ∧
      dataRate o.params.sm o.params.band o.params.rm = .ok r ∧
      iq.length = frameChips o.params.band (decide (o.params.sm = 1)) o.params.rm.toNat msg.length / 2 * o.params.sps + o.params.sps - 1) := by
  obtain ⟨m, -, hl, e⟩ := bytes_frame o a msg hd h1
  obtain ⟨k1, k2⟩ := frame_outcome h m msg.length hl h1
  constructor
  · intro hn
    rw [e, k1 (by by_contra hc; exact hn ⟨by omega, fun hu => hc (Or.inr hu)⟩)]
  · rintro ⟨h2, hu⟩
    obtain ⟨c, s, hf, -, -, -, hlen⟩ := k2 h2 hu
    obtain ⟨r, hr⟩ := rate_ok h
    have hpos := frame_pos o.params.band (decide (o.params.sm = 1)) o.params.rm.toNat msg.length
    obtain ⟨iq, hm, hiq, -⟩ := C60.C60_waveform o.params (shrChips o.params ++ c ++ o.params.insertPilots s)
      (by intro he; rw [he, List.length_nil] at hlen; omega) (by rw [hlen]; exact size_even _ _ _ _ (by have := h.rate; omega)) o.params.sps h.sps r hr
    refine ⟨iq, r, ?_, hr, ?_⟩
    · rw [e, hf]; exact hm
    · rw [hiq, hlen]

/-- **C63.**  Whenever `bytesToIQ` returns samples for an octet message, their number is `chips/2 · sps + sps − 1`, the chips of the frame
being given by the band tables, and even. -/
theorem C63_frame_size (o : OqpskObj) (h : Standard o.params) (a : Arg) (msg : List UInt8) (hd : C01.Denotes a msg) (h1 : 1 ≤ msg.length)
    (iq : List ℂ) (fs : ℚ) (hok : ((oqpskBytesToIQ a).call o).1 = .ok (iq, fs)) :
    iq.length = frameChips o.params.band (decide (o.params.sm = 1)) o.params.rm.toNat msg.length / 2 * o.params.sps + o.params.sps - 1 ∧
    frameChips o.params.band (decide (o.params.sm = 1)) o.params.rm.toNat msg.length % 2 = 0 := by
  obtain ⟨k1, k2⟩ := outcome o h a msg hd h1
  refine ⟨?_, size_even _ _ _ _ (by have := h.rate; omega)⟩
  by_cases hc : msg.length ≤ 2047 ∧ ¬ Unmodulable o.params msg.length
  · obtain ⟨iq', r, e, -, hl⟩ := k2 hc
    rw [e] at hok
    have := Except.ok.inj hok
    simp only [Prod.mk.injEq] at this
    rw [← this.1]; exact hl
  · rw [k1 hc] at hok; cases hok

/-- **C53 (exact).**  With DSSS, a message of 1..2047 octets is modulated exactly when the spreading is not 4-bit (780/915/917 MHz rate
modes 1, 2; 2450 MHz rate modes 1, 2, 3) or the number of 63-bit blocks is even; otherwise `ValueError` is raised. -/
theorem C53_exact (o : OqpskObj) (h : Standard o.params) (hs : o.params.sm = 0) (a : Arg) (msg : List UInt8) (hd : C01.Denotes a msg)
    (h1 : 1 ≤ msg.length) (h2 : msg.length ≤ 2047) :
    ((∃ r, ((oqpskBytesToIQ a).call o).1 = .ok r) ↔ fourBitGroups o.params.band o.params.rm.toNat = false ∨ blocks63 msg.length % 2 = 0) ∧
    ((∀ r, ((oqpskBytesToIQ a).call o).1 ≠ .ok r) → ((oqpskBytesToIQ a).call o).1 = .error .ValueError) := by
  obtain ⟨k1, k2⟩ := outcome o h a msg hd h1
  have hu : ¬ Unmodulable o.params msg.length ↔ fourBitGroups o.params.band o.params.rm.toNat = false ∨ blocks63 msg.length % 2 = 0 := by
    unfold Unmodulable
    cases fourBitGroups o.params.band o.params.rm.toNat
    · simp [hs]
    · simp [hs]
  rw [← hu]
  by_cases hc : Unmodulable o.params msg.length
  · have e := k1 (fun hh => hh.2 hc)
    rw [e]
    exact ⟨⟨fun ⟨_, hr⟩ => (nomatch hr), fun hn => absurd hc hn⟩, fun _ => rfl⟩
  · obtain ⟨iq, r, e, -⟩ := k2 ⟨h2, hc⟩
    rw [e]
    exact ⟨⟨fun _ => hc, fun _ => ⟨_, rfl⟩⟩, fun hh => absurd rfl (hh _)⟩

/-- **C53 (partial).**  In all configurations with one-bit spreading (or none), every message of 1..2047 octets gives a signal. -/
theorem C53_one_bit_partial (o : OqpskObj) (h : Standard o.params) (hs : o.params.sm = 0) (hg : fourBitGroups o.params.band o.params.rm.toNat = false)
    (a : Arg) (msg : List UInt8) (hd : C01.Denotes a msg) (h1 : 1 ≤ msg.length) (h2 : msg.length ≤ 2047) :
    ∃ r, ((oqpskBytesToIQ a).call o).1 = .ok r :=
  ((C53_exact o h hs a msg hd h1 h2).1).2 (Or.inl hg)

/-- **C53 (refutation).**  At 780 MHz, rate mode 1, no message of 1 to 7 octets can be modulated. -/
theorem C53_false (sps : Nat) (hp : 1 ≤ sps) (o : OqpskObj) (ho : mrOqpskInit .b780 1 0 sps = .ok o.params) (msg : List UInt8) (h1 : 1 ≤ msg.length)
    (h7 : msg.length ≤ 7) : ((oqpskBytesToIQ (.bytes msg)).call o).1 = .error .ValueError := by
  have hS := standard_of_init _ _ _ _ _ ho (by omega) (Or.inl rfl) hp
  have ep : o.params = ⟨.b780, 1, 0, sps⟩ := (Except.ok.inj ho).symm
  have := outcome o hS (.bytes msg) msg rfl h1
  refine this.1 ?_
  rintro ⟨-, hn⟩
  refine hn ⟨?_, Or.inl ?_⟩
  · unfold blocks63
    rw [show (8 * msg.length + 6 + 62) / 63 = 1 by omega]
  · rw [ep]; exact ⟨rfl, rfl⟩

/-- **C55 (exact).**  With MDSSS, a message of 1..2047 octets is modulated exactly when the rate mode is 2 or 3 or the number of 63-bit
blocks is even; otherwise `ValueError` is raised. -/
theorem C55_exact (o : OqpskObj) (h : Standard o.params) (hs : o.params.sm = 1) (a : Arg) (msg : List UInt8) (hd : C01.Denotes a msg)
    (h1 : 1 ≤ msg.length) (h2 : msg.length ≤ 2047) :
    ((∃ r, ((oqpskBytesToIQ a).call o).1 = .ok r) ↔ 2 ≤ o.params.rm ∨ blocks63 msg.length % 2 = 0) ∧
    ((∀ r, ((oqpskBytesToIQ a).call o).1 ≠ .ok r) → ((oqpskBytesToIQ a).call o).1 = .error .ValueError) := by
  obtain ⟨k1, k2⟩ := outcome o h a msg hd h1
  have hu : ¬ Unmodulable o.params msg.length ↔ 2 ≤ o.params.rm ∨ blocks63 msg.length % 2 = 0 := by
    unfold Unmodulable
    rw [hs]
    simp only [show ¬ ((1 : Int) = 0) by decide, false_and, false_or, true_and]
    omega
  rw [← hu]
  by_cases hc : Unmodulable o.params msg.length
  · have e := k1 (fun hh => hh.2 hc)
    rw [e]
    exact ⟨⟨fun ⟨_, hr⟩ => (nomatch hr), fun hn => absurd hc hn⟩, fun _ => rfl⟩
  · obtain ⟨iq, r, e, -⟩ := k2 ⟨h2, hc⟩
    rw [e]
    exact ⟨⟨fun _ => hc, fun _ => ⟨_, rfl⟩⟩, fun hh => absurd rfl (hh _)⟩

/-- **C55 (partial).**  With MDSSS rate modes 2 and 3 every message of 1..2047 octets gives a signal. -/
theorem C55_uncoded_partial (o : OqpskObj) (h : Standard o.params) (hs : o.params.sm = 1) (hr : 2 ≤ o.params.rm) (a : Arg) (msg : List UInt8)
    (hd : C01.Denotes a msg) (h1 : 1 ≤ msg.length) (h2 : msg.length ≤ 2047) : ∃ r, ((oqpskBytesToIQ a).call o).1 = .ok r :=
  ((C55_exact o h hs a msg hd h1 h2).1).2 (Or.inl hr)

/-- **C54 (refutation).**  With MDSSS the message is not transmitted: any two messages of the same number of octets have the same
outcome, in particular the same samples. -/
theorem C54_false (o : OqpskObj) (h : Standard o.params) (hs : o.params.sm = 1) (a a' : Arg) (msg msg' : List UInt8) (hd : C01.Denotes a msg)
    (hd' : C01.Denotes a' msg') (h1 : 1 ≤ msg.length) (hl : msg.length = msg'.length) :
    ((oqpskBytesToIQ a).call o).1 = ((oqpskBytesToIQ a').call o).1 := by
  obtain ⟨m, -, ml, e⟩ := bytes_frame o a msg hd h1
  obtain ⟨m', -, ml', e'⟩ := bytes_frame o a' msg' hd' (by omega)
  rw [← hl] at ml'
  suffices hf : oqpskFrame o.params m = oqpskFrame o.params m' by rw [e, e', hf]
  obtain ⟨k1, k2⟩ := frame_outcome h m msg.length ml h1
  obtain ⟨k1', k2'⟩ := frame_outcome h m' msg.length ml' h1
  by_cases hc : 2048 ≤ msg.length ∨ Unmodulable o.params msg.length
  · rw [k1 hc, k1' hc]
  · obtain ⟨c, s, hf, hp, -, hst, -⟩ := k2 (by omega) (fun hu => hc (Or.inr hu))
    obtain ⟨c', s', hf', hp', -, hst', -⟩ := k2' (by omega) (fun hu => hc (Or.inr hu))
    have ec : c = c' := Except.ok.inj (hp.symm.trans hp')
    have es : s = s' := Except.ok.inj ((hst hs).symm.trans (hst' hs))
    rw [hf, hf', ec, es]

example : Standard ⟨.b915, 2, 1, 10⟩ ∧ Standard ⟨.b2450, 3, 0, 10⟩ ∧ ¬ Unmodulable ⟨.b915, 2, 1, 10⟩ 5 ∧ blocks63 8 = 2 :=
  ⟨⟨by decide, by decide, by decide⟩, ⟨by decide, by decide, by decide⟩, by unfold Unmodulable; decide, by decide⟩

end SunPhy.C63
