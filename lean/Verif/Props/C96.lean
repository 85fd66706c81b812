import Verif.Props.C63
/-
C96 — which *bit* messages the MR-O-QPSK modulator accepts (any number of bits, not only whole octets), and the size of the signal.
-/
namespace SunPhy.C96
open SunPhy Spec C63

/-- Coded bits of an `n`-bit PSDU: the zero bits added after the message are computed from the number of whole octets, so the `n mod 8` bits of an
incomplete octet make the last block longer. -/
def codedBits (n : Nat) : Nat := 126 * blocks63 (n / 8) + 2 * (n % 8)

/-- Message sizes (in bits) that can be spread. -/
def Spreadable (p : OqpskParams) (n : Nat) : Prop :=
  if p.sm = 0 then
    -- DSSS: one bit at a time always works, four at a time needs an even sum
    fourBitGroups p.band p.rm.toNat = true → (blocks63 (n / 8) + n) % 2 = 0
  else
    -- MDSSS: coded rate modes 0 and 1, uncoded rate modes 2 and 3
    if p.rm ≤ 1 then (blocks63 (n / 8) + n) % 2 = 0 else n % 4 = 0

/-- Chips of the spread PSDU. -/
def psduChipsOf (p : OqpskParams) (n : Nat) : Nat :=
  if p.sm = 1 then mdsssF p.band p.rm.toNat else codedBits n / (psduGroup p.band p.rm.toNat).1 * (psduGroup p.band p.rm.toNat).2

/-- Chips of the frame: SHR, PHR, PSDU, and one pilot sequence for each started group of PSDU chips. -/
def frameChipsOf (p : OqpskParams) (n : Nat) : Nat :=
  (preambleBits p.band + 16) * shrChipsPerBit p.band + 60 * phrChipsPerBit p.band + psduChipsOf p n +
    (psduChipsOf p n + (pilots p.band).2 - 1) / (pilots p.band).2 * (pilots p.band).1

theorem fec_length (m : Bits) : (oqpskFec m true).length = codedBits m.length := by
  rw [oqpskFec_eq, rateHalfOut_length]
  unfold oqpskPad codedBits blocks63 ceilDiv
  simp only [if_true, List.length_append, List.length_replicate]
  omega

theorem interleaver_total (data : Bits) (NB e : Nat) (h1 : 1 ≤ NB) (h : data.length = 126 * NB + e) :
    ∃ out, oqpskInterleaver data true = .ok out ∧ out.length = data.length := by
  refine ⟨(List.range data.length).map fun k => data.getD (let i := oqpskIntlIndex true k; (if i < 0 then i + data.length else i).toNat) false, ?_, by simp⟩
  unfold oqpskInterleaver
  apply mapM_eq_ok
  intro k hk
  have hk := List.mem_range.1 hk
  unfold pyGet
  have hi : oqpskIntlIndex true k = 18 * ((125 - (k : Int)) % 7) + (125 - (k : Int)) / 7 := rfl
  simp only
  generalize hj : (if oqpskIntlIndex true k < 0 then oqpskIntlIndex true k + (data.length : Int) else oqpskIntlIndex true k) = j
  have hj0 : 0 ≤ j ∧ j < data.length := by
    rw [← hj, hi]
    split <;> omega
  rw [if_neg (by omega), List.getElem?_eq_getElem (by omega), List.getD_eq_getElem _ _ (by omega)]

theorem tpcBits_nine (K : Nat) : (tpcBits K % 9 = 0 ↔ K % 4 = 0) := by
  unfold tpcBits
  have hq : K = 8 * (K / 8) + K % 8 := (Nat.div_add_mod K 8).symm
  have hr : K % 8 < 8 := Nat.mod_lt _ (by decide)
  generalize K / 8 = q at *
  generalize K % 8 = r at *
  subst hq
  have : r = 0 ∨ r = 1 ∨ r = 2 ∨ r = 3 ∨ r = 4 ∨ r = 5 ∨ r = 6 ∨ r = 7 := by omega
  rcases this with rfl | rfl | rfl | rfl | rfl | rfl | rfl | rfl <;> omega

theorem hadamard_error {N : Nat} (rows : List Bits) (hne : rows ≠ []) (h : ∀ r ∈ rows, r.length % 3 ≠ 0) : hadamardEncoder N rows = .error .ValueError := by
  cases rows with
  | nil => exact absurd rfl hne
  | cons r rs =>
    unfold hadamardEncoder
    rw [mapM_ok_cons, hadamardRow_error (h r (by simp))]; rfl

theorem mdsss_error_nine (t : Bits) (f : Nat) (h : tpcBits t.length % 9 ≠ 0) : mdsss t f = .error .ValueError := by
  by_cases h3 : tpcBits t.length % 3 = 0
  · have e : tpc t (f / 4) = .error .ValueError := by
      unfold tpc
      simp only
      rw [tpc_bits, if_neg (by omega), hadamard_error]
      · rfl
      · simp
      · intro r hr
        have len : ∀ off < 3, (everyNth 3 off (insertP (t ++ List.replicate (t.length % 8) false))).length = tpcBits t.length / 3 := by
          intro off ho
          rw [everyNth_length ho _ (by rw [tpc_bits]; exact h3), tpc_bits]
        simp only [List.mem_cons, List.not_mem_nil, or_false] at hr
        rcases hr with rfl | rfl | rfl
        · rw [len 0 (by decide)]; omega
        · rw [len 1 (by decide)]; omega
        · rw [len 2 (by decide)]; omega
    unfold mdsss
    simp only
    rw [e]; rfl
  · exact mdsss_error t f h3

theorem blocks_pos (L : Nat) : 1 ≤ blocks63 L := by unfold blocks63; omega

theorem spread_bits {p : OqpskParams} (h : Standard p) (m : Bits) (hne : m ≠ []) :
    ∃ t, oqpskPsduBits p m = .ok t ∧ (¬ Spreadable p m.length → oqpskSpread p t = .error .ValueError) ∧
      (Spreadable p m.length → ∃ s, oqpskSpread p t = .ok s ∧ s.length = psduChipsOf p m.length) := by
  obtain ⟨⟨h0, h3⟩, hmode, -⟩ := h
  have hpos : 0 < m.length := List.length_pos_iff.2 hne
  obtain ⟨t, ht, htl⟩ := interleaver_total (oqpskFec m true) (blocks63 (m.length / 8)) (2 * (m.length % 8)) (blocks_pos _) (fec_length m)
  rw [fec_length] at htl
  rcases hmode with hs | ⟨hs, hb⟩
  · obtain ⟨k1, k2, -⟩ := spread_dsss p hs h0 h3
    refine ⟨t, by unfold oqpskPsduBits; rw [if_pos (Or.inr hs)]; exact ht, ?_⟩
    have hg : (psduGroup p.band p.rm.toNat).1 = 1 ∨ (psduGroup p.band p.rm.toNat).1 = 4 := by
      generalize p.band = b
      have : p.rm.toNat = 0 ∨ p.rm.toNat = 1 ∨ p.rm.toNat = 2 ∨ p.rm.toNat = 3 := by omega
      rcases this with e | e | e | e <;> rw [e] <;> cases b <;> decide
    have hf : fourBitGroups p.band p.rm.toNat = true ↔ (psduGroup p.band p.rm.toNat).1 = 4 := by simp [fourBitGroups]
    have hS : Spreadable p m.length ↔ t.length % (psduGroup p.band p.rm.toNat).1 = 0 := by
      unfold Spreadable
      rw [if_pos hs, hf, htl]
      unfold codedBits
      rcases hg with hg | hg <;> rw [hg] <;> omega
    rw [hS]
    refine ⟨k1 t, fun hk => ?_⟩
    obtain ⟨s, e, hl⟩ := k2 t hk
    refine ⟨s, e, ?_⟩
    rw [hl, htl]
    unfold psduChipsOf
    rw [if_neg (by omega)]
  · have hs0 : p.sm ≠ 0 := by omega
    have key : ∀ t : Bits, 0 < t.length → (t.length % 4 ≠ 0 → oqpskSpread p t = .error .ValueError) ∧
        (t.length % 4 = 0 → ∃ s, oqpskSpread p t = .ok s ∧ s.length = psduChipsOf p m.length) := by
      intro t ht0
      have hp : 0 < tpcBits t.length := by unfold tpcBits; omega
      refine ⟨fun hn => ?_, fun hk => ?_⟩
      · obtain ⟨e1, -, -⟩ := mdsss_factor p.band p.rm h0 h3 hb
        unfold oqpskSpread
        rw [if_neg hs0, e1]
        exact mdsss_error_nine t _ (fun hc => hn ((tpcBits_nine _).1 hc))
      · obtain ⟨s, e, -, hl⟩ := (spread_mdsss p hs h0 h3 hb t).1 ((tpcBits_nine _).2 hk) hp
        exact ⟨s, e, by rw [hl]; unfold psduChipsOf; rw [if_pos hs]⟩
    unfold Spreadable
    rw [if_neg hs0]
    by_cases hr : p.rm ≤ 1
    · rw [if_pos hr]
      refine ⟨t, by unfold oqpskPsduBits; rw [if_pos (Or.inl ⟨h0, hr⟩)]; exact ht, ?_⟩
      have hb := blocks_pos (m.length / 8)
      obtain ⟨k1, k2⟩ := key t (by rw [htl]; unfold codedBits; omega)
      have : t.length % 4 = 0 ↔ (blocks63 (m.length / 8) + m.length) % 2 = 0 := by rw [htl]; unfold codedBits; omega
      rw [← this]
      exact ⟨k1, k2⟩
    · rw [if_neg hr]
      exact ⟨m, by unfold oqpskPsduBits; rw [if_neg (by omega)], key m hpos⟩

theorem chips_even (p : OqpskParams) (h : Standard p) (n : Nat) : frameChipsOf p n % 2 = 0 := by
  have h3 := h.rate
  have hp : psduChipsOf p n % 2 = 0 := by
    unfold psduChipsOf codedBits
    have : p.rm.toNat = 0 ∨ p.rm.toNat = 1 ∨ p.rm.toNat = 2 ∨ p.rm.toNat = 3 := by omega
    generalize p.rm.toNat = rm at *
    generalize p.band = b at *
    split
    · rcases this with rfl | rfl | rfl | rfl <;> cases b <;> rfl
    · rcases this with rfl | rfl | rfl | rfl <;> cases b <;> simp only [psduGroup] <;> omega
  unfold frameChipsOf
  generalize p.band = b
  cases b <;> simp only [pilots, shrChipsPerBit, phrChipsPerBit] <;> omega

theorem chips_pos (p : OqpskParams) (n : Nat) : 0 < frameChipsOf p n := by
  unfold frameChipsOf
  have : 0 < (preambleBits p.band + 16) * shrChipsPerBit p.band := by generalize p.band = b; cases b <;> decide
  omega

/-- **C96.**  Every accepted bit message `m` (see C03 for what the argument may be) of at most `8 * 2047 + 7` bits whose size is spreadable gives a signal of
`chips/2 * sps + sps - 1` samples; every other one raises `ValueError`. -/
theorem C96_bits (o : OqpskObj) (h : Standard o.params) (a : Arg) (m : Bits) (ha : checkBinaryArray a = .ok m) :
    (m.length / 8 ≤ 2047 ∧ Spreadable o.params m.length → ∃ (iq : List ℂ) (r : Nat), ((oqpskBitsToIQ a).call o).1 = .ok (iq, (r : ℚ) * o.params.sps) ∧
      dataRate o.params.sm o.params.band o.params.rm = .ok r ∧
      iq.length = frameChipsOf o.params m.length / 2 * o.params.sps + o.params.sps - 1) ∧
    (¬ (m.length / 8 ≤ 2047 ∧ Spreadable o.params m.length) → ((oqpskBitsToIQ a).call o).1 = .error .ValueError) := by
  have hne : m ≠ [] := by
    have hacc := (C03.C03_accepts_iff a).1 ⟨m, ha⟩
    have := (C03.C03_validation a).1 hacc
    rw [ha] at this
    rw [Except.ok.inj this]
    cases a <;> simp_all [C03.Acceptable, C03.entries]
  have e : ((oqpskBitsToIQ a).call o).1 = (match oqpskFrame o.params m with
      | .error e => .error e
      | .ok chips => oqpskModulator o.params chips o.params.sps) := by
    rw [(oqpskBitsToIQ_result a o).1]
    unfold oqpskBitsResult
    rw [ha]; rfl
  obtain ⟨t, ht, k1, k2⟩ := spread_bits h m hne
  constructor
  · rintro ⟨h2, hS⟩
    obtain ⟨c, hc, hcl⟩ := phr_ok_iff o.params h.rate.1 h.rate.2 (m.length / 8) (by omega)
    obtain ⟨s, hs, hsl⟩ := k2 hS
    have hf : oqpskFrame o.params m = .ok (shrChips o.params ++ c ++ o.params.insertPilots s) := by
      rw [frame_eq o.params m c hc t ht, hs]; rfl
    have hlen : (shrChips o.params ++ c ++ o.params.insertPilots s).length = frameChipsOf o.params m.length := by
      rw [List.length_append, List.length_append, (shr_ok _).2, hcl, C57.C57_size, hsl]
      unfold frameChipsOf
      generalize o.params.band = b
      have e1 : preambleLength b = preambleBits b := by cases b <;> rfl
      have e2 : C57.spacing b = (pilots b).2 := by cases b <;> rfl
      have e3 : C57.pilotLen b = (pilots b).1 := by cases b <;> rfl
      rw [e1, e2, e3]
      omega
    obtain ⟨r, hr⟩ := rate_ok h
    have hpos := chips_pos o.params m.length
    obtain ⟨iq, hm, hiq, -⟩ := C60.C60_waveform o.params (shrChips o.params ++ c ++ o.params.insertPilots s)
      (by intro he; rw [he, List.length_nil] at hlen; omega) (by rw [hlen]; exact chips_even _ h _) o.params.sps h.sps r hr
    refine ⟨iq, r, ?_, hr, ?_⟩
    · rw [e, hf]; exact hm
    · rw [hiq, hlen]
  · intro hn
    by_cases h2 : m.length / 8 ≤ 2047
    · obtain ⟨c, hc, -⟩ := phr_ok_iff o.params h.rate.1 h.rate.2 (m.length / 8) (by omega)
      rw [e, frame_eq o.params m c hc t ht, k1 (fun hS => hn ⟨h2, hS⟩)]; rfl
    · rw [e]
      unfold oqpskFrame
      rw [(shr_ok _).1, phr_too_long _ _ (by omega)]

/-- Whole octets: the conditions of C53 and C55. -/
theorem C96_octets (p : OqpskParams) (h : Standard p) (L : Nat) : Spreadable p (8 * L) ↔ ¬ Unmodulable p L := by
  obtain ⟨⟨h0, h3⟩, hmode, -⟩ := h
  unfold Spreadable Unmodulable
  rw [show 8 * L / 8 = L by omega]
  rcases hmode with hs | ⟨hs, -⟩
  · rw [if_pos hs]
    cases fourBitGroups p.band p.rm.toNat <;> simp [hs] <;> omega
  · rw [if_neg (by omega)]
    by_cases hr : p.rm ≤ 1
    · rw [if_pos hr]; simp [hs, hr]; omega
    · rw [if_neg hr]; simp [hs, hr]; omega

/-- 57 bits at 780 MHz, rate mode 1: not spreadable as 7 octets (C53_false), spreadable with one more bit. -/
example : ¬ Spreadable ⟨.b780, 1, 0, 10⟩ 56 ∧ Spreadable ⟨.b780, 1, 0, 10⟩ 57 ∧ ¬ Spreadable ⟨.b780, 2, 1, 10⟩ 57 ∧ Spreadable ⟨.b780, 2, 1, 10⟩ 60 := by
  unfold Spreadable; decide

end SunPhy.C96
