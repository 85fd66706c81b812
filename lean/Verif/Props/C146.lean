import Verif.Props.C144
import Verif.Props.C108
/-
C146 — what MR-O-QPSK sends for a message with values that are no bits.
-/
namespace SunPhy.C146
open SunPhy Spec C63
noncomputable section

theorem sent_length (w : Nat) (v : List Nat) : (Nan.sent w v).length = C96.codedBits v.length := by
  unfold Nan.sent Nan.padded C96.codedBits blocks63
  simp only [List.length_map, List.length_range, List.length_append, List.length_replicate]
  omega

/-! ### DSSS -/

theorem spread_ref (p : OqpskParams) (hs : p.sm = 0) (h0 : 0 ≤ p.rm) (h3 : p.rm ≤ 3) (c : Bits) (hlen : c.length % (psduGroup p.band p.rm.toNat).1 = 0) :
    oqpskSpread p c = .ok (Nan.spread p.band p.rm.toNat c) := by
  obtain ⟨e1, hc⟩ := psdu_table p.band p.rm h0 h3
  unfold oqpskSpread
  rw [if_pos hs, e1]
  simp only [bde_ref]
  unfold Nan.spread
  have hl : (if RefQ.psduDifferential p.band p.rm.toNat = true then RefQ.differential false c else c).length = c.length := by
    split
    · exact differential_length _ _
    · rfl
  rw [← hl] at hlen
  generalize (if RefQ.psduDifferential p.band p.rm.toNat = true then RefQ.differential false c else c) = t at *
  rcases hc with ⟨codes, N, e2, e3, hN, hu, hi⟩ | ⟨c, N, e2, e3, hu, hi⟩ | ⟨e2, e3⟩
  · rw [e2, e3]
    simp only
    rw [dsss_ok hu t (Nat.mod_one _), spread1_ref hu hi, Nat.div_one]
    congr 1
    apply List.map_congr_left
    intro k _
    rw [if_neg (by decide), if_neg hN]
  · rw [e2, e3]
    rw [e3] at hlen
    simp only at hlen ⊢
    rw [dsss_ok hu t hlen, spread4_ref hu hi t hlen]
    simp only [if_true]
  · rw [e2, e3]
    simp only [Nat.div_one, Nat.mul_one, if_true]
    congr 1
    conv_lhs => rw [getD_eq_range t]
    apply List.map_congr_left
    intro k _
    rw [if_neg (by decide)]

/-- Without spreading there is no differential encoding either. -/
theorem plain_mode (b : Band) (rm : Int) (h0 : 0 ≤ rm) (h3 : rm ≤ 3) (h : psduGroup b rm.toNat = (1, 1)) :
    psduBdeDsss b rm = .ok false ∧ psduSpreadingDsss b rm = .ok none ∧ RefQ.psduDifferential b rm.toNat = false := by
  have : rm = 0 ∨ rm = 1 ∨ rm = 2 ∨ rm = 3 := by omega
  rcases this with rfl | rfl | rfl | rfl <;> revert h <;> cases b <;> decide +kernel

theorem group_not (b : Band) (rm : Int) (h0 : 0 ≤ rm) (h3 : rm ≤ 3) (h : psduGroup b rm.toNat ≠ (1, 1)) :
    ∃ ub codes, psduBdeDsss b rm = .ok ub ∧ psduSpreadingDsss b rm = .ok (some codes) ∧ Uniform codes (psduGroup b rm.toNat).1 (psduGroup b rm.toNat).2 := by
  obtain ⟨ub, e, hc⟩ := psdu_codes b rm h0 h3
  rcases hc with ⟨codes, e2, hu⟩ | ⟨e2, hg⟩
  · exact ⟨ub, codes, e, e2, hu⟩
  · exact absurd hg h

theorem spreadable_iff {p : OqpskParams} (h : Standard p) (hs : p.sm = 0) (w : Nat) (v : List Nat) :
    C96.Spreadable p v.length ↔ (Nan.sent w v).length % (psduGroup p.band p.rm.toNat).1 = 0 := by
  have hg : (psduGroup p.band p.rm.toNat).1 = 1 ∨ (psduGroup p.band p.rm.toNat).1 = 4 := by
    have := h.rate
    generalize p.band = b
    have : p.rm.toNat = 0 ∨ p.rm.toNat = 1 ∨ p.rm.toNat = 2 ∨ p.rm.toNat = 3 := by omega
    rcases this with e | e | e | e <;> rw [e] <;> cases b <;> decide
  have hf : fourBitGroups p.band p.rm.toNat = true ↔ (psduGroup p.band p.rm.toNat).1 = 4 := by simp [fourBitGroups]
  unfold C96.Spreadable
  rw [if_pos hs, hf, sent_length]
  unfold C96.codedBits
  rcases hg with hg | hg <;> rw [hg] <;> omega

/-- The PSDU: chips, or the exception. -/
theorem spreadV_dsss {p : OqpskParams} (h : Standard p) (hs : p.sm = 0) (x : List Nat) :
    (x.length % (psduGroup p.band p.rm.toNat).1 ≠ 0 → oqpskSpreadV p x = .error .ValueError) ∧
    (x.length % (psduGroup p.band p.rm.toNat).1 = 0 → psduGroup p.band p.rm.toNat ≠ (1, 1) → (∃ y ∈ x, 2 ≤ y) → oqpskSpreadV p x = .error .KeyError) ∧
    (x.length % (psduGroup p.band p.rm.toNat).1 = 0 → (psduGroup p.band p.rm.toNat = (1, 1) ∨ ∀ y ∈ x, y < 2) →
      ∃ s, oqpskSpreadV p x = .ok s ∧ s.map pos = Nan.spread p.band p.rm.toNat (x.map pos)) := by
  obtain ⟨h0, h3⟩ := h.rate
  refine ⟨fun hl => ?_, fun hl hg hy => ?_, fun hl hc => ?_⟩
  · have hg : psduGroup p.band p.rm.toNat ≠ (1, 1) := by
      intro e
      rw [e] at hl
      exact hl (Nat.mod_one _)
    obtain ⟨ub, codes, e1, e2, hu⟩ := group_not _ _ h0 h3 hg
    unfold oqpskSpreadV
    rw [if_pos hs, e1, e2]
    show (dsssV _ codes >>= _) = _
    rw [dsssV_size hu]
    · rfl
    · split
      · rw [bdeV_length]; exact hl
      · exact hl
  · obtain ⟨ub, codes, e1, e2, hu⟩ := group_not _ _ h0 h3 hg
    unfold oqpskSpreadV
    rw [if_pos hs, e1, e2]
    show (dsssV _ codes >>= _) = _
    rw [dsssV_fails hu]
    · rfl
    · split
      · rw [bdeV_length]; exact hl
      · exact hl
    · split
      · exact bdeV_large x 0 (by decide) hy
      · exact hy
  · rcases hc with hg | hb
    · obtain ⟨e1, e2, e3⟩ := plain_mode _ _ h0 h3 hg
      refine ⟨x, ?_, ?_⟩
      · unfold oqpskSpreadV
        rw [if_pos hs, e1, e2]
        rfl
      · unfold Nan.spread
        rw [hg, e3]
        simp only [Nat.div_one, Nat.mul_one, if_true, Bool.false_eq_true, if_false]
        conv_lhs => rw [getD_eq_range (x.map pos)]
        apply List.map_congr_left
        intro k _
        rw [if_neg (by decide)]
    · have e := spreadV_bits p (x.map pos)
      rw [map_bits x hb, spread_ref p hs h0 h3 _ (by rw [List.length_map]; exact hl)] at e
      exact ⟨_, e, map_pos_b2n _⟩

theorem standard_mode {p : OqpskParams} (h : Standard p) (hs : p.sm = 0) : decide (p.sm ≠ 0) = false ∧ decide (p.sm = 1) = false := by
  rw [hs]; decide

/-- **C146 (DSSS, refused).**  With DSSS a message that is too long or of a size that cannot be spread raises `ValueError`; a message of another size, in a rate mode with spreading,
raises `KeyError` if one of the coded values that are sent is no bit. -/
theorem C146_dsss_refused (w : Nat) (u8 : Entry → Int) (p : OqpskParams) (h : Standard p) (hs : p.sm = 0) (a : ArgS) (v : List Nat) (hv : checkOctets u8 a = .ok v) :
    (¬ (v.length / 8 ≤ 2047 ∧ C96.Spreadable p v.length) → oqpskBitsToIQS w u8 p a = .error .ValueError) ∧
    (v.length / 8 ≤ 2047 ∧ C96.Spreadable p v.length → psduGroup p.band p.rm.toNat ≠ (1, 1) → (∃ y ∈ Nan.sent w v, 2 ≤ y) →
      oqpskBitsToIQS w u8 p a = .error .KeyError) := by
  obtain ⟨h0, h3⟩ := h.rate
  obtain ⟨k1, k2, -⟩ := spreadV_dsss h hs (Nan.sent w v)
  have ht : oqpskTempV w p v = .ok (Nan.sent w v) := by
    unfold oqpskTempV
    rw [if_pos (.inr hs), interleaverV_eq]
  rw [bitsToIQS_eq w u8 p a v hv, ht]
  constructor
  · intro hn
    by_cases hl : v.length / 8 ≤ 2047
    · obtain ⟨c, hc, -⟩ := phr_ok_iff p h0 h3 (v.length / 8) (by omega)
      rw [hc]
      show (oqpskSpreadV p (Nan.sent w v) >>= _) = _
      rw [k1 fun e => hn ⟨hl, (spreadable_iff h hs w v).2 e⟩]
      rfl
    · rw [phr_too_long p _ (by omega)]
      rfl
  · rintro ⟨hl, hS⟩ hg hy
    obtain ⟨c, hc, -⟩ := phr_ok_iff p h0 h3 (v.length / 8) (by omega)
    rw [hc]
    show (oqpskSpreadV p (Nan.sent w v) >>= _) = _
    rw [k2 ((spreadable_iff h hs w v).1 hS) hg hy]
    rfl

/-- **C146 (DSSS, sent).**  Every other message is sent: its chips are those of the coded values, where a value above 0 counts as 1. -/
theorem C146_dsss_sent (w : Nat) (u8 : Entry → Int) (p : OqpskParams) (h : Standard p) (hs : p.sm = 0) (a : ArgS) (v : List Nat) (hv : checkOctets u8 a = .ok v)
    (hl : v.length / 8 ≤ 2047) (hS : C96.Spreadable p v.length) (hc : psduGroup p.band p.rm.toNat = (1, 1) ∨ ∀ y ∈ Nan.sent w v, y < 2) :
    oqpskBitsToIQS w u8 p a = .ok (RefQ.samples p.band p.sps (Nan.chips p.band p.rm.toNat v.length ((Nan.sent w v).map fun y => decide (0 < y))),
      (RefQ.rate p.band false p.rm.toNat : ℚ) * p.sps) := by
  obtain ⟨h0, h3⟩ := h.rate
  have hlen := (spreadable_iff h hs w v).1 hS
  obtain ⟨s, e, es⟩ := (spreadV_dsss h hs (Nan.sent w v)).2.2 hlen hc
  have ht : oqpskTempV w p v = .ok (Nan.sent w v) := by
    unfold oqpskTempV
    rw [if_pos (.inr hs), interleaverV_eq]
  obtain ⟨d1, d2⟩ := standard_mode h hs
  have hphr := phr_ref p h0 h3 (v.length / 8) (by omega)
  rw [bitsToIQS_eq w u8 p a v hv, ht, hphr]
  show (oqpskSpreadV p (Nan.sent w v) >>= _) = _
  rw [e]
  show oqpskModulator p _ p.sps = _
  rw [es, shr_ref, pilots_ref, d1]
  -- the size
  have hsl : (Nan.spread p.band p.rm.toNat ((Nan.sent w v).map pos)).length = C96.psduChipsOf p v.length := by
    obtain ⟨s', e', hl'⟩ := (spread_dsss p hs h0 h3).2.1 ((Nan.sent w v).map pos) (by rw [List.length_map]; exact hlen)
    rw [spread_ref p hs h0 h3 _ (by rw [List.length_map]; exact hlen)] at e'
    rw [Except.ok.inj e', hl', List.length_map, sent_length]
    unfold C96.psduChipsOf
    rw [if_neg (by omega)]
  obtain ⟨c, hc2, hcl⟩ := phr_ok_iff p h0 h3 (v.length / 8) (by omega)
  rw [hphr, d1] at hc2
  have hchips : (Nan.chips p.band p.rm.toNat v.length ((Nan.sent w v).map pos)).length = C96.frameChipsOf p v.length := by
    unfold Nan.chips C96.frameChipsOf
    rw [List.length_append, List.length_append, ← pilots_ref, C57.C57_size, hsl, ← shr_ref, (shr_ok _).2, Except.ok.inj hc2, hcl]
    generalize p.band = b
    have e1 : preambleLength b = preambleBits b := by cases b <;> rfl
    have e2 : C57.spacing b = (pilots b).2 := by cases b <;> rfl
    have e3 : C57.pilotLen b = (pilots b).1 := by cases b <;> rfl
    rw [e1, e2, e3]
    omega
  have := C68.samples_ref h (Nan.chips p.band p.rm.toNat v.length ((Nan.sent w v).map pos)) (by
    intro he
    have hpos := C96.chips_pos p v.length
    rw [he, List.length_nil] at hchips
    omega) (by rw [hchips]; exact C96.chips_even _ h _)
  rw [d2] at this
  exact this

/-! ### Which values are sent -/

theorem coded_large (w : Nat) (v : List Nat) (q : Nat) (hq : q < 2 * v.length) : 2 ≤ (Nan.coded w v).getD q 0 ↔ 2 ≤ v.getD (q / 2) 0 := by
  unfold Nan.coded
  rw [List.getD_eq_getElem?_getD, List.getElem?_map, List.getElem?_range hq]
  simp only [Option.map_some, Option.getD_some]
  have hb : ∀ b : Bool, b.toNat < 2 := by decide
  constructor
  · intro h
    by_contra hc
    have := xor_small (v := v.getD (q / 2) 0) (by omega) (hb (tapSum (if q % 2 = 0 then [2, 3, 5, 6] else [1, 2, 3, 6]) (Nan.memory w v) (q / 2)))
    omega
  · intro h
    exact xor_large h (hb _)

/-- Position of the coded value sent as number `k`. -/
def source (n k : Nat) : Nat := ((18 * ((125 - (k : Int)) % 7) + (125 - (k : Int)) / 7) % (n : Int)).toNat

theorem source_range (NB : Nat) (h : 1 ≤ NB) (q : Nat) (hq : q < 126 * NB) : (∃ k < 126 * NB, source (126 * NB) k = q) ↔ q < 126 ∨ 126 * NB - 18 * (NB - 1) ≤ q := by
  unfold source
  constructor
  · rintro ⟨k, hk, rfl⟩
    by_cases hneg : 18 * ((125 - (k : Int)) % 7) + (125 - (k : Int)) / 7 < 0
    · right
      rw [← Int.add_emod_right, Int.emod_eq_of_lt (by omega) (by omega)]
      omega
    · left
      rw [Int.emod_eq_of_lt (by omega) (by omega)]
      omega
  · rintro (h1 | h1)
    · refine ⟨125 - 7 * (q % 18) - q / 18, by omega, ?_⟩
      have e : (125 - ((125 - 7 * (q % 18) - q / 18 : Nat) : Int)) = 7 * ((q % 18 : Nat) : Int) + ((q / 18 : Nat) : Int) := by omega
      rw [e, Int.emod_eq_of_lt (by omega) (by omega)]
      omega
    · by_cases h2 : q < 126
      · refine ⟨125 - 7 * (q % 18) - q / 18, by omega, ?_⟩
        have e : (125 - ((125 - 7 * (q % 18) - q / 18 : Nat) : Int)) = 7 * ((q % 18 : Nat) : Int) + ((q / 18 : Nat) : Int) := by omega
        rw [e, Int.emod_eq_of_lt (by omega) (by omega)]
        omega
      · refine ⟨125 + 7 * (126 * NB - q), by omega, ?_⟩
        have e : (125 - ((125 + 7 * (126 * NB - q) : Nat) : Int)) = 7 * -((126 * NB - q : Nat) : Int) := by omega
        rw [e, ← Int.add_emod_right, Int.emod_eq_of_lt (by omega) (by omega)]
        omega

/-- Which values of a message of whole octets reach the signal: the first 63 and, of more than one block, the last nine per further block (padding included). -/
theorem sent_large (w : Nat) (v : List Nat) (L : Nat) (h8 : v.length = 8 * L) :
    (∃ y ∈ Nan.sent w v, 2 ≤ y) ↔ ∃ i x, v[i]? = some x ∧ 2 ≤ x ∧ (i < 63 ∨ 63 * blocks63 L - 9 * (blocks63 L - 1) ≤ i) := by
  have hL : v.length / 8 = L := by omega
  have hp : (Nan.padded v).length = 63 * blocks63 L := by
    unfold Nan.padded
    rw [List.length_append, List.length_replicate, hL, h8]
    unfold blocks63
    omega
  have hpos := C96.blocks_pos L
  have hget : ∀ i, (Nan.padded v).getD i 0 = v.getD i 0 := by
    intro i
    unfold Nan.padded
    rw [List.getD_eq_getElem?_getD, List.getD_eq_getElem?_getD]
    by_cases hi : i < v.length
    · rw [List.getElem?_append_left hi]
    · rw [List.getElem?_append_right (by omega), List.getElem?_replicate, List.getElem?_eq_none (by omega)]
      split <;> rfl
  have hmem : (∃ y ∈ Nan.sent w v, 2 ≤ y) ↔ ∃ k < 126 * blocks63 L, 2 ≤ (Nan.coded w (Nan.padded v)).getD (source (126 * blocks63 L) k) 0 := by
    unfold Nan.sent
    simp only [List.mem_map, List.mem_range, hp, show 2 * (63 * blocks63 L) = 126 * blocks63 L by ring]
    constructor
    · rintro ⟨y, ⟨k, hk, rfl⟩, h⟩; exact ⟨k, hk, h⟩
    · rintro ⟨k, hk, h⟩; exact ⟨_, ⟨k, hk, rfl⟩, h⟩
  have hsrc : ∀ k < 126 * blocks63 L, source (126 * blocks63 L) k < 126 * blocks63 L := by
    intro k hk
    have h1 := Int.emod_lt_of_pos (18 * ((125 - (k : Int)) % 7) + (125 - (k : Int)) / 7) (b := ((126 * blocks63 L : Nat) : Int)) (by omega)
    unfold source
    omega
  rw [hmem]
  constructor
  · rintro ⟨k, hk, h⟩
    have hs := hsrc k hk
    rw [coded_large w _ _ (by rw [hp]; omega), hget] at h
    have hr := (source_range _ hpos _ hs).1 ⟨k, hk, rfl⟩
    generalize source (126 * blocks63 L) k = q at *
    rw [List.getD_eq_getElem?_getD] at h
    cases e : v[q / 2]? with
    | none => rw [e] at h; simp at h
    | some x =>
      rw [e] at h
      exact ⟨q / 2, x, e, h, by omega⟩
  · rintro ⟨i, x, e, h2, hr⟩
    have hi := (List.getElem?_eq_some_iff.1 e).1
    have hle : v.length ≤ (Nan.padded v).length := by unfold Nan.padded; simp
    obtain ⟨k, hk, hkq⟩ := (source_range (blocks63 L) hpos (2 * i) (by omega)).2 (by omega)
    refine ⟨k, hk, ?_⟩
    rw [hkq, coded_large w _ _ (by omega), hget, show 2 * i / 2 = i by omega, List.getD_eq_getElem?_getD, e]
    exact h2

/-- **C146 (DSSS, places).**  A message of whole octets, of a size that can be sent, in a rate mode with spreading: it is refused with `KeyError` exactly if a value that is no bit stands
in one of the places that reach the signal, that is among the first 63 places or the last nine per block after the first. -/
theorem C146_places (w : Nat) (u8 : Entry → Int) (p : OqpskParams) (h : Standard p) (hs : p.sm = 0) (a : ArgS) (v : List Nat) (hv : checkOctets u8 a = .ok v)
    (L : Nat) (h8 : v.length = 8 * L) (hl : L ≤ 2047) (hS : C96.Spreadable p (8 * L)) (hg : psduGroup p.band p.rm.toNat ≠ (1, 1)) :
    oqpskBitsToIQS w u8 p a = .error .KeyError ↔ ∃ i x, v[i]? = some x ∧ 2 ≤ x ∧ (i < 63 ∨ 63 * blocks63 L - 9 * (blocks63 L - 1) ≤ i) := by
  rw [← sent_large w v L h8]
  rw [← h8] at hS
  have hl' : v.length / 8 ≤ 2047 := by omega
  constructor
  · intro he
    by_contra hc
    have := C146_dsss_sent w u8 p h hs a v hv hl' hS (.inr fun y hy => by
      by_contra h2
      exact hc ⟨y, hy, by omega⟩)
    rw [this] at he
    cases he
  · exact (C146_dsss_refused w u8 p h hs a v hv).2 ⟨hl', hS⟩ hg

/-! ### MDSSS -/

theorem spread_length_only {p : OqpskParams} (h : Standard p) (hs : p.sm = 1) (t t' : Bits) (hl : t.length = t'.length) (ht : t ≠ []) : oqpskSpread p t = oqpskSpread p t' := by
  have hb : mdsssSupported p.band = true := by
    rcases h.mode with h' | ⟨-, h'⟩
    · omega
    · exact h'
  have hpos : 0 < t.length := List.length_pos_iff.2 ht
  have hp : 0 < tpcBits t.length := by unfold tpcBits; omega
  by_cases h9 : tpcBits t.length % 9 = 0
  · obtain ⟨s, e, hc, -⟩ := (spread_mdsss p hs h.rate.1 h.rate.2 hb t).1 h9 hp
    obtain ⟨s', e', hc', -⟩ := (spread_mdsss p hs h.rate.1 h.rate.2 hb t').1 (hl ▸ h9) (hl ▸ hp)
    rw [e, e', ← Except.ok.inj (hc.symm.trans hc')]
  · obtain ⟨e1, -, -⟩ := mdsss_factor p.band p.rm h.rate.1 h.rate.2 hb
    unfold oqpskSpread
    rw [if_neg (by omega), if_neg (by omega), e1]
    simp only
    rw [C96.mdsss_error_nine t _ h9, C96.mdsss_error_nine t' _ (hl ▸ h9)]

theorem spreadV_mdsss (p : OqpskParams) (hs : p.sm = 1) (x : List Nat) : oqpskSpreadV p x = (oqpskSpread p (x.map pos)).map fun s => s.map b2n := by
  unfold oqpskSpreadV oqpskSpread
  rw [if_neg (by omega), if_neg (by omega)]
  cases mdsssFactor p.band p.rm with
  | error e => rfl
  | ok f =>
    show (mdsssV x f >>= _) = _
    rw [mdsssV_eq]
    simp only
    cases mdsss (x.map pos) f <;> rfl

/-- **C146 (MDSSS).**  With MDSSS a message with any values is answered as every bit message of the same length is (with the same samples, or the same exception). -/
theorem C146_mdsss (w : Nat) (u8 : Entry → Int) (o : OqpskObj) (h : Standard o.params) (hs : o.params.sm = 1) (a : ArgS) (v : List Nat) (hv : checkOctets u8 a = .ok v)
    (m : Bits) (hm : m.length = v.length) : oqpskBitsToIQS w u8 o.params a = ((oqpskBitsToIQ (bitsArg m)).call o).1 := by
  have hne : m ≠ [] := by
    rintro rfl
    exact C144.octets_ne hv (List.length_eq_zero_iff.1 hm.symm)
  have hpos : 0 < m.length := List.length_pos_iff.2 hne
  rw [(oqpskBitsToIQ_result _ o).1, bitsToIQS_eq w u8 _ a _ hv]
  unfold oqpskBitsResult oqpskFrame
  rw [C03.C03_identity m hne, (shr_ok _).1]
  simp only
  rw [hm]
  cases oqpskPhrChips o.params (v.length / 8) with
  | error e => rfl
  | ok c =>
    obtain ⟨t, t', e, e', hl, hnn⟩ : ∃ t t', oqpskTempV w o.params v = .ok t ∧ oqpskPsduBits o.params m = .ok t' ∧ t.length = t'.length ∧ t ≠ [] := by
      unfold oqpskTempV oqpskPsduBits
      split
      · refine ⟨_, _, interleaverV_eq w v, psduBits_ref m, ?_, ?_⟩
        · rw [sent_length, ← hm]
          have := C96.fec_length m
          rw [oqpskFec_ref, oqpskPad_ref, Ref.conv] at this
          rw [List.length_map, List.length_range] at this
          unfold RefQ.psduBits
          simp only [List.length_map, List.length_range]
          exact this.symm
        · intro hz
          have := sent_length w v
          rw [hz] at this
          have hb := C96.blocks_pos (v.length / 8)
          simp only [List.length_nil, C96.codedBits] at this
          omega
      · exact ⟨_, _, rfl, rfl, hm.symm, C144.octets_ne hv⟩
    rw [e, e']
    simp only
    show (oqpskSpreadV o.params t >>= _) = _
    rw [spreadV_mdsss _ hs, spread_length_only h hs (t.map pos) t' (by rw [List.length_map]; exact hl) (by simpa using hnn)]
    cases oqpskSpread o.params t' with
    | error e => rfl
    | ok s =>
      show oqpskModulator _ (_ ++ _ ++ o.params.insertPilots ((s.map b2n).map pos)) _ = _
      rw [map_pos_b2n]

/-! ### Not vacuous -/

-- the octet 7 has no chips at 780 MHz, rate mode 0
example : oqpskBitsToIQS 8 (fun _ => 0) ⟨.b780, 0, 0, 10⟩ (.list ⟨1, [.nan, .fin 7, .fin 1, .fin 0, .fin 10, .fin 11, .fin 0, .fin 1]⟩) = .error .KeyError := by
  refine (C146_places 8 _ _ ⟨by decide, .inl rfl, by decide⟩ rfl _ _ C144.example_octets 1 rfl (by decide) (by unfold C96.Spreadable; decide) (by decide)).2 ?_
  exact ⟨1, 7, rfl, by decide, by decide⟩
-- and is sent in rate mode 3
example : ∃ iq fs, oqpskBitsToIQS 8 (fun _ => 0) ⟨.b780, 3, 0, 10⟩ (.list ⟨1, [.nan, .fin 7, .fin 1, .fin 0, .fin 10, .fin 11, .fin 0, .fin 1]⟩) = .ok (iq, fs) :=
  ⟨_, _, C146_dsss_sent 8 _ _ ⟨by decide, .inl rfl, by decide⟩ rfl _ _ C144.example_octets (by decide) (by unfold C96.Spreadable; decide) (.inl rfl)⟩
-- the width of the register matters: bit 3 of an 8 is remembered by a wide register only
example : (Nan.sent 8 [8, 0, 0, 0, 0, 0, 0, 0]).map (fun y => decide (0 < y)) ≠ (Nan.sent 64 [8, 0, 0, 0, 0, 0, 0, 0]).map fun y => decide (0 < y) := by decide +kernel
-- MDSSS
example (o : OqpskObj) (ho : o.params = ⟨.b780, 2, 1, 10⟩) : oqpskBitsToIQS 8 (fun _ => 0) o.params (.list ⟨1, [.nan, .fin 7, .fin 1, .fin 0, .fin 10, .fin 11, .fin 0, .fin 1]⟩) =
    ((oqpskBitsToIQ (bitsArg (List.replicate 8 false))).call o).1 :=
  C146_mdsss 8 _ o (by rw [ho]; exact ⟨by decide, .inr ⟨rfl, rfl⟩, by decide⟩) (by rw [ho]) _ _ C144.example_octets _ rfl

end
end SunPhy.C146
