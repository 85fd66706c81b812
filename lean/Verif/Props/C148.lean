import Verif.Proofs.Affine
import Verif.Props.C69
import Verif.Props.C100
import Verif.Props.C108
/-
C148 — how far apart two frames are depends only on where the two messages differ.
-/
namespace SunPhy.C148
open SunPhy Spec Complex Affine

/-! ### MR-FSK -/

theorem bits_four {p : FskParams} {a a' b b' : Bits} (h : SameDifferences a a' b b') : SameDifferences (RefF.bits p a) (RefF.bits p a') (RefF.bits p b) (RefF.bits p b') :=
  (L_iff ..).2 (((L_iff ..).1 h).fskBits p)

/-- **C148 (MR-FSK, bits).**  For every MR-FSK modulator (any FEC, scheme, interleaving, whitening, modulation): if two pairs of messages of one
length differ at the same places, the four binary signals that are modulated (`self._binarySignal`) have one length and the two pairs of them differ at the same places. -/
theorem C148_fsk_bits (o : FskObj) (x x' y y' : Arg) (a a' b b' : Bits)
    (ha : checkBinaryArray x = .ok a) (ha' : checkBinaryArray x' = .ok a') (hb : checkBinaryArray y = .ok b) (hb' : checkBinaryArray y' = .ok b')
    (hd : SameDifferences a a' b b') (s s' t t' : Bits)
    (hs : ((fskBinary x).call o).1 = .ok s) (hs' : ((fskBinary x').call o).1 = .ok s')
    (ht : ((fskBinary y).call o).1 = .ok t) (ht' : ((fskBinary y').call o).1 = .ok t') : SameDifferences s s' t t' := by
  have key : ∀ (x : Arg) (a s : Bits), checkBinaryArray x = .ok a → ((fskBinary x).call o).1 = .ok s → s = RefF.bits o.params a := by
    intro x a s h1 h2
    have h3 := C69.C69_bits o x a h1
    simp only at h3
    rw [h2] at h3
    split at h3
    · cases h3
    · exact Except.ok.inj h3
  rw [key x a s ha hs, key x' a' s' ha' hs', key y b t hb ht, key y' b' t' hb' ht']
  exact bits_four hd

theorem samples_getD (n : Nat) (f : Nat → ℂ) (i : Nat) : ((List.range n).map f).getD i 0 = if i < n then f i else 0 := by
  rw [List.getD_eq_getElem?_getD, List.getElem?_map]
  split
  · rw [List.getElem?_range (by assumption)]; rfl
  · rw [List.getElem?_eq_none (by rw [List.length_range]; omega)]; rfl

theorem range_dist (n : Nat) {f f' g g' : Nat → ℂ} (h : ∀ i < n, ‖f i - f' i‖ = ‖g i - g' i‖) :
    SameDistances ((List.range n).map f) ((List.range n).map f') ((List.range n).map g) ((List.range n).map g') := by
  refine ⟨by simp, by simp, by simp, fun i => ?_⟩
  rw [samples_getD, samples_getD, samples_getD, samples_getD]
  split
  · exact h i (by assumption)
  · simp

/-- Signals that are equally far apart sample by sample are equally far apart. -/
theorem C148_energy (s s' t t' : List ℂ) (h : SameDistances s s' t t') : distSq s s' = distSq t t' := by
  obtain ⟨h1, h2, h3, h4⟩ := h
  rw [C100.distSq_sum s s' rfl h1, C100.distSq_sum t t' h2 h3]
  exact Finset.sum_congr rfl fun n _ => by rw [h4 n]

/-- Every pair of messages of one length has the same differences as the zero message and some other message: with the theorems below, the smallest
distance between two frames is the smallest distance to the frame of the zero message. -/
theorem C148_zero (a a' : Bits) (h : a'.length = a.length) : ∃ b', SameDifferences a a' (List.replicate a.length false) b' := by
  refine ⟨List.zipWith xor a a', h, by simp, by simp [h], fun i hi => ?_⟩
  rw [List.getElem?_replicate, if_pos hi, List.getElem?_zipWith, List.getElem?_eq_getElem hi, List.getElem?_eq_getElem (h ▸ hi)]
  cases a[i] <;> cases a'[i]'(h ▸ hi) <;> simp

theorem tone_pair (u : ℂ) (hu : ‖u‖ = 1) (d d' e e' : Bool) (h : D d d' e e') :
    ‖(if d then u else u⁻¹) - (if d' then u else u⁻¹)‖ = ‖(if e then u else u⁻¹) - (if e' then u else u⁻¹)‖ := by
  unfold D at h
  revert h
  cases d <;> cases d' <;> cases e <;> cases e' <;> simp [norm_sub_rev]

theorem samples_four {p : FskParams} (hp : p.modulation = .FSK2) {a a' b b' : Bits} (h : L a a' b b') :
    SameDistances (RefF.samples p a) (RefF.samples p a') (RefF.samples p b) (RefF.samples p b') := by
  obtain ⟨h1, h2, h3, h4⟩ := h
  unfold RefF.samples
  rw [h1, h2, h3]
  apply range_dist
  intro i _
  rw [hp]
  have key : ∀ c : Bits, exp (2 * Real.pi * I * (((RefF.deviation .FSK2 c (i / 20) : ℚ) * (p.modIndex * p.symbolRate / 2) * ((i : ℚ) / (20 * p.symbolRate)) : ℚ) : ℂ)) =
      if c.getD (i / 20) false then exp (2 * Real.pi * I * (((p.modIndex * p.symbolRate / 2) * ((i : ℚ) / (20 * p.symbolRate)) : ℚ) : ℂ))
      else (exp (2 * Real.pi * I * (((p.modIndex * p.symbolRate / 2) * ((i : ℚ) / (20 * p.symbolRate)) : ℚ) : ℂ)))⁻¹ := by
    intro c
    have hdev : RefF.deviation .FSK2 c (i / 20) = if c.getD (i / 20) false then 1 else -1 := rfl
    rw [hdev]
    split
    · simp
    · rw [← Complex.exp_neg]
      congr 1
      push_cast
      ring
  rw [key, key, key, key]
  refine tone_pair _ ?_ _ _ _ _ (h4 _)
  rw [show (2 * Real.pi * I * (((p.modIndex * p.symbolRate / 2) * ((i : ℚ) / (20 * p.symbolRate)) : ℚ) : ℂ)) =
    ((2 * Real.pi * (((p.modIndex * p.symbolRate / 2) * ((i : ℚ) / (20 * p.symbolRate)) : ℚ) : ℝ) : ℝ) : ℂ) * I by push_cast; ring]
  exact Complex.norm_exp_ofReal_mul_I _

/-- **C148 (MR-FSK, samples).**  In exact arithmetic, for every binary (2FSK) MR-FSK modulator with a positive symbol rate: if two pairs of messages
of one length differ at the same places, the first two frames are, at every sample, as far apart as the last two. -/
theorem C148_fsk (o : FskObj) (hr : 1 ≤ o.params.symbolRate) (h2 : o.params.modulation = .FSK2) (x x' y y' : Arg) (a a' b b' : Bits)
    (ha : checkBinaryArray x = .ok a) (ha' : checkBinaryArray x' = .ok a') (hb : checkBinaryArray y = .ok b) (hb' : checkBinaryArray y' = .ok b')
    (hd : SameDifferences a a' b b') (s s' t t' : List ℂ) (fs fs' ft ft' : ℚ)
    (hs : ((fskBitsToIQ id x).call o).1 = .ok (s, fs)) (hs' : ((fskBitsToIQ id x').call o).1 = .ok (s', fs'))
    (ht : ((fskBitsToIQ id y).call o).1 = .ok (t, ft)) (ht' : ((fskBitsToIQ id y').call o).1 = .ok (t', ft')) : SameDistances s s' t t' := by
  have key : ∀ (x : Arg) (a : Bits) (s : List ℂ) (f : ℚ), checkBinaryArray x = .ok a → ((fskBitsToIQ id x).call o).1 = .ok (s, f) →
      s = RefF.samples o.params (RefF.bits o.params a) := by
    intro x a s f h1 h2
    have h3 := C69.C69_reference o hr x a h1
    by_cases hR : C69.Refused o.params a
    · rw [h3.1 hR] at h2; cases h2
    · rw [h3.2 hR] at h2; exact (congrArg Prod.fst (Except.ok.inj h2)).symm
  rw [key x a s fs ha hs, key x' a' s' fs' ha' hs', key y b t ft hb ht, key y' b' t' ft' hb' ht']
  exact samples_four h2 (((L_iff ..).1 hd).fskBits _)

/-! ### MR-O-QPSK -/

theorem chip_pair (d d' e e' f f' g g' : Bool) (h : D d d' e e') (h' : D f f' g g') :
    ‖(chipValue d + I * chipValue f) - (chipValue d' + I * chipValue f')‖ =
      ‖(chipValue e + I * chipValue g) - (chipValue e' + I * chipValue g')‖ := by
  unfold D at h h'
  have sq : ∀ z w : ℂ, z.re ^ 2 = w.re ^ 2 → z.im ^ 2 = w.im ^ 2 → ‖z‖ = ‖w‖ := by
    intro z w e1 e2
    have : ‖z‖ ^ 2 = ‖w‖ ^ 2 := by rw [Complex.sq_norm, Complex.sq_norm, Complex.normSq_apply, Complex.normSq_apply]; nlinarith
    exact (sq_eq_sq₀ (norm_nonneg _) (norm_nonneg _)).1 this
  revert h h'
  cases d <;> cases d' <;> cases e <;> cases e' <;> simp only [reduceCtorEq, Bool.xor_false, Bool.xor_true, Bool.not_true, Bool.not_false, false_implies, true_implies] <;>
    cases f <;> cases f' <;> cases g <;> cases g' <;> simp only [reduceCtorEq, Bool.xor_false, Bool.xor_true, Bool.not_true, Bool.not_false, false_implies, true_implies] <;>
    (apply sq <;> simp [chipValue] <;> norm_num)

theorem oqpsk_four (bd : Band) (sps : Nat) {a a' b b' : Bits} (h : L a a' b b') :
    SameDistances (RefQ.samples bd sps a) (RefQ.samples bd sps a') (RefQ.samples bd sps b) (RefQ.samples bd sps b') := by
  obtain ⟨h1, h2, h3, h4⟩ := h
  unfold RefQ.samples
  rw [h1, h2, h3]
  apply range_dist
  intro i _
  split
  · rw [← sub_mul, ← sub_mul, norm_mul, norm_mul, chip_pair _ _ _ _ _ _ _ _ (h4 _) (h4 _)]
  · simp

theorem groups_known (bd : Band) (rm : Nat) : (psduGroup bd rm).1 = 4 → (psduGroup bd rm).2 = 8 ∨ (psduGroup bd rm).2 = 16 ∨ (psduGroup bd rm).2 = 32 := by
  unfold psduGroup
  split <;> decide

/-- The settings whose payload is spread with the 16 or 32 chip sequences for four bits, which are not linear. -/
def longSequences (bd : Band) (rm : Int) : Prop :=
  (rm = 1 ∧ (bd = .b780 ∨ bd = .b915 ∨ bd = .b917)) ∨ ((rm = 1 ∨ rm = 2) ∧ bd = .b2450)

theorem not_long {bd : Band} {rm : Int} (hr : 0 ≤ rm ∧ rm ≤ 3) (h : ¬ longSequences bd rm) :
    psduGroup bd rm.toNat ≠ (4, 16) ∧ psduGroup bd rm.toNat ≠ (4, 32) := by
  have : rm = 0 ∨ rm = 1 ∨ rm = 2 ∨ rm = 3 := by omega
  unfold longSequences at h
  rcases this with rfl | rfl | rfl | rfl <;> revert h <;> cases bd <;> decide

/-- **C148 (MR-O-QPSK).**  In exact arithmetic, for every MR-O-QPSK modulator, except with DSSS in the rate modes that use the 16 or 32 chip
sequences: if two pairs of messages of one length differ at the same places, the first two frames are, at every sample, as far apart as the last
two. -/
theorem C148_oqpsk (o : OqpskObj) (h : C63.Standard o.params) (hg : o.params.sm = 1 ∨ ¬ longSequences o.params.band o.params.rm) (x x' y y' : Arg) (a a' b b' : Bits)
    (ha : checkBinaryArray x = .ok a) (ha' : checkBinaryArray x' = .ok a') (hb : checkBinaryArray y = .ok b) (hb' : checkBinaryArray y' = .ok b')
    (hd : SameDifferences a a' b b') (s s' t t' : List ℂ) (fs fs' ft ft' : ℚ)
    (hs : ((oqpskBitsToIQ x).call o).1 = .ok (s, fs)) (hs' : ((oqpskBitsToIQ x').call o).1 = .ok (s', fs'))
    (ht : ((oqpskBitsToIQ y).call o).1 = .ok (t, ft)) (ht' : ((oqpskBitsToIQ y').call o).1 = .ok (t', ft')) : SameDistances s s' t t' := by
  have key : ∀ (x : Arg) (a : Bits) (s : List ℂ) (f : ℚ), checkBinaryArray x = .ok a → ((oqpskBitsToIQ x).call o).1 = .ok (s, f) →
      s = RefQ.samples o.params.band o.params.sps (RefQ.chips o.params.band (decide (o.params.sm = 1)) o.params.rm.toNat a) := by
    intro x a s f h1 h2
    have h3 := C108.C108_reference o h x a h1
    by_cases hR : a.length / 8 ≤ 2047 ∧ C96.Spreadable o.params a.length
    · rw [h3.2 hR] at h2; exact (congrArg Prod.fst (Except.ok.inj h2)).symm
    · rw [h3.1 hR] at h2; cases h2
  rw [key x a s fs ha hs, key x' a' s' fs' ha' hs', key y b t ft hb ht, key y' b' t' ft' hb' ht']
  refine oqpsk_four _ _ (((L_iff ..).1 hd).chips _ _ _ ?_ (groups_known _ _))
  rcases hg with hg | hg
  · exact Or.inl (by simp [hg])
  · exact Or.inr (not_long h.rate hg)

/-! ### MR-OFDM -/

theorem point_pair (w : Nat) (hw : w = 1 ∨ w = 2) (f f' g g' : Nat → Bool) (h : ∀ j, D (f j) (f' j) (g j) (g' j)) :
    ‖Ref.point w f - Ref.point w f'‖ = ‖Ref.point w g - Ref.point w g'‖ := by
  have sg : ∀ b, Ref.sign b = chipValue b := fun b => by cases b <;> simp [Ref.sign, chipValue]
  rcases hw with rfl | rfl
  · simp only [Ref.point, sg]
    have h0 := h 0
    have := chip_pair _ _ _ _ false false false false h0 (D.const _ _)
    simpa using this
  · simp only [Ref.point, sg]
    rw [← sub_div, ← sub_div, norm_div, norm_div]
    have := chip_pair _ _ _ _ _ _ _ _ (h 0) (h 1)
    rw [mul_comm I, mul_comm I, mul_comm I, mul_comm I] at this
    rw [this]

theorem low_mcs : ∀ p ∈ allSupported, p.mcs ≤ 4 → bitsOf p.mcs = 1 ∨ bitsOf p.mcs = 2 := by decide +kernel

theorem tone_pair_ofdm {p : OfdmParams} (h : Supported p) (h4 : p.mcs ≤ 4) {a a' b b' : Bits} (hd : L a a' b b') (n : Nat) (t : Int) :
    ‖Ref.toneValue p a n t - Ref.toneValue p a' n t‖ = ‖Ref.toneValue p b n t - Ref.toneValue p b' n t‖ := by
  obtain ⟨h1, h2, h3, -⟩ := id hd
  have hs := (hd.payloadStream p).2.2.2
  have hw := low_mcs p (mem_allSupported h) h4
  unfold Ref.toneValue
  rw [h1, h2, h3]
  simp only
  split
  · simp
  · split
    · simp
    · split
      · simp
      · unfold Ref.dataValue
        simp only
        rw [← sub_mul, ← sub_mul, norm_mul, norm_mul, point_pair _ hw _ _ _ _ fun j => hs _]

/-- **C148 (MR-OFDM).**  In exact arithmetic, for every supported MR-OFDM modulator with MCS 0 to 4 (BPSK or QPSK): if two pairs of messages of one
length differ at the same places, the four frames have one length and, on every tone of every symbol, the first two are as far apart as the last
two. -/
theorem C148_ofdm (o : OfdmObj) (h : Supported o.params) (h4 : o.params.mcs ≤ 4) (x x' y y' : Arg) (a a' b b' : Bits)
    (ha : checkBinaryArray x = .ok a) (ha' : checkBinaryArray x' = .ok a') (hb : checkBinaryArray y = .ok b) (hb' : checkBinaryArray y' = .ok b')
    (hd : SameDifferences a a' b b') (s s' t t' : List ℂ) (fs fs' ft ft' : ℚ)
    (hs : ((ofdmModBitsToIQ x).call o).1 = .ok (s, fs)) (hs' : ((ofdmModBitsToIQ x').call o).1 = .ok (s', fs'))
    (ht : ((ofdmModBitsToIQ y).call o).1 = .ok (t, ft)) (ht' : ((ofdmModBitsToIQ y').call o).1 = .ok (t', ft')) :
    (s'.length = s.length ∧ t.length = s.length ∧ t'.length = s.length) ∧
    ∀ n, ∀ τ ∈ allTones (Ref.nfft o.params.option),
      ‖Rx.toneValue o.params.option s n τ - Rx.toneValue o.params.option s' n τ‖ =
        ‖Rx.toneValue o.params.option t n τ - Rx.toneValue o.params.option t' n τ‖ := by
  have key : ∀ (x : Arg) (a : Bits) (s : List ℂ) (f : ℚ), checkBinaryArray x = .ok a → ((ofdmModBitsToIQ x).call o).1 = .ok (s, f) → s = Ref.frame o.params a := by
    intro x a s f h1 h2
    have k := (C15.C15_bitsToIQ o h x a h1).1.1 ⟨_, h2⟩
    obtain ⟨_, e, -⟩ := C67.C67_reference o h x a h1 k.1 k.2
    rw [e] at h2
    exact (congrArg Prod.fst (Except.ok.inj h2)).symm
  rw [key x a s fs ha hs, key x' a' s' fs' ha' hs', key y b t ft hb ht, key y' b' t' ft' hb' ht']
  have hL := (L_iff ..).1 hd
  obtain ⟨h1, h2, h3, -⟩ := id hL
  refine ⟨by rw [C67.C67_size, C67.C67_size, C67.C67_size, C67.C67_size, h1, h2, h3]; exact ⟨rfl, rfl, rfl⟩, fun n τ hτ => ?_⟩
  by_cases hn : n < Ref.symbolCount o.params a.length
  · rw [C100.tone_frame h a n hn τ hτ, C100.tone_frame h a' n (h1 ▸ hn) τ hτ, C100.tone_frame h b n (h2 ▸ hn) τ hτ, C100.tone_frame h b' n (h3 ▸ hn) τ hτ]
    exact tone_pair_ofdm h h4 hL n τ
  · have out : ∀ c : Bits, c.length = a.length → Rx.toneValue o.params.option (Ref.frame o.params c) n τ = 0 := by
      intro c hc
      have : Rx.useful o.params.option (Ref.frame o.params c) n = [] := by
        unfold Rx.useful
        rw [List.drop_of_length_le, List.take_nil]
        rw [C67.C67_size, hc]
        unfold Rx.symbolStart
        have : Ref.symbolCount o.params a.length * (5 * Ref.nfft o.params.option / 4) ≤ n * (5 * Ref.nfft o.params.option / 4) := Nat.mul_le_mul_right _ (by omega)
        omega
      unfold Rx.toneValue
      rw [this]
      simp [dftOrtho, fftshift]
    rw [out a rfl, out a' h1, out b h2, out b' h3]

/-! Non-vacuity: two different pairs of 16 bit messages, each differing in the bits 0 and 3; every one of them is transmitted, by an MR-FSK modulator with
FEC, interleaving and whitening, by every supported MR-OFDM modulator and by an MR-O-QPSK modulator. -/
example : SameDifferences (List.replicate 16 false) (true :: false :: false :: true :: List.replicate 12 false)
    (List.replicate 16 true) (false :: true :: true :: false :: List.replicate 12 true) := by
  refine ⟨rfl, rfl, rfl, ?_⟩
  decide

example (m : Bits) (hm : m.length = 16) :
    (∃ r, ((fskBitsToIQ id (bitsArg m)).call { params := ⟨50000, 1, 0, .FSK2, true, 0, 0, true, true, 4⟩ }).1 = .ok r) ∧
    (∀ p, Supported p → ∃ r, ((ofdmModBitsToIQ (bitsArg m)).call { params := p }).1 = .ok r) ∧
    (∃ r, ((oqpskBitsToIQ (bitsArg m)).call { params := ⟨.b470, 2, 0, 10⟩ }).1 = .ok r) ∧ ¬ longSequences .b470 2 := by
  have hm0 : m ≠ [] := by rintro rfl; simp at hm
  have hid := C03.C03_identity m hm0
  refine ⟨⟨_, (C69.C69_reference _ (by decide) _ m hid).2 (by unfold C69.Refused; rw [hm]; decide)⟩, fun p hp => ?_, ?_, by unfold longSequences; decide⟩
  · obtain ⟨o', e, -⟩ := bitsToIQ_ok (o := { params := p }) hp hid (by omega) (by omega)
    exact ⟨_, by rw [e]⟩
  · have := (C108.C108_reference (o := { params := ⟨.b470, 2, 0, 10⟩ }) ⟨by decide, Or.inl rfl, by decide⟩ _ m hid).2
    simp only at this
    exact ⟨_, this (by rw [hm]; unfold C96.Spreadable; decide)⟩

end SunPhy.C148
