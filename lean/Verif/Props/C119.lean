import Verif.Proofs.OqpskSync
import Verif.Props.C102
/-
C119 — MR-O-QPSK frames can be found: the chips before the start of frame delimiter never look like it, so a receiver that starts at an unknown time, in the
silence before the frame or during the preamble, finds the delimiter and receives the frame.
-/
namespace SunPhy.C119
open SunPhy Spec Complex C63
noncomputable section

/-- The pulse is not zero at all samples. -/
abbrev Sampled (p : OqpskParams) : Prop := if p.band = .b915 ∨ p.band = .b2450 then 3 ≤ p.sps else 2 ≤ p.sps

/-- Place of the delimiter: number of chips of the preamble. -/
abbrev place (b : Band) : Nat := preambleBits b * shrChipsPerBit b

/-- Chips of the delimiter. -/
abbrev size (b : Band) : Nat := 16 * shrChipsPerBit b

theorem frame (o : OqpskObj) (h : Standard o.params) (a : Arg) (m : Bits) (ha : checkBinaryArray a = .ok m) (L : Nat) (hm : m.length = 8 * L) (iq : List ℂ) (fs : ℚ)
    (hok : ((oqpskBitsToIQ a).call o).1 = .ok (iq, fs)) :
    ∃ c, iq = RefQ.samples o.params.band o.params.sps (RefQ.shr o.params.band ++ c) ∧ (RefQ.shr o.params.band ++ c).length % 2 = 0 := by
  have hne : 1 ≤ L := by
    have hacc := (C03.C03_accepts_iff a).1 ⟨m, ha⟩
    have := (C03.C03_validation a).1 hacc
    rw [ha] at this
    have hmne : m ≠ [] := by
      rw [Except.ok.inj this]
      cases a <;> simp_all [C03.Acceptable, C03.entries]
    have := List.length_pos_of_ne_nil hmne
    omega
  have h2 : L ≤ 2047 := by
    by_contra hL
    rw [(C96.C96_bits o h a m ha).2 (by rintro ⟨h', -⟩; omega)] at hok
    cases hok
  have href := C68.C68_reference o h a m ha L hm hne h2
  simp only at href
  by_cases hu : blocks63 L % 2 = 1 ∧ (o.params.sm = 0 ∧ fourBitGroups o.params.band o.params.rm.toNat = true ∨ o.params.sm = 1 ∧ o.params.rm ≤ 1)
  · rw [if_pos hu, hok] at href; cases href
  · rw [if_neg hu, hok] at href
    have e := congrArg Prod.fst (Except.ok.inj href)
    simp only at e
    have he : (RefQ.chips o.params.band (decide (o.params.sm = 1)) o.params.rm.toNat m).length % 2 = 0 := by
      have hU : ¬ Unmodulable o.params L := hu
      have hr := h.rate
      rw [C68.chips_size h m L hm hne h2 hU]
      exact size_even _ _ _ _ (by omega)
    unfold RefQ.chips at e he
    rw [List.append_assoc] at e he
    exact ⟨_, e, he⟩

theorem hard_chip (b : Band) (sps : Nat) (hE : 0 < RxQ.pulseEnergy b sps) (c : Bits) (he : c.length % 2 = 0) (k : Nat) (hk : k < c.length) :
    RxQ.hardChip b sps (RefQ.samples b sps c) k = c.getD k false := by
  unfold RxQ.hardChip
  rw [C102.soft_ref b sps c he k hk]
  cases c.getD k false
  · rw [decide_eq_false_iff_not]; simp [RxQ.sign]; linarith
  · rw [decide_eq_true_eq]; simp [RxQ.sign]; linarith

theorem starts (b : Band) (sps : Nat) (hE : 0 < RxQ.pulseEnergy b sps) (c : Bits) (he : (RefQ.shr b ++ c).length % 2 = 0) :
    OqSync.Starts b 0 (RxQ.hardChip b sps (RefQ.samples b sps (RefQ.shr b ++ c))) := by
  refine ⟨fun i hi => by omega, fun k hk => ?_⟩
  have hl : (RefQ.shr b).length = (preambleBits b + 16) * shrChipsPerBit b := by simp [RefQ.shr]
  rw [Nat.zero_add, hard_chip b sps hE _ he k (by rw [List.length_append]; omega), List.getD_eq_getElem?_getD, List.getElem?_append_left (by omega), List.getD_eq_getElem?_getD]

theorem soft_drop (b : Band) (sps d : Nat) (r : List ℂ) (k : Nat) : RxQ.soft b sps (r.drop (d * sps)) k = RxQ.soft b sps r (2 * d + k) := by
  unfold RxQ.soft RxQ.part RxQ.sampleOf
  refine Finset.sum_congr rfl fun j _ => ?_
  rw [show (2 * d + k) % 2 = k % 2 by omega, show (2 * d + k) / 2 = d + k / 2 by omega, List.getD_eq_getElem?_getD, List.getElem?_drop, List.getD_eq_getElem?_getD,
    show d * sps + (k / 2 * sps + j) = (d + k / 2) * sps + j by ring]

theorem hard_drop (b : Band) (sps d : Nat) (r : List ℂ) (k : Nat) : RxQ.hardChip b sps (r.drop (d * sps)) k = RxQ.hardChip b sps r (2 * d + k) := by
  unfold RxQ.hardChip; rw [soft_drop]

theorem hard_silent (b : Band) (sps z : Nat) (r : List ℂ) (k : Nat) (hk : k < 2 * z) : RxQ.hardChip b sps (List.replicate (z * sps) 0 ++ r) k = false := by
  have : RxQ.soft b sps (List.replicate (z * sps) 0 ++ r) k = 0 := by
    unfold RxQ.soft
    refine Finset.sum_eq_zero fun j hj => ?_
    have hj := Finset.mem_range.1 hj
    have hlt : k / 2 * sps + j < z * sps := by
      have := Nat.mul_le_mul_right sps (show k / 2 + 1 ≤ z by omega)
      rw [Nat.add_mul] at this
      omega
    have : RxQ.sampleOf sps (List.replicate (z * sps) 0 ++ r) k j = 0 := by
      unfold RxQ.sampleOf
      rw [List.getD_eq_getElem?_getD, List.getElem?_append_left (by simpa using hlt), List.getElem?_replicate, if_pos hlt]
      rfl
    rw [this]
    unfold RxQ.part
    split <;> simp
  unfold RxQ.hardChip
  rw [this]
  simp

theorem starts_silent (b : Band) (sps z : Nat) (r : List ℂ) (h : OqSync.Starts b 0 (RxQ.hardChip b sps r)) :
    OqSync.Starts b (2 * z) (RxQ.hardChip b sps (List.replicate (z * sps) 0 ++ r)) := by
  refine ⟨fun i hi => hard_silent b sps z r i hi, fun k hk => ?_⟩
  have := h.shr k hk
  rw [Nat.zero_add] at this
  rw [← this, ← hard_drop b sps z _ k, List.drop_left' (by simp)]

theorem samples_size (b : Band) (sps : Nat) (h : 1 ≤ sps) (c : Bits) : (RefQ.shr b ++ c).length / 2 ≤ (RefQ.samples b sps (RefQ.shr b ++ c)).length := by
  unfold RefQ.samples
  rw [List.length_map, List.length_range]
  have := Nat.le_mul_of_pos_right ((RefQ.shr b ++ c).length / 2) h
  omega

theorem place_lt (b : Band) (c : Bits) : place b < 2 * ((RefQ.shr b ++ c).length / 2) ∧ place b % 2 = 0 := by
  have hl : (RefQ.shr b).length = (preambleBits b + 16) * shrChipsPerBit b := by simp [RefQ.shr]
  rw [List.length_append, hl]
  have key : place b < (preambleBits b + 16) * shrChipsPerBit b - 1 ∧ place b % 2 = 0 := by cases b <;> decide
  omega

/-- **C119 (distance).**  In the chips of every frame (read off the returned samples), at every position before the delimiter the next `16·N` chips differ from the
delimiter in at least `6·N` places; at its place the delimiter is there exactly.  `N` is the number of chips per bit. -/
theorem C119_distance (o : OqpskObj) (h : Standard o.params) (hp : Sampled o.params) (a : Arg) (m : Bits) (ha : checkBinaryArray a = .ok m) (h8 : m.length % 8 = 0)
    (iq : List ℂ) (fs : ℚ) (hok : ((oqpskBitsToIQ a).call o).1 = .ok (iq, fs)) :
    let y := RxQ.hardChip o.params.band o.params.sps iq
    let b := o.params.band
    (∀ i < place b, 6 * shrChipsPerBit b ≤ hamming (RxQ.windowAt y i (size b)) (RxQ.delimiter b)) ∧ RxQ.windowAt y (place b) (size b) = RxQ.delimiter b := by
  obtain ⟨c, rfl, he⟩ := frame o h a m ha (m.length / 8) (by omega) iq fs hok
  have hE := C102.pulseEnergy_pos o.params.band o.params.sps hp
  have hs := starts o.params.band o.params.sps hE c he
  refine ⟨fun i hi => OqSync.far _ 0 _ hs i (by rw [Nat.zero_add]; exact hi), ?_⟩
  have := OqSync.here _ 0 _ hs
  rwa [Nat.zero_add] at this

/-- What is in the frame of message `m`. -/
def content (p : OqpskParams) (m : Bits) : Bool × Nat × Nat × List (Option Bool) :=
  (decide (p.sm = 1), p.rm.toNat, m.length / 8, C102.contained (decide (p.sm = 1)) (m.length / 8) m)

/-- **C119 (before the frame).**  The receiver starts `z` symbol intervals before the frame, in silence.  It finds and receives the frame, if fewer than `3·N` chips of
the delimiter and at most `3·N` chips of any equally long stretch before it are decided otherwise than on the clean signal, and the noise on header and PSDU is
below the distance of the codes. -/
theorem C119_early (o : OqpskObj) (h : Standard o.params) (hp : Sampled o.params) (a : Arg) (m : Bits) (ha : checkBinaryArray a = .ok m) (h8 : m.length % 8 = 0)
    (iq : List ℂ) (fs : ℚ) (hok : ((oqpskBitsToIQ a).call o).1 = .ok (iq, fs)) (z : Nat) (r : List ℂ)
    (hl : z * o.params.sps + iq.length ≤ r.length)
    (h1 : ∀ i < 2 * z + place o.params.band, hamming (RxQ.windowAt (RxQ.hardChip o.params.band o.params.sps r) i (size o.params.band))
      (RxQ.windowAt (RxQ.hardChip o.params.band o.params.sps (List.replicate (z * o.params.sps) 0 ++ iq)) i (size o.params.band)) ≤ 3 * shrChipsPerBit o.params.band)
    (h2 : hamming (RxQ.windowAt (RxQ.hardChip o.params.band o.params.sps r) (2 * z + place o.params.band) (size o.params.band)) (RxQ.delimiter o.params.band) <
      3 * shrChipsPerBit o.params.band)
    (hc : C102.Close o.params.band o.params.sps (decide (o.params.sm = 1)) o.params.rm.toNat (m.length / 8) (r.drop (z * o.params.sps)) iq) :
    RxQ.receiveAnytime o.params.band o.params.sps r = some (content o.params m) := by
  have hrec := C102.C102_bits o h a m ha (m.length / 8) (by omega) iq fs hok _ hc
  obtain ⟨c, rfl, he⟩ := frame o h a m ha (m.length / 8) (by omega) iq fs hok
  have hE := C102.pulseEnergy_pos o.params.band o.params.sps hp
  have hs := starts_silent o.params.band o.params.sps z _ (starts o.params.band o.params.sps hE c he)
  have hsz := samples_size o.params.band o.params.sps h.sps c
  have hpl := place_lt o.params.band c
  have hP : place o.params.band = preambleBits o.params.band * shrChipsPerBit o.params.band := rfl
  have hz := Nat.le_mul_of_pos_right z h.sps
  have hsync := OqSync.sync_ok o.params.band (2 * z) _ hs 0 (by omega) (RxQ.hardChip o.params.band o.params.sps r) (2 * r.length)
    (by show 2 * z + place o.params.band - 0 < _; omega)
    (fun i hi => by rw [Nat.zero_add]; exact h1 i (by simpa using hi))
    (by rw [OqSync.here _ _ _ hs]; exact h2)
  unfold RxQ.receiveAnytime
  simp only
  rw [hsync]
  simp only
  rw [if_neg (by omega), show (2 * z + preambleBits o.params.band * shrChipsPerBit o.params.band - 0 - preambleBits o.params.band * shrChipsPerBit o.params.band) / 2 = z by omega]
  exact hrec

/-- **C119 (during the preamble).**  The receiver starts `d` symbol intervals after the frame has started, before the end of the preamble. -/
theorem C119_late (o : OqpskObj) (h : Standard o.params) (hp : Sampled o.params) (a : Arg) (m : Bits) (ha : checkBinaryArray a = .ok m) (h8 : m.length % 8 = 0)
    (iq : List ℂ) (fs : ℚ) (hok : ((oqpskBitsToIQ a).call o).1 = .ok (iq, fs)) (d : Nat) (hd : 2 * d ≤ place o.params.band) (r : List ℂ)
    (hl : iq.length ≤ d * o.params.sps + r.length)
    (h1 : ∀ i < place o.params.band - 2 * d, hamming (RxQ.windowAt (RxQ.hardChip o.params.band o.params.sps r) i (size o.params.band))
      (RxQ.windowAt (RxQ.hardChip o.params.band o.params.sps iq) (2 * d + i) (size o.params.band)) ≤ 3 * shrChipsPerBit o.params.band)
    (h2 : hamming (RxQ.windowAt (RxQ.hardChip o.params.band o.params.sps r) (place o.params.band - 2 * d) (size o.params.band)) (RxQ.delimiter o.params.band) <
      3 * shrChipsPerBit o.params.band)
    (hc : C102.Close o.params.band o.params.sps (decide (o.params.sm = 1)) o.params.rm.toNat (m.length / 8) (List.replicate (d * o.params.sps) 0 ++ r) iq) :
    RxQ.receiveAnytime o.params.band o.params.sps r = some (content o.params m) := by
  have hrec := C102.C102_bits o h a m ha (m.length / 8) (by omega) iq fs hok _ hc
  obtain ⟨c, rfl, he⟩ := frame o h a m ha (m.length / 8) (by omega) iq fs hok
  have hE := C102.pulseEnergy_pos o.params.band o.params.sps hp
  have hs := starts o.params.band o.params.sps hE c he
  have hpl := place_lt o.params.band c
  have hP : place o.params.band = preambleBits o.params.band * shrChipsPerBit o.params.band := rfl
  have hlim : place o.params.band - 2 * d < 2 * r.length := by
    have hsz : (RefQ.shr o.params.band ++ c).length / 2 * o.params.sps ≤ (RefQ.samples o.params.band o.params.sps (RefQ.shr o.params.band ++ c)).length := by
      unfold RefQ.samples
      rw [List.length_map, List.length_range]
      have := h.sps
      omega
    have hd2 : d + 1 ≤ (RefQ.shr o.params.band ++ c).length / 2 := by omega
    obtain ⟨q, hq⟩ := Nat.exists_eq_add_of_le hd2
    rw [hq] at hsz hpl
    have e : (d + 1 + q) * o.params.sps = d * o.params.sps + (1 + q) * o.params.sps := by ring
    have := Nat.le_mul_of_pos_right (1 + q) h.sps
    omega
  have hsync := OqSync.sync_ok o.params.band 0 _ hs (2 * d) (by omega) (RxQ.hardChip o.params.band o.params.sps r) (2 * r.length)
    (by show 0 + place o.params.band - 2 * d < _; omega)
    (fun i hi => h1 i (by simpa using hi))
    (by rw [OqSync.here _ _ _ hs, Nat.zero_add]; exact h2)
  unfold RxQ.receiveAnytime
  simp only
  rw [hsync]
  simp only [Nat.zero_add]
  by_cases h0 : d = 0
  · subst h0
    rw [if_neg (by omega), show (preambleBits o.params.band * shrChipsPerBit o.params.band - 2 * 0 - preambleBits o.params.band * shrChipsPerBit o.params.band) / 2 = 0 by omega,
      Nat.zero_mul, List.drop_zero]
    rw [Nat.zero_mul, List.replicate_zero, List.nil_append] at hrec
    exact hrec
  · rw [if_pos (by omega), show (preambleBits o.params.band * shrChipsPerBit o.params.band - (preambleBits o.params.band * shrChipsPerBit o.params.band - 2 * d)) / 2 = d by omega]
    exact hrec

theorem noise_self (sps : Nat) (iq : List ℂ) (k : Nat) : C102.chipNoise sps iq iq k = 0 := by
  unfold C102.chipNoise
  refine Finset.sum_eq_zero fun j _ => ?_
  rw [sub_self]
  unfold RxQ.part
  split <;> simp

/-- Noise, and loss of what was sent before, do not matter on chips that are not read. -/
theorem close_from (b : Band) (sps : Nat) (mdsss : Bool) (rm L : Nat) (r iq : List ℂ) (hE : 0 < RxQ.pulseEnergy b sps)
    (h : ∀ k, RxQ.phrStart b ≤ k → ∀ j < sps, RxQ.sampleOf sps r k j = RxQ.sampleOf sps iq k j) : C102.Close b sps mdsss rm L r iq := by
  have h0 : ∀ k, RxQ.phrStart b ≤ k → C102.chipNoise sps r iq k = 0 := by
    intro k hk
    unfold C102.chipNoise
    refine Finset.sum_eq_zero fun j hj => ?_
    rw [h k hk j (Finset.mem_range.1 hj), sub_self]
    unfold RxQ.part
    split <;> simp
  refine ⟨fun i _ => ?_, fun _ i _ => ?_⟩
  · rw [Finset.sum_eq_zero fun j _ => h0 _ (by omega)]
    have : 0 < phrChipsPerBit b := by cases b <;> decide
    have : (0 : ℝ) < phrChipsPerBit b := by exact_mod_cast this
    positivity
  · rw [Finset.sum_eq_zero fun j _ => h0 _ (by unfold RxQ.psduPlace RxQ.psduStart; omega)]
    have : 0 < (if (psduGroup b rm).1 = 4 then C102.distance4 (psduGroup b rm).2 else (psduGroup b rm).2 : Nat) := by
      rcases C102.group_cases b rm with ⟨N, eg, hN⟩ | ⟨N, eg, hN⟩
      · rw [eg]; rcases hN with rfl | rfl | rfl <;> decide
      · rw [eg]; simpa using hN
    have : (0 : ℝ) < ((if (psduGroup b rm).1 = 4 then C102.distance4 (psduGroup b rm).2 else (psduGroup b rm).2 : Nat) : ℝ) := by exact_mod_cast this
    positivity

theorem hamming_self (a : Bits) : hamming a a = 0 := by
  unfold hamming; induction a with
  | nil => rfl
  | cons x a ih => rw [List.zipWith_cons_cons, List.count_cons, ih]; simp

theorem chips_pos (b : Band) : 0 < shrChipsPerBit b := by cases b <;> decide

/-- **C119 (without noise).**  Octet messages: whenever the receiver starts, in the silence before the frame or before the preamble is over, it receives the frame. -/
theorem C119_clean (o : OqpskObj) (h : Standard o.params) (hp : Sampled o.params) (a : Arg) (msg : List UInt8) (hd : C01.Denotes a msg) (h0 : msg ≠ [])
    (iq : List ℂ) (fs : ℚ) (hok : ((oqpskBytesToIQ a).call o).1 = .ok (iq, fs)) :
    (∀ z, RxQ.receiveAnytime o.params.band o.params.sps (List.replicate (z * o.params.sps) 0 ++ iq) = some (content o.params (C102.bitsOfOctets msg))) ∧
    (∀ d, 2 * d ≤ place o.params.band → RxQ.receiveAnytime o.params.band o.params.sps (iq.drop (d * o.params.sps)) = some (content o.params (C102.bitsOfOctets msg))) := by
  obtain ⟨m, e, hml, hb⟩ := C01.C01_lsb_first a msg hd h0
  rw [(oqpskBytesToIQ_result a o).1] at hok
  unfold oqpskBytesResult at hok
  rw [e] at hok
  have hp0 := List.length_pos_of_ne_nil h0
  have hm0 : m ≠ [] := by intro e; rw [e, List.length_nil] at hml; omega
  have em : m = C102.bitsOfOctets msg := by
    unfold C102.bitsOfOctets
    refine range_map_ext hml _ fun n hn => ?_
    rw [C59.bits_of a msg hd hp0 m e n (by omega)]
    rfl
  have hm8 : m.length % 8 = 0 := by omega
  have hbits : ((oqpskBitsToIQ (bitsArg m)).call o).1 = .ok (iq, fs) := by rw [(oqpskBitsToIQ_result _ o).1]; exact hok
  have hE := C102.pulseEnergy_pos o.params.band o.params.sps hp
  have hN := chips_pos o.params.band
  rw [← em]
  have hd' := C119_distance o h hp (bitsArg m) m (C03.C03_identity m hm0) hm8 iq fs hbits
  simp only at hd'
  constructor
  · intro z
    refine C119_early o h hp (bitsArg m) m (C03.C03_identity m hm0) hm8 iq fs hbits z _ (by simp) (fun i _ => by rw [hamming_self]; omega) ?_ ?_
    · have ew : RxQ.windowAt (RxQ.hardChip o.params.band o.params.sps (List.replicate (z * o.params.sps) 0 ++ iq)) (2 * z + place o.params.band) (size o.params.band) =
          RxQ.windowAt (RxQ.hardChip o.params.band o.params.sps iq) (place o.params.band) (size o.params.band) := by
        unfold RxQ.windowAt
        apply List.map_congr_left
        intro j _
        rw [Nat.add_assoc, ← hard_drop, List.drop_left' (by simp)]
      rw [ew, hd'.2, hamming_self]
      omega
    · rw [List.drop_left' (by simp)]
      exact close_from _ _ _ _ _ _ _ hE fun _ _ _ _ => rfl
  · intro d hdd
    refine C119_late o h hp (bitsArg m) m (C03.C03_identity m hm0) hm8 iq fs hbits d hdd _ (by rw [List.length_drop]; omega) (fun i _ => ?_) ?_ ?_
    · have ew : RxQ.windowAt (RxQ.hardChip o.params.band o.params.sps (iq.drop (d * o.params.sps))) i (size o.params.band) =
          RxQ.windowAt (RxQ.hardChip o.params.band o.params.sps iq) (2 * d + i) (size o.params.band) := by
        unfold RxQ.windowAt
        apply List.map_congr_left
        intro j _
        rw [hard_drop, Nat.add_assoc]
      rw [ew, hamming_self]
      omega
    · have ew : RxQ.windowAt (RxQ.hardChip o.params.band o.params.sps (iq.drop (d * o.params.sps))) (place o.params.band - 2 * d) (size o.params.band) =
          RxQ.windowAt (RxQ.hardChip o.params.band o.params.sps iq) (place o.params.band) (size o.params.band) := by
        unfold RxQ.windowAt
        apply List.map_congr_left
        intro j _
        rw [hard_drop]
        congr 1
        omega
      rw [ew, hd'.2, hamming_self]
      omega
    · refine close_from _ _ _ _ _ _ _ hE fun k hk j hj => ?_
      have hph : 2 * d ≤ RxQ.phrStart o.params.band := by
        refine le_trans hdd ?_
        unfold RxQ.phrStart place
        exact Nat.mul_le_mul_right _ (by omega)
      have hidx : d * o.params.sps ≤ k / 2 * o.params.sps + j := by
        have := Nat.mul_le_mul_right o.params.sps (show d ≤ k / 2 by omega)
        omega
      unfold RxQ.sampleOf
      rw [List.getD_eq_getElem?_getD, List.getElem?_append_right (by simpa using hidx), List.getElem?_drop, List.length_replicate, List.getD_eq_getElem?_getD,
        Nat.add_sub_cancel' hidx]

/-! Non-vacuity: in every band there are frames, and the bound `6·N` is met. -/
example : ∀ (b : Band) (x : UInt8), ∃ r, ((oqpskBytesToIQ (.bytes [x])).call { params := ⟨b, 0, 0, 4⟩ }).1 = .ok r ∧ Sampled ⟨b, 0, 0, 4⟩ := by
  intro b x
  have := C68.C68_bytes { params := ⟨b, 0, 0, 4⟩ } ⟨⟨le_rfl, show (0 : Int) ≤ 3 by decide⟩, Or.inl rfl, show 1 ≤ 4 by decide⟩ (.bytes [x]) [x] rfl (by simp) (by simp)
  simp only at this
  have h4 : fourBitGroups b (0 : Int).toNat = false := by cases b <;> decide
  rw [if_neg (by rw [h4]; simp)] at this
  exact ⟨_, this, by show (if _ then 3 ≤ 4 else 2 ≤ 4); split <;> decide⟩
example : (RxQ.delimiter .b920).length = 512 ∧ place .b920 = 1024 ∧ place .b2450 = 7168 := by
  refine ⟨by simp [RxQ.delimiter, shrChipsPerBit], rfl, rfl⟩
/-- A search on a stream of chips. -/
example : RxQ.sync .b868 (fun i => (List.replicate 40 false ++ RefQ.shr .b868).getD i false) 1100 = some 1064 := by
  refine OqSync.sync_ok .b868 40 (fun i => (List.replicate 40 false ++ RefQ.shr .b868).getD i false) ⟨fun i hi => ?_, fun k hk => ?_⟩ 0 (by decide) _ 1100 (by decide) (fun i _ => ?_) ?_
  · rw [List.getD_eq_getElem?_getD, List.getElem?_append_left (by simpa using hi), List.getElem?_replicate, if_pos hi]; rfl
  · rw [List.getD_eq_getElem?_getD, List.getElem?_append_right (by simp), List.length_replicate, Nat.add_sub_cancel_left, List.getD_eq_getElem?_getD]
  · rw [Nat.zero_add, hamming_self]; decide
  · rw [Nat.sub_zero, hamming_self]; decide

end
end SunPhy.C119
