import Verif.Props.C141
/-
C142 — MR-O-QPSK frames survive fading: every sample may have its own unknown gain and a phase error below 45 degrees.
-/
namespace SunPhy.C142
open SunPhy Spec Complex C63 C102 C141
noncomputable section
open scoped Classical

/-- Every sample of chip `k` is received with some gain and a phase error below 45 degrees. -/
def Faded (sps : Nat) (r iq : List ℂ) (k : Nat) : Prop := ∀ j < sps, ∃ z : ℂ, |z.im| < z.re ∧ RxQ.sampleOf sps r k j = z * RxQ.sampleOf sps iq k j

/-- The others. -/
def Destroyed (sps : Nat) (r iq : List ℂ) (k : Nat) : Prop := ¬ Faded sps r iq k

theorem part_fade (k : Nat) (z : ℂ) (u v : Bool) (g : ℝ) :
    RxQ.part k (z * ((chipValue u + I * chipValue v) * (g : ℂ))) * g =
      (if k % 2 = 0 then z.re * RxQ.sign u - z.im * RxQ.sign v else z.re * RxQ.sign v + z.im * RxQ.sign u) * g ^ 2 := by
  unfold RxQ.part
  split <;> cases u <;> cases v <;> simp [chipValue, RxQ.sign] <;> ring

theorem fade_ok (b : Band) (sps : Nat) (hE : 0 < RxQ.pulseEnergy b sps) (c : Bits) (he : c.length % 2 = 0) (r : List ℂ) (hl : (RefQ.samples b sps c).length ≤ r.length) (hs : 1 ≤ sps)
    (k : Nat) (hk : k < c.length) (hf : Faded sps r (RefQ.samples b sps c) k) : (RxQ.hardChips b sps r).getD k false = c.getD k false := by
  have hlen := lt_of_lt_of_le hk (hard_length b sps hs c r he hl)
  have hlen' : k < 2 * (r.length / sps) := by
    unfold RxQ.hardChips at hlen
    rwa [List.length_map, List.length_range] at hlen
  unfold RxQ.hardChips
  rw [List.getD_eq_getElem?_getD, List.getElem?_map, List.getElem?_range hlen']
  simp only [Option.map_some, Option.getD_some]
  have key : 0 < RxQ.sign (c.getD k false) * RxQ.soft b sps r k := by
    unfold RxQ.soft
    rw [Finset.mul_sum]
    have term : ∀ j ∈ Finset.range sps, ∃ x : ℝ, 0 < x ∧ RxQ.sign (c.getD k false) * (RxQ.part k (RxQ.sampleOf sps r k j) * pulseSample b sps j) = x * pulseSample b sps j ^ 2 := by
      intro j hj
      obtain ⟨z, hz, e⟩ := hf j (Finset.mem_range.1 hj)
      rw [e, sample_ref b sps c he k hk j (Finset.mem_range.1 hj), part_fade]
      have ha := abs_lt.1 hz
      by_cases h2 : k % 2 = 0
      · rw [if_pos h2, show 2 * (k / 2) = k by omega]
        refine ⟨RxQ.sign (c.getD k false) * (z.re * RxQ.sign (c.getD k false) - z.im * RxQ.sign (c.getD (k + 1) false)), ?_, by ring⟩
        cases c.getD k false <;> cases c.getD (k + 1) false <;> simp [RxQ.sign] <;> linarith [ha.1, ha.2]
      · rw [if_neg h2, show 2 * (k / 2) + 1 = k by omega]
        refine ⟨RxQ.sign (c.getD k false) * (z.re * RxQ.sign (c.getD k false) + z.im * RxQ.sign (c.getD (2 * (k / 2)) false)), ?_, by ring⟩
        cases c.getD k false <;> cases c.getD (2 * (k / 2)) false <;> simp [RxQ.sign] <;> linarith [ha.1, ha.2]
    have hne : ∃ j ∈ Finset.range sps, pulseSample b sps j ≠ 0 := by
      by_contra hcon
      refine absurd hE (not_lt.2 (le_of_eq (Finset.sum_eq_zero fun j hj => ?_)))
      have : pulseSample b sps j = 0 := by
        by_contra h
        exact hcon ⟨j, hj, h⟩
      rw [this]; norm_num
    refine Finset.sum_pos' (fun j hj => ?_) ?_
    · obtain ⟨x, hx, e⟩ := term j hj
      rw [e]
      positivity
    · obtain ⟨j, hj, hn⟩ := hne
      refine ⟨j, hj, ?_⟩
      obtain ⟨x, hx, e⟩ := term j hj
      rw [e]
      positivity
  cases hv : c.getD k false
  · rw [hv] at key
    simp only [RxQ.sign, Bool.false_eq_true, if_false] at key
    rw [decide_eq_false_iff_not]
    linarith
  · rw [hv] at key
    simp only [RxQ.sign, if_true, one_mul] at key
    rw [decide_eq_true_eq]
    exact key

/-- In every spread header bit fewer than half of the chips, in every spread group of PSDU bits fewer than half of the distance of the code, are destroyed. -/
structure SurvivesFading (b : Band) (sps : Nat) (mdsss : Bool) (rm L : Nat) (r iq : List ℂ) : Prop where
  long : iq.length ≤ r.length
  header : ∀ i < 60, 2 * ((Finset.range (phrChipsPerBit b)).filter fun j => Destroyed sps r iq (RxQ.phrStart b + (i * phrChipsPerBit b + j))).card < phrChipsPerBit b
  psdu : mdsss = false → ∀ i < 126 * blocks63 L / (psduGroup b rm).1,
    2 * ((Finset.range (psduGroup b rm).2).filter fun j => Destroyed sps r iq (RxQ.psduPlace b (i * (psduGroup b rm).2 + j))).card < codeDistance b rm

/-- **C142 (bits).**  The receiver with a hard limiter recovers everything that the frame contains when every sample has its own unknown gain and a phase error below 45 degrees, and
moreover in each spread bit or group fewer chips than half the distance of the code are destroyed. -/
theorem C142_bits (o : OqpskObj) (h : Standard o.params) (hp : if o.params.band = .b915 ∨ o.params.band = .b2450 then 3 ≤ o.params.sps else 2 ≤ o.params.sps)
    (a : Arg) (m : Bits) (ha : checkBinaryArray a = .ok m) (L : Nat) (hm : m.length = 8 * L) (iq : List ℂ) (fs : ℚ) (hok : ((oqpskBitsToIQ a).call o).1 = .ok (iq, fs)) (r : List ℂ)
    (hc : SurvivesFading o.params.band o.params.sps (decide (o.params.sm = 1)) o.params.rm.toNat L r iq) :
    RxQ.receiveHard o.params.band o.params.sps r = some (decide (o.params.sm = 1), o.params.rm.toNat, L, contained (decide (o.params.sm = 1)) L m) := by
  obtain ⟨h2, e, he, h4⟩ := modulated o h a m ha L hm iq fs hok
  subst e
  have hr := h.rate
  have hE := pulseEnergy_pos o.params.band o.params.sps hp
  exact receive_decided _ _ _ _ (by omega) m L hm h2 h4 _
    (decided_of_right _ _ hE h.sps _ _ m L hm he r hc.long _ (fun k hk hb => fade_ok _ _ hE _ he r hc.long h.sps k hk (by unfold Destroyed at hb; exact not_not.1 hb)) hc.header hc.psdu)

/-- **C142 (octets).**  The same for octet messages. -/
theorem C142_octets (o : OqpskObj) (h : Standard o.params) (hp : if o.params.band = .b915 ∨ o.params.band = .b2450 then 3 ≤ o.params.sps else 2 ≤ o.params.sps)
    (a : Arg) (msg : List UInt8) (hd : C01.Denotes a msg) (h0 : msg ≠ []) (iq : List ℂ) (fs : ℚ) (hok : ((oqpskBytesToIQ a).call o).1 = .ok (iq, fs)) (r : List ℂ)
    (hc : SurvivesFading o.params.band o.params.sps (decide (o.params.sm = 1)) o.params.rm.toNat msg.length r iq) :
    RxQ.receiveHard o.params.band o.params.sps r =
      some (decide (o.params.sm = 1), o.params.rm.toNat, msg.length, contained (decide (o.params.sm = 1)) msg.length (bitsOfOctets msg)) := by
  obtain ⟨m, e, hml, hb⟩ := C01.C01_lsb_first a msg hd h0
  rw [(oqpskBytesToIQ_result a o).1] at hok
  unfold oqpskBytesResult at hok
  rw [e] at hok
  have hp0 := List.length_pos_of_ne_nil h0
  have hm0 : m ≠ [] := by intro e; rw [e, List.length_nil] at hml; omega
  have := C142_bits o h hp (bitsArg m) m (C03.C03_identity m hm0) msg.length hml iq fs (by rw [(oqpskBitsToIQ_result _ o).1]; exact hok) r hc
  rw [this, contained_octets a msg hd h0 m e hml]

/-- **C142 (fading).**  Gain and phase error may change from sample to sample. -/
theorem C142_fading (o : OqpskObj) (h : Standard o.params) (hp : if o.params.band = .b915 ∨ o.params.band = .b2450 then 3 ≤ o.params.sps else 2 ≤ o.params.sps)
    (a : Arg) (msg : List UInt8) (hd : C01.Denotes a msg) (h0 : msg ≠ []) (iq : List ℂ) (fs : ℚ) (hok : ((oqpskBytesToIQ a).call o).1 = .ok (iq, fs))
    (z : Nat → ℂ) (hz : ∀ k, |(z k).im| < (z k).re) :
    RxQ.receiveHard o.params.band o.params.sps (iq.mapIdx fun k x => z k * x) =
      some (decide (o.params.sm = 1), o.params.rm.toNat, msg.length, contained (decide (o.params.sm = 1)) msg.length (bitsOfOctets msg)) := by
  have hf : ∀ k, Faded o.params.sps (iq.mapIdx fun k x => z k * x) iq k := by
    intro k j _
    refine ⟨z (k / 2 * o.params.sps + j), hz _, ?_⟩
    unfold RxQ.sampleOf
    rw [List.getD_eq_getElem?_getD, List.getElem?_mapIdx, List.getD_eq_getElem?_getD]
    cases iq[k / 2 * o.params.sps + j]? <;> simp
  have h1 : ∀ (N : Nat) (pos : Nat → Nat), ((Finset.range N).filter fun j => Destroyed o.params.sps (iq.mapIdx fun k x => z k * x) iq (pos j)).card = 0 := by
    intro N pos
    rw [Finset.card_eq_zero, Finset.filter_eq_empty_iff]
    intro j _
    exact not_not.2 (hf _)
  refine C142_octets o h hp a msg hd h0 iq fs hok _ ⟨by rw [List.length_mapIdx], fun i _ => ?_, fun _ i _ => ?_⟩
  · rw [h1]
    cases o.params.band <;> decide
  · rw [h1]
    unfold codeDistance
    rcases group_cases o.params.band o.params.rm.toNat with ⟨N, eg, hN⟩ | ⟨N, eg, hN⟩ <;> rw [eg]
    · rcases hN with rfl | rfl | rfl <;> decide
    · simpa using hN

end
end SunPhy.C142
