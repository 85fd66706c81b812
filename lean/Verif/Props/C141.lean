import Verif.Props.C102
import Verif.Spec.OqpskHard
/-
C141 — Spreading lets MR-O-QPSK survive destroyed chips, without the receiver knowing which.
-/
namespace SunPhy.C141
open SunPhy Spec Complex C63 C102
noncomputable section
open scoped Classical

/-- The disturbance on chip `k` has at least the energy of the chip. -/
def Damaged (b : Band) (sps : Nat) (r iq : List ℂ) (k : Nat) : Prop := RxQ.pulseEnergy b sps ≤ chipNoise sps r iq k

/-- Number of damaged chips among those at `pos 0 … pos (N - 1)`. -/
def damage (b : Band) (sps : Nat) (r iq : List ℂ) (N : Nat) (pos : Nat → Nat) : Nat := ((Finset.range N).filter fun j => Damaged b sps r iq (pos j)).card

/-- Distance of the code that spreads the PSDU. -/
def codeDistance (b : Band) (rm : Nat) : Nat := if (psduGroup b rm).1 = 4 then distance4 (psduGroup b rm).2 else (psduGroup b rm).2

/-- In every spread header bit fewer than half of the chips are damaged, in every spread group of PSDU bits fewer than half of the distance of the code. -/
structure Survives (b : Band) (sps : Nat) (mdsss : Bool) (rm L : Nat) (r iq : List ℂ) : Prop where
  long : iq.length ≤ r.length
  header : ∀ i < 60, 2 * damage b sps r iq (phrChipsPerBit b) (fun j => RxQ.phrStart b + (i * phrChipsPerBit b + j)) < phrChipsPerBit b
  psdu : mdsss = false → ∀ i < 126 * blocks63 L / (psduGroup b rm).1,
    2 * damage b sps r iq (psduGroup b rm).2 (fun j => RxQ.psduPlace b (i * (psduGroup b rm).2 + j)) < codeDistance b rm

theorem hard_ok (b : Band) (sps : Nat) (c : Bits) (he : c.length % 2 = 0) (r : List ℂ) (hl : (RefQ.samples b sps c).length ≤ r.length) (hs : 1 ≤ sps) (k : Nat) (hk : k < c.length)
    (hd : ¬ Damaged b sps r (RefQ.samples b sps c) k) : (RxQ.hardChips b sps r).getD k false = c.getD k false := by
  have hlen : k < 2 * (r.length / sps) := by
    have h1 : (RefQ.samples b sps c).length = c.length / 2 * sps + sps - 1 := by unfold RefQ.samples; rw [List.length_map, List.length_range]
    have : c.length / 2 ≤ r.length / sps := by
      rw [Nat.le_div_iff_mul_le (by omega)]
      omega
    omega
  unfold RxQ.hardChips
  rw [List.getD_eq_getElem?_getD, List.getElem?_map, List.getElem?_range hlen]
  simp only [Option.map_some, Option.getD_some]
  have hn := not_le.1 hd
  have cs := corr_noise b sps r (RefQ.samples b sps c) 1 (fun _ => k) (fun _ => 1)
  simp only [Finset.sum_range_one, mul_one, one_pow, one_mul] at cs
  rw [soft_ref b sps c he k hk] at cs
  have h0 : 0 ≤ chipNoise sps r (RefQ.samples b sps c) k := Finset.sum_nonneg fun i _ => sq_nonneg _
  set E := RxQ.pulseEnergy b sps
  cases hv : c.getD k false
  · rw [hv] at cs
    simp only [RxQ.sign, Bool.false_eq_true, if_false] at cs
    rw [decide_eq_false_iff_not]
    intro hp
    nlinarith
  · rw [hv] at cs
    simp only [RxQ.sign, if_true] at cs
    rw [decide_eq_true_eq]
    by_contra hp
    nlinarith

theorem hard_even (b : Band) (sps : Nat) (r : List ℂ) : (RxQ.hardChips b sps r).length % 2 = 0 := by
  unfold RxQ.hardChips
  rw [List.length_map, List.length_range]
  omega

theorem hard_length (b : Band) (sps : Nat) (hs : 1 ≤ sps) (c : Bits) (r : List ℂ) (he : c.length % 2 = 0) (hl : (RefQ.samples b sps c).length ≤ r.length) :
    c.length ≤ (RxQ.hardChips b sps r).length := by
  have h1 : (RefQ.samples b sps c).length = c.length / 2 * sps + sps - 1 := by unfold RefQ.samples; rw [List.length_map, List.length_range]
  have : c.length / 2 ≤ r.length / sps := by
    rw [Nat.le_div_iff_mul_le (by omega)]
    omega
  unfold RxQ.hardChips
  rw [List.length_map, List.length_range]
  omega

/-- Fewer chips that may be wrong (`bad`) than half of the distance: the right code wins. -/
theorem wins_hard (b : Band) (sps : Nat) (hE : 0 < RxQ.pulseEnergy b sps) (c : Bits) (r : List ℂ) (N : Nat) (pos : Nat → Nat) (bad : Nat → Prop)
    (hpos : ∀ j < N, pos j < (RxQ.hardChips b sps r).length) (hbad : ∀ j < N, ¬ bad (pos j) → (RxQ.hardChips b sps r).getD (pos j) false = c.getD (pos j) false) (d : Nat)
    (hw : 2 * ((Finset.range N).filter fun j => bad (pos j)).card < d) :
    Wins b sps (RefQ.samples b sps (RxQ.hardChips b sps r)) N pos (fun j => c.getD (pos j) false) d := by
  intro c' hd
  set E := RxQ.pulseEnergy b sps
  have hsoft : ∀ j ∈ Finset.range N, RxQ.soft b sps (RefQ.samples b sps (RxQ.hardChips b sps r)) (pos j) = RxQ.sign ((RxQ.hardChips b sps r).getD (pos j) false) * E := by
    intro j hj
    exact soft_ref b sps _ (hard_even b sps r) _ (hpos j (Finset.mem_range.1 hj))
  rw [Finset.sum_congr rfl fun j hj => by rw [hsoft j hj], ← sub_pos,
    show ∑ j ∈ Finset.range N, RxQ.soft b sps (RefQ.samples b sps (RxQ.hardChips b sps r)) (pos j) * RxQ.sign (c.getD (pos j) false) =
      ∑ j ∈ Finset.range N, RxQ.sign ((RxQ.hardChips b sps r).getD (pos j) false) * E * RxQ.sign (c.getD (pos j) false) from Finset.sum_congr rfl fun j hj => by rw [hsoft j hj],
    ← Finset.sum_sub_distrib]
  have term : ∀ j ∈ Finset.range N, 2 * E * (if ((c.getD (pos j) false) != c' j) = true then (1 : ℝ) else 0) - 4 * E * (if bad (pos j) then (1 : ℝ) else 0) ≤
      RxQ.sign ((RxQ.hardChips b sps r).getD (pos j) false) * E * RxQ.sign (c.getD (pos j) false) - RxQ.sign ((RxQ.hardChips b sps r).getD (pos j) false) * E * RxQ.sign (c' j) := by
    intro j hj
    by_cases hD : bad (pos j)
    · rw [if_pos hD]
      generalize (RxQ.hardChips b sps r).getD (pos j) false = h
      generalize c.getD (pos j) false = u
      generalize c' j = v
      cases h <;> cases u <;> cases v <;> simp [RxQ.sign] <;> linarith
    · rw [if_neg hD, hbad j (Finset.mem_range.1 hj) hD]
      generalize c.getD (pos j) false = u
      generalize c' j = v
      cases u <;> cases v <;> simp [RxQ.sign] <;> linarith
  refine lt_of_lt_of_le ?_ (Finset.sum_le_sum term)
  rw [Finset.sum_sub_distrib, ← Finset.mul_sum, ← Finset.mul_sum, ← differ_sum N (fun j => c.getD (pos j) false) c']
  have hcount : ∑ j ∈ Finset.range N, (if bad (pos j) then (1 : ℝ) else 0) = ((Finset.range N).filter fun j => bad (pos j)).card := by
    rw [Finset.sum_ite, Finset.sum_const_zero, add_zero, Finset.sum_const, nsmul_eq_mul, mul_one]
  rw [hcount]
  have h1 : (d : ℝ) ≤ ((differ N (fun j => c.getD (pos j) false) c' : Nat) : ℝ) := by exact_mod_cast hd
  have h2 : 2 * (((Finset.range N).filter fun j => bad (pos j)).card : ℝ) < d := by exact_mod_cast hw
  nlinarith

/-- Chips that are decided right, up to fewer than half of the distance in each group, decide the groups. -/
theorem decided_of_right (b : Band) (sps : Nat) (hE : 0 < RxQ.pulseEnergy b sps) (hs : 1 ≤ sps) (s : Bool) (rm : Nat) (m : Bits) (L : Nat) (hL : m.length = 8 * L)
    (he : (RefQ.chips b s rm m).length % 2 = 0) (r : List ℂ) (hl : (RefQ.samples b sps (RefQ.chips b s rm m)).length ≤ r.length) (bad : Nat → Prop)
    (hbad : ∀ k < (RefQ.chips b s rm m).length, ¬ bad k → (RxQ.hardChips b sps r).getD k false = (RefQ.chips b s rm m).getD k false)
    (h1 : ∀ i < 60, 2 * ((Finset.range (phrChipsPerBit b)).filter fun j => bad (RxQ.phrStart b + (i * phrChipsPerBit b + j))).card < phrChipsPerBit b)
    (h2 : s = false → ∀ i < 126 * blocks63 L / (psduGroup b rm).1,
      2 * ((Finset.range (psduGroup b rm).2).filter fun j => bad (RxQ.psduPlace b (i * (psduGroup b rm).2 + j))).card < codeDistance b rm) :
    Decided b sps s rm L (RefQ.samples b sps (RxQ.hardChips b sps r)) (RefQ.chips b s rm m) := by
  have hL8 : m.length / 8 = L := by omega
  have hlen := hard_length b sps hs _ r he hl
  constructor
  · intro i hi
    have hp : ∀ j < phrChipsPerBit b, RxQ.phrStart b + (i * phrChipsPerBit b + j) < (RefQ.chips b s rm m).length := by
      intro j hj
      have := group_place hi hj
      have : RxQ.phrStart b + 60 * phrChipsPerBit b ≤ (RefQ.chips b s rm m).length := by
        unfold RefQ.chips
        rw [List.length_append, List.length_append, shr_length, phr_length]
        omega
      omega
    exact wins_hard b sps hE _ r _ _ bad (fun j hj => lt_of_lt_of_le (hp j hj) hlen) (fun j hj => hbad _ (hp j hj)) _ (h1 i hi)
  · intro h i hi
    subst h
    have hp : ∀ j < (psduGroup b rm).2, RxQ.psduPlace b (i * (psduGroup b rm).2 + j) < (RefQ.chips b false rm m).length := fun j hj =>
      psdu_length b rm m (by omega) _ (group_place (by rw [hL8]; exact hi) hj)
    exact wins_hard b sps hE _ r _ _ bad (fun j hj => lt_of_lt_of_le (hp j hj) hlen) (fun j hj => hbad _ (hp j hj)) _ (h2 rfl i hi)

theorem decided_of_survives (b : Band) (sps : Nat) (hs : 1 ≤ sps) (s : Bool) (rm : Nat) (m : Bits) (L : Nat) (hL : m.length = 8 * L) (he : (RefQ.chips b s rm m).length % 2 = 0)
    (r : List ℂ) (hc : Survives b sps s rm L r (RefQ.samples b sps (RefQ.chips b s rm m))) :
    Decided b sps s rm L (RefQ.samples b sps (RxQ.hardChips b sps r)) (RefQ.chips b s rm m) := by
  have hE : 0 < RxQ.pulseEnergy b sps := by
    have hw := hc.header 0 (by omega)
    have : ∃ j ∈ Finset.range (phrChipsPerBit b), ¬ Damaged b sps r (RefQ.samples b sps (RefQ.chips b s rm m)) (RxQ.phrStart b + (0 * phrChipsPerBit b + j)) := by
      by_contra hcon
      have : ∀ j ∈ Finset.range (phrChipsPerBit b), Damaged b sps r (RefQ.samples b sps (RefQ.chips b s rm m)) (RxQ.phrStart b + (0 * phrChipsPerBit b + j)) := by
        intro j hj
        by_contra h
        exact hcon ⟨j, hj, h⟩
      unfold damage at hw
      rw [Finset.filter_true_of_mem this, Finset.card_range] at hw
      omega
    obtain ⟨j, -, hj⟩ := this
    exact lt_of_le_of_lt (Finset.sum_nonneg fun i _ => sq_nonneg _) (not_le.1 hj)
  exact decided_of_right b sps hE hs s rm m L hL he r hc.long _ (fun k hk hd => hard_ok b sps _ he r hc.long hs k hk hd) hc.header hc.psdu

/-- **C141 (bits).**  The receiver with a hard limiter recovers everything that the frame contains, as long as in every spread header bit fewer than half of the chips, and in every
spread group of PSDU bits fewer than half the distance of the code, are damaged.  The damage is unlimited and the receiver is not told where it is. -/
theorem C141_bits (o : OqpskObj) (h : Standard o.params) (a : Arg) (m : Bits) (ha : checkBinaryArray a = .ok m) (L : Nat) (hm : m.length = 8 * L) (iq : List ℂ) (fs : ℚ)
    (hok : ((oqpskBitsToIQ a).call o).1 = .ok (iq, fs)) (r : List ℂ)
    (hc : Survives o.params.band o.params.sps (decide (o.params.sm = 1)) o.params.rm.toNat L r iq) :
    RxQ.receiveHard o.params.band o.params.sps r = some (decide (o.params.sm = 1), o.params.rm.toNat, L, contained (decide (o.params.sm = 1)) L m) := by
  obtain ⟨h2, e, he, h4⟩ := modulated o h a m ha L hm iq fs hok
  subst e
  have hr := h.rate
  exact receive_decided _ _ _ _ (by omega) m L hm h2 h4 _ (decided_of_survives _ _ h.sps _ _ m L hm he r hc)

/-- **C141 (octets).**  The same for octet messages. -/
theorem C141_octets (o : OqpskObj) (h : Standard o.params) (a : Arg) (msg : List UInt8) (hd : C01.Denotes a msg) (h0 : msg ≠ []) (iq : List ℂ) (fs : ℚ)
    (hok : ((oqpskBytesToIQ a).call o).1 = .ok (iq, fs)) (r : List ℂ)
    (hc : Survives o.params.band o.params.sps (decide (o.params.sm = 1)) o.params.rm.toNat msg.length r iq) :
    RxQ.receiveHard o.params.band o.params.sps r =
      some (decide (o.params.sm = 1), o.params.rm.toNat, msg.length, contained (decide (o.params.sm = 1)) msg.length (bitsOfOctets msg)) := by
  obtain ⟨m, e, hml, hb⟩ := C01.C01_lsb_first a msg hd h0
  rw [(oqpskBytesToIQ_result a o).1] at hok
  unfold oqpskBytesResult at hok
  rw [e] at hok
  have hp := List.length_pos_of_ne_nil h0
  have hm0 : m ≠ [] := by intro e; rw [e, List.length_nil] at hml; omega
  have := C141_bits o h (bitsArg m) m (C03.C03_identity m hm0) msg.length hml iq fs (by rw [(oqpskBitsToIQ_result _ o).1]; exact hok) r hc
  rw [this, contained_octets a msg hd h0 m e hml]

/-! ### Bursts -/

theorem place_inj (b : Band) {k k' : Nat} (h : RxQ.psduPlace b k = RxQ.psduPlace b k') : k = k' := by
  have mono : ∀ {x y : Nat}, x < y → RxQ.psduPlace b x < RxQ.psduPlace b y := by
    intro x y hxy
    unfold RxQ.psduPlace
    have := Nat.mul_le_mul_right (pilots b).1 (Nat.add_le_add_right (Nat.div_le_div_right (c := (pilots b).2) hxy.le) 1)
    omega
  rcases Nat.lt_trichotomy k k' with hl | he | hg
  · have := mono hl; omega
  · exact he
  · have := mono hg; omega

/-- Damage within a set of chips. -/
theorem damage_le (b : Band) (sps : Nat) (r iq : List ℂ) (N : Nat) (pos : Nat → Nat) (hinj : ∀ j < N, ∀ j' < N, pos j = pos j' → j = j') (hit : Finset Nat)
    (hd : ∀ j < N, Damaged b sps r iq (pos j) → pos j ∈ hit) : damage b sps r iq N pos ≤ hit.card := by
  unfold damage
  refine Finset.card_le_card_of_injOn pos (fun j hj => ?_) fun j hj j' hj' e => ?_
  · obtain ⟨h1, h2⟩ := Finset.mem_filter.1 (Finset.mem_coe.1 hj)
    exact hd j (Finset.mem_range.1 h1) h2
  · have h1 := (Finset.mem_filter.1 (Finset.mem_coe.1 hj)).1
    have h2 := (Finset.mem_filter.1 (Finset.mem_coe.1 hj')).1
    exact hinj j (Finset.mem_range.1 h1) j' (Finset.mem_range.1 h2) e

/-- If a sample is as sent, so is its part; a chip whose samples are as sent is not damaged. -/
theorem undamaged (b : Band) (sps : Nat) (hE : 0 < RxQ.pulseEnergy b sps) (r iq : List ℂ) (k : Nat) (h : ∀ j < sps, RxQ.sampleOf sps r k j = RxQ.sampleOf sps iq k j) :
    ¬ Damaged b sps r iq k := by
  unfold Damaged chipNoise
  rw [not_le]
  refine lt_of_eq_of_lt (Finset.sum_eq_zero fun j hj => ?_) hE
  rw [h j (Finset.mem_range.1 hj), sub_self]
  unfold RxQ.part
  split <;> simp

/-- **C141 (bursts).**  Whatever happens during `B` successive intervals of `sps` samples (two chips each) anywhere in the frame, the frame is received, if `B` is less than a quarter of
the number of chips per header bit and, with DSSS, of the distance of the code of the PSDU. -/
theorem C141_burst (o : OqpskObj) (h : Standard o.params) (hp : if o.params.band = .b915 ∨ o.params.band = .b2450 then 3 ≤ o.params.sps else 2 ≤ o.params.sps)
    (a : Arg) (msg : List UInt8) (hd : C01.Denotes a msg) (h0 : msg ≠ []) (iq : List ℂ) (fs : ℚ)
    (hok : ((oqpskBytesToIQ a).call o).1 = .ok (iq, fs)) (n B : Nat) (h1 : 4 * B < phrChipsPerBit o.params.band)
    (h2 : o.params.sm = 0 → 4 * B < codeDistance o.params.band o.params.rm.toNat) (r : List ℂ) (hl : iq.length ≤ r.length)
    (hr : ∀ k, (k < n * o.params.sps ∨ (n + B) * o.params.sps ≤ k) → r.getD k 0 = iq.getD k 0) :
    RxQ.receiveHard o.params.band o.params.sps r =
      some (decide (o.params.sm = 1), o.params.rm.toNat, msg.length, contained (decide (o.params.sm = 1)) msg.length (bitsOfOctets msg)) := by
  have hE := pulseEnergy_pos o.params.band o.params.sps hp
  have hit : ∀ k, Damaged o.params.band o.params.sps r iq k → k ∈ Finset.Ico (2 * n) (2 * n + 2 * B) := by
    intro k hk
    by_contra hcon
    refine undamaged _ _ hE r iq k (fun j hj => ?_) hk
    unfold RxQ.sampleOf
    apply hr
    rw [Finset.mem_Ico] at hcon
    by_cases hlt : k / 2 < n
    · left
      have := group_place hlt hj
      exact this
    · right
      have : n + B ≤ k / 2 := by omega
      have := Nat.mul_le_mul_right o.params.sps this
      omega
  have hcard : (Finset.Ico (2 * n) (2 * n + 2 * B)).card = 2 * B := by rw [Nat.card_Ico]; omega
  refine C141_octets o h a msg hd h0 iq fs hok r ⟨hl, fun i _ => ?_, fun hs i _ => ?_⟩
  · have := damage_le o.params.band o.params.sps r iq (phrChipsPerBit o.params.band) (fun j => RxQ.phrStart o.params.band + (i * phrChipsPerBit o.params.band + j))
      (fun j _ j' _ e => by beta_reduce at e; omega) _ (fun j _ hj => hit _ hj)
    omega
  · have hsm : o.params.sm = 0 := by
      rcases h.mode with h' | ⟨h', -⟩
      · exact h'
      · rw [h'] at hs; cases hs
    have := h2 hsm
    have := damage_le o.params.band o.params.sps r iq (psduGroup o.params.band o.params.rm.toNat).2
      (fun j => RxQ.psduPlace o.params.band (i * (psduGroup o.params.band o.params.rm.toNat).2 + j))
      (fun j _ j' _ e => by have := place_inj _ e; omega) _ (fun j _ hj => hit _ hj)
    omega

/-! Non-vacuity: at 2450 MHz with rate mode 0 bursts of 3 intervals are within the limits. -/
example : 4 * 3 < phrChipsPerBit .b2450 ∧ 4 * 3 < codeDistance .b2450 0 := by decide

end
end SunPhy.C141
