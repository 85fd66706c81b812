import Verif.Spec.OqpskCarrier
import Verif.Proofs.OfdmCarrier
import Verif.Props.C122
/-
C126 — MR-O-QPSK frames survive a difference between the oscillators of transmitter and receiver: the repetition in the preamble tells it.
-/
namespace SunPhy.C126
open SunPhy Spec Complex C63
noncomputable section

/-- Energy of the noise in symbol interval `i` of a receiver that started `d` intervals after the frame, when the frame should arrive as `c` times itself, turned by `ω` per sample. -/
def noise (sps : Nat) (ω : ℝ) (c : ℂ) (d : Nat) (r iq : List ℂ) (i : Nat) : ℝ :=
  ∑ j ∈ Finset.range sps, ‖r.getD (i * sps + j) 0 - exp (I * (ω * (i * sps + j : Nat) : ℝ)) * (c * iq.getD (d * sps + (i * sps + j)) 0)‖ ^ 2

theorem sum_intervals (f : Nat → ℝ) (M sps : Nat) : ∑ k ∈ Finset.range (M * sps), f k = ∑ i ∈ Finset.range M, ∑ j ∈ Finset.range sps, f (i * sps + j) := by
  induction M with
  | zero => simp
  | succ M ih => rw [Nat.add_mul, Nat.one_mul, Finset.sum_range_add, ih, Finset.sum_range_succ]

theorem sizes (b : Band) : 0 < RxQ.preambleSymbols b / 4 ∧ 4 * (RxQ.preambleSymbols b / 4) = RxQ.preambleSymbols b ∧
    2 * (RxQ.preambleSymbols b / 4) = preambleBits b / 4 * shrChipsPerBit b ∧ preambleBits b / 4 % 2 = 0 ∧ 0 < shrChipsPerBit b ∧
    2 * RxQ.preambleSymbols b = preambleBits b * shrChipsPerBit b := by
  cases b <;> decide

theorem shr_zero : ∀ b : Band, ∀ i < preambleBits b, (RefQ.shrBits b).getD i false = false := by
  intro b
  cases b <;> decide +kernel

theorem shr_length (b : Band) : (RefQ.shr b).length = (preambleBits b + 16) * shrChipsPerBit b := by simp [RefQ.shr]

theorem shr_period (b : Band) (x : Bits) (k : Nat) (hk : k + 2 * (RxQ.preambleSymbols b / 4) < 2 * RxQ.preambleSymbols b) :
    (RefQ.shr b ++ x).getD (k + 2 * (RxQ.preambleSymbols b / 4)) false = (RefQ.shr b ++ x).getD k false := by
  obtain ⟨-, -, s3, s4, s5, s6⟩ := sizes b
  have hl := shr_length b
  rw [Nat.add_mul] at hl
  have at' : ∀ n < 2 * RxQ.preambleSymbols b, (RefQ.shr b ++ x).getD n false = RefQ.chip1 (shrChipsPerBit b) (RefQ.shrAlternates b) (n / shrChipsPerBit b) false (n % shrChipsPerBit b) := by
    intro n hn
    rw [List.getD_eq_getElem?_getD, List.getElem?_append_left (by omega)]
    unfold RefQ.shr
    simp only
    rw [List.getElem?_map, List.getElem?_range (by rw [Nat.add_mul]; omega)]
    simp only [Option.map_some, Option.getD_some]
    rw [shr_zero b _ (by rw [Nat.div_lt_iff_lt_mul s5]; omega)]
  rw [at' _ hk, at' _ (by omega), s3, Nat.add_mul_div_right _ _ s5, Nat.add_mul_mod_self_right]
  unfold RefQ.chip1
  rw [show (k / shrChipsPerBit b + preambleBits b / 4) % 2 = k / shrChipsPerBit b % 2 by omega]

/-- The preamble repeats after a quarter. -/
theorem sample_period (b : Band) (sps : Nat) (x : Bits) (i j : Nat) (hj : j < sps) (hi : i + RxQ.preambleSymbols b / 4 < RxQ.preambleSymbols b) :
    (RefQ.samples b sps (RefQ.shr b ++ x)).getD ((i + RxQ.preambleSymbols b / 4) * sps + j) 0 = (RefQ.samples b sps (RefQ.shr b ++ x)).getD (i * sps + j) 0 := by
  obtain ⟨-, -, s3, s4, s5, s6⟩ := sizes b
  have hl := shr_length b
  rw [Nat.add_mul] at hl
  have hlen : RxQ.preambleSymbols b ≤ (RefQ.shr b ++ x).length / 2 := by rw [List.length_append]; omega
  rw [C122.sample_ref b sps _ _ j (by omega) hj, C122.sample_ref b sps _ _ j (by omega) hj]
  unfold OqBlind.sym
  beta_reduce
  rw [show 2 * (i + RxQ.preambleSymbols b / 4) = 2 * i + 2 * (RxQ.preambleSymbols b / 4) by ring, shr_period b x (2 * i) (by omega),
    show 2 * i + 2 * (RxQ.preambleSymbols b / 4) + 1 = 2 * i + 1 + 2 * (RxQ.preambleSymbols b / 4) by ring, shr_period b x (2 * i + 1) (by omega)]

/-- The oscillators' difference, measured. -/
theorem carrier_ok (b : Band) (sps : Nat) (hs : 1 ≤ sps) (x : Bits) (c : ℂ) (hc : c ≠ 0) (hE : 0 < RxQ.pulseEnergy b sps) (ω ρ : ℝ) (hρ : 0 ≤ ρ) (hρ1 : ρ ≤ 1 / 80)
    (hω : |ω| * RxQ.quarter b sps + 3 * ρ < Real.pi) (d : Nat) (hd : 2 * d ≤ RxQ.preambleSymbols b) (r : List ℂ)
    (hn : ∀ i, noise sps ω c d r (RefQ.samples b sps (RefQ.shr b ++ x)) i ≤ ρ ^ 2 * ‖c‖ ^ 2 * RxQ.pulseEnergy b sps) :
    |RxQ.carrier b sps r - ω| * RxQ.quarter b sps ≤ 20 / 7 * ρ := by
  obtain ⟨s1, s2, s3, s4, s5, s6⟩ := sizes b
  set M := RxQ.preambleSymbols b / 4 with hM
  set iq := RefQ.samples b sps (RefQ.shr b ++ x) with hiq
  have hT : RxQ.quarter b sps = M * sps := rfl
  have hTp : (0 : ℝ) < (RxQ.quarter b sps : ℝ) := by rw [hT]; exact_mod_cast Nat.mul_pos s1 hs
  have hcp : 0 < ‖c‖ := norm_pos_iff.2 hc
  set e := Real.sqrt (RxQ.pulseEnergy b sps) with he
  have hep : 0 < e := Real.sqrt_pos.2 hE
  have he2 : e ^ 2 = RxQ.pulseEnergy b sps := Real.sq_sqrt hE.le
  set q := Real.sqrt (M : ℝ) with hq
  have hMp : (0 : ℝ) < (M : ℝ) := by exact_mod_cast s1
  have hqp : 0 < q := Real.sqrt_pos.2 hMp
  have hq2 : q ^ 2 = M := Real.sq_sqrt hMp.le
  have hfr : 4 * (ρ * ‖c‖ * e * q / (7 / 5 * ‖c‖ * e * q)) = 20 / 7 * ρ := by field_simp; ring
  have hlen : RxQ.preambleSymbols b ≤ (RefQ.shr b ++ x).length / 2 := by
    have hl := shr_length b
    rw [Nat.add_mul] at hl
    rw [List.length_append]; omega
  have hdiv : ∀ k < M * sps, k / sps < M ∧ k = k / sps * sps + k % sps ∧ k % sps < sps := fun k hk => by
    refine ⟨Nat.div_lt_of_lt_mul (by rwa [Nat.mul_comm] at hk), ?_, Nat.mod_lt _ hs⟩
    have := Nat.div_add_mod k sps
    rw [Nat.mul_comm] at this
    exact this.symm
  have hnoise : ∀ i0, ∑ k ∈ Finset.range (M * sps), ‖r.getD (i0 * sps + k) 0 - exp (I * (ω * (i0 * sps + k : Nat) : ℝ)) * (c * iq.getD (d * sps + (i0 * sps + k)) 0)‖ ^ 2 ≤
      (ρ * ‖c‖ * e * q) ^ 2 := by
    intro i0
    rw [sum_intervals]
    have : ∀ i ∈ Finset.range M, ∑ j ∈ Finset.range sps, ‖r.getD (i0 * sps + (i * sps + j)) 0 -
        exp (I * (ω * (i0 * sps + (i * sps + j) : Nat) : ℝ)) * (c * iq.getD (d * sps + (i0 * sps + (i * sps + j))) 0)‖ ^ 2 ≤ ρ ^ 2 * ‖c‖ ^ 2 * e ^ 2 := by
      intro i _
      refine le_trans (le_of_eq (Finset.sum_congr rfl fun j _ => ?_)) (he2 ▸ hn (i0 + i))
      rw [show i0 * sps + (i * sps + j) = (i0 + i) * sps + j by ring]
    refine (Finset.sum_le_sum this).trans (le_of_eq ?_)
    rw [Finset.sum_const, Finset.card_range, nsmul_eq_mul, mul_pow, mul_pow, mul_pow, hq2]
    ring
  have hm := Carrier.measure (M * sps) (fun k => c * iq.getD (d * sps + k) 0)
    (fun k => r.getD k 0 - exp (I * (ω * (k : Nat) : ℝ)) * (c * iq.getD (d * sps + k) 0))
    (fun k => r.getD (M * sps + k) 0 - exp (I * (ω * (M * sps + k : Nat) : ℝ)) * (c * iq.getD (d * sps + (M * sps + k)) 0))
    (ω * RxQ.quarter b sps) (7 / 5 * ‖c‖ * e * q) (ρ * ‖c‖ * e * q) (by positivity) (by positivity) ?_ ?_ ?_ (hnoise M) ?_
    (fun k => r.getD k 0) (fun k => r.getD (M * sps + k) 0) (fun k => exp (I * (ω * (k : Nat) : ℝ))) (fun k => ?_) (fun k _ => ?_) fun k hk => ?_
  · rw [hfr] at hm
    unfold RxQ.carrier
    have e1 : ∀ A : ℝ, |A / (RxQ.quarter b sps : ℝ) - ω| * (RxQ.quarter b sps : ℝ) = |A - ω * RxQ.quarter b sps| := fun A => by
      rw [← abs_of_pos hTp, ← abs_mul, abs_of_pos hTp, sub_mul, div_mul_cancel₀ _ hTp.ne']
    rw [e1]
    exact hm
  · have : 0 < ‖c‖ * e * q := by positivity
    nlinarith
  · rw [sum_intervals]
    have : ∀ i ∈ Finset.range M, ‖c‖ ^ 2 * (2 * e ^ 2) ≤ ∑ j ∈ Finset.range sps, ‖c * iq.getD (d * sps + (i * sps + j)) 0‖ ^ 2 := by
      intro i hi
      have hi := Finset.mem_range.1 hi
      rw [he2]
      unfold RxQ.pulseEnergy
      rw [Finset.mul_sum, Finset.mul_sum]
      refine le_of_eq (Finset.sum_congr rfl fun j hj => ?_)
      rw [show d * sps + (i * sps + j) = (d + i) * sps + j by ring, hiq, C122.sample_ref b sps _ _ j (by omega) (Finset.mem_range.1 hj), norm_mul, mul_pow, C122.norm_symbol_mul]
    refine le_trans ?_ (Finset.sum_le_sum this)
    rw [Finset.sum_const, Finset.card_range, nsmul_eq_mul, mul_pow, mul_pow, mul_pow, hq2]
    have : 0 ≤ (M : ℝ) * (‖c‖ ^ 2 * e ^ 2) := by positivity
    nlinarith
  · simpa using hnoise 0
  · rw [hfr, abs_mul, Nat.abs_cast]
    linarith
  · rw [mul_comm]; exact Complex.norm_exp_ofReal_mul_I _
  · beta_reduce; ring
  · beta_reduce
    obtain ⟨k1, k2, k3⟩ := hdiv k hk
    have per : iq.getD (d * sps + (M * sps + k)) 0 = iq.getD (d * sps + k) 0 := by
      have := sample_period b sps x (d + k / sps) (k % sps) k3 (by omega)
      rw [← hM, ← hiq] at this
      rw [show d * sps + (M * sps + k) = (d + k / sps + M) * sps + k % sps by rw [Nat.add_mul, Nat.add_mul]; omega, this,
        show d * sps + k = (d + k / sps) * sps + k % sps by rw [Nat.add_mul]; omega]
    rw [per, show exp (I * (ω * (M * sps + k : Nat) : ℝ)) = exp (I * (ω * RxQ.quarter b sps : ℝ)) * exp (I * (ω * (k : Nat) : ℝ)) by
      rw [← Complex.exp_add, hT]; congr 1; push_cast; ring]
    ring

theorem tuned_getD (b : Band) (sps : Nat) (r : List ℂ) (n : Nat) : (RxQ.tuned b sps r).getD n 0 = r.getD n 0 * exp (I * (-(RxQ.carrier b sps r * n) : ℝ)) := by
  unfold RxQ.tuned
  by_cases hn : n < r.length
  · rw [List.getD_eq_getElem?_getD, List.getElem?_map, List.getElem?_range hn]
    rfl
  · rw [List.getD_eq_getElem?_getD, List.getElem?_eq_none (by simpa using hn), List.getD_eq_getElem?_getD, List.getElem?_eq_none (by simpa using hn)]
    simp

theorem sample_after (b : Band) (sps : Nat) (c : Bits) (n : Nat) (hn : c.length / 2 * sps ≤ n) : (RefQ.samples b sps c).getD n 0 = 0 := by
  unfold RefQ.samples
  rw [List.getD_eq_getElem?_getD, List.getElem?_map]
  by_cases hl : n < c.length / 2 * sps + sps - 1
  · rw [List.getElem?_range hl]
    simp only [Option.map_some, Option.getD_some]
    rw [if_neg (not_lt.2 hn)]
  · rw [List.getElem?_eq_none (by simpa using hl)]; rfl

theorem samples_length (b : Band) (sps : Nat) (hs : 1 ≤ sps) (c : Bits) : c.length / 2 * sps ≤ (RefQ.samples b sps c).length := by
  unfold RefQ.samples
  rw [List.length_map, List.length_range]
  omega

/-- After tuning, little noise remains. -/
theorem tuned_noise (b : Band) (sps : Nat) (hs : 1 ≤ sps) (x : Bits) (c : ℂ) (hc : c ≠ 0) (hE : 0 < RxQ.pulseEnergy b sps) (ω ρ : ℝ) (hρ : 0 ≤ ρ)
    (hL : 20 * ρ * (RefQ.samples b sps (RefQ.shr b ++ x)).length < RxQ.quarter b sps) (hω : |ω| * RxQ.quarter b sps + 3 * ρ < Real.pi) (d : Nat)
    (hd : 2 * d ≤ RxQ.preambleSymbols b) (r : List ℂ) (hn : ∀ i, noise sps ω c d r (RefQ.samples b sps (RefQ.shr b ++ x)) i ≤ ρ ^ 2 * ‖c‖ ^ 2 * RxQ.pulseEnergy b sps) (i : Nat) :
    C122.energy sps (C122.noise c (RxQ.tuned b sps r) ((RefQ.samples b sps (RefQ.shr b ++ x)).drop (d * sps))) i < 1 / 16 * ‖c‖ ^ 2 * RxQ.pulseEnergy b sps := by
  obtain ⟨s1, s2, s3, s4, s5, s6⟩ := sizes b
  have hlen : RxQ.preambleSymbols b ≤ (RefQ.shr b ++ x).length / 2 := by
    have hl := shr_length b
    rw [Nat.add_mul] at hl
    rw [List.length_append]; omega
  set iq := RefQ.samples b sps (RefQ.shr b ++ x) with hiq
  set T : ℝ := (RxQ.quarter b sps : ℝ) with hT
  set L : ℝ := (iq.length : ℝ) with hLd
  have hTp : 0 < T := by rw [hT]; unfold RxQ.quarter; exact_mod_cast Nat.mul_pos s1 hs
  have hLn := samples_length b sps hs (RefQ.shr b ++ x)
  rw [← hiq] at hLn
  have hLT : 4 * T ≤ L := by
    rw [hT, hLd]
    have : 4 * RxQ.quarter b sps ≤ iq.length := by
      refine le_trans ?_ hLn
      unfold RxQ.quarter
      rw [← Nat.mul_assoc, s2]
      exact Nat.mul_le_mul_right _ hlen
    exact_mod_cast this
  have hρ1 : ρ ≤ 1 / 80 := by
    by_contra hcon
    push Not at hcon
    nlinarith
  have hcar := carrier_ok b sps hs x c hc hE ω ρ hρ hρ1 hω d hd r hn
  rw [← hT] at hcar
  have hcp : 0 < ‖c‖ := norm_pos_iff.2 hc
  set e := Real.sqrt (RxQ.pulseEnergy b sps) with he
  have hep : 0 < e := Real.sqrt_pos.2 hE
  have he2 : e ^ 2 = RxQ.pulseEnergy b sps := Real.sq_sqrt hE.le
  rw [← he2]
  have hni := hn i
  rw [← he2] at hni
  unfold noise at hni
  have eq : C122.energy sps (C122.noise c (RxQ.tuned b sps r) (iq.drop (d * sps))) i =
      ∑ k ∈ Finset.range sps, ‖r.getD (i * sps + k) 0 * exp (I * (-(RxQ.carrier b sps r * (i * sps + k : Nat)) : ℝ)) - c * iq.getD (d * sps + (i * sps + k)) 0‖ ^ 2 := by
    unfold C122.energy C122.noise
    refine Finset.sum_congr rfl fun k _ => ?_
    rw [tuned_getD, C122.drop_getD]
  rw [eq]
  have hce : 0 < ‖c‖ * e := by positivity
  by_cases hi : d + i < (RefQ.shr b ++ x).length / 2
  · have := Carrier.detune sps (fun k => r.getD (i * sps + k) 0) (fun k => c * iq.getD (d * sps + (i * sps + k)) 0) ω (RxQ.carrier b sps r) (20 / 7 * ρ * (L / T))
      (ρ * ‖c‖ * e) (3 / 2 * ‖c‖ * e) (i * sps) (by positivity) (by positivity) (by positivity) (fun k hk => ?_) ?_ ?_
    · refine lt_of_le_of_lt this ?_
      have hr : ρ * (L / T) < 1 / 20 := by rw [mul_div_assoc', div_lt_iff₀ hTp]; linarith
      have h4 : 4 * ρ ≤ ρ * (L / T) := by
        rw [mul_div_assoc', le_div_iff₀ hTp]; nlinarith
      have key : ρ * ‖c‖ * e + 20 / 7 * ρ * (L / T) * (3 / 2 * ‖c‖ * e) < 1 / 4 * (‖c‖ * e) := by
        have : ρ * ‖c‖ * e + 20 / 7 * ρ * (L / T) * (3 / 2 * ‖c‖ * e) = (ρ + 30 / 7 * (ρ * (L / T))) * (‖c‖ * e) := by ring
        rw [this]
        exact mul_lt_mul_of_pos_right (by linarith) hce
      refine lt_of_lt_of_eq (pow_lt_pow_left₀ key (by positivity) two_ne_zero) (by ring)
    · rw [abs_sub_comm, mul_div_assoc', le_div_iff₀ hTp]
      calc |RxQ.carrier b sps r - ω| * (i * sps + k : Nat) * T = (|RxQ.carrier b sps r - ω| * T) * (i * sps + k : Nat) := by ring
        _ ≤ 20 / 7 * ρ * L := by
          refine mul_le_mul hcar ?_ (by positivity) (by positivity)
          have : i * sps + k ≤ iq.length := by
            have := Nat.mul_le_mul_right sps (show i + 1 ≤ (RefQ.shr b ++ x).length / 2 by omega)
            rw [Nat.add_mul] at this
            omega
          rw [hLd]
          exact_mod_cast this
    · exact hni.trans (le_of_eq (by ring))
    · have hq : ∑ k ∈ Finset.range sps, ‖c * iq.getD (d * sps + (i * sps + k)) 0‖ ^ 2 = ‖c‖ ^ 2 * (2 * e ^ 2) := by
        rw [he2]
        unfold RxQ.pulseEnergy
        rw [Finset.mul_sum, Finset.mul_sum]
        refine Finset.sum_congr rfl fun j hj => ?_
        rw [show d * sps + (i * sps + j) = (d + i) * sps + j by ring, hiq, C122.sample_ref b sps _ _ j (by omega) (Finset.mem_range.1 hj), norm_mul, mul_pow, C122.norm_symbol_mul]
      rw [hq]
      have : 0 ≤ (‖c‖ * e) ^ 2 := by positivity
      nlinarith
  · have h0 : ∀ k, iq.getD (d * sps + (i * sps + k)) 0 = 0 := fun k => by
      refine sample_after b sps _ _ ?_
      have := Nat.mul_le_mul_right sps (not_lt.1 hi)
      rw [Nat.add_mul] at this
      omega
    have : ∀ k ∈ Finset.range sps, ‖r.getD (i * sps + k) 0 * exp (I * (-(RxQ.carrier b sps r * (i * sps + k : Nat)) : ℝ)) - c * iq.getD (d * sps + (i * sps + k)) 0‖ ^ 2 =
        ‖r.getD (i * sps + k) 0 - exp (I * (ω * (i * sps + k : Nat) : ℝ)) * (c * iq.getD (d * sps + (i * sps + k)) 0)‖ ^ 2 := by
      intro k _
      have hn1 : ‖exp (I * (-(RxQ.carrier b sps r * (i * sps + k : Nat)) : ℝ))‖ = 1 := by
        rw [mul_comm]; exact Complex.norm_exp_ofReal_mul_I _
      rw [h0, mul_zero, mul_zero, sub_zero, sub_zero, norm_mul, hn1, mul_one]
    rw [Finset.sum_congr rfl this]
    refine lt_of_le_of_lt hni ?_
    have : 0 < (‖c‖ * e) ^ 2 := by positivity
    have h2 : ρ ^ 2 ≤ 1 / 6400 := by nlinarith
    nlinarith [mul_le_mul_of_nonneg_right h2 this.le]

/-- **C126 (bits).**  Any strength and phase, a start of reception anywhere in the first half of the preamble, any difference of the oscillators below half a turn per quarter of the
preamble: the receiver that measures the difference on the preamble recovers the frame, if in each symbol interval the energy of the noise is at most `ρ²` of the pulse's, with
`20·ρ` less than a quarter of the preamble as part of the frame. -/
theorem C126_bits (o : OqpskObj) (h : Standard o.params) (hp : C119.Sampled o.params) (a : Arg) (m : Bits) (ha : checkBinaryArray a = .ok m) (h8 : m.length % 8 = 0)
    (iq : List ℂ) (fs : ℚ) (hok : ((oqpskBitsToIQ a).call o).1 = .ok (iq, fs)) (c : ℂ) (hc : c ≠ 0) (ω ρ : ℝ) (hρ : 0 ≤ ρ)
    (hL : 20 * ρ * iq.length < RxQ.quarter o.params.band o.params.sps) (hω : |ω| * RxQ.quarter o.params.band o.params.sps + 3 * ρ < Real.pi)
    (d : Nat) (hd : 2 * d ≤ RxQ.preambleSymbols o.params.band) (r : List ℂ)
    (hn : ∀ i, noise o.params.sps ω c d r iq i ≤ ρ ^ 2 * ‖c‖ ^ 2 * RxQ.pulseEnergy o.params.band o.params.sps) :
    RxQ.receiveTuned o.params.band o.params.sps r = some (C119.content o.params m) := by
  have hE := C102.pulseEnergy_pos o.params.band o.params.sps hp
  obtain ⟨s1, s2, s3, s4, s5, s6⟩ := sizes o.params.band
  obtain ⟨x, e, -⟩ := C119.frame o h a m ha (m.length / 8) (by omega) iq fs hok
  unfold RxQ.receiveTuned
  refine C122.C122_late o h hp a m ha h8 iq fs hok c hc d (by unfold C119.place; omega) _ fun i => ?_
  rw [e] at hL hn ⊢
  exact tuned_noise _ _ h.sps x c hc hE ω ρ hρ hL hω d hd r hn i

/-- **C126 (octets).**  The same for octet messages. -/
theorem C126_octets (o : OqpskObj) (h : Standard o.params) (hp : C119.Sampled o.params) (a : Arg) (msg : List UInt8) (hd : C01.Denotes a msg) (h0 : msg ≠ [])
    (iq : List ℂ) (fs : ℚ) (hok : ((oqpskBytesToIQ a).call o).1 = .ok (iq, fs)) (c : ℂ) (hc : c ≠ 0) (ω ρ : ℝ) (hρ : 0 ≤ ρ)
    (hL : 20 * ρ * iq.length < RxQ.quarter o.params.band o.params.sps) (hω : |ω| * RxQ.quarter o.params.band o.params.sps + 3 * ρ < Real.pi)
    (d : Nat) (hdd : 2 * d ≤ RxQ.preambleSymbols o.params.band) (r : List ℂ)
    (hn : ∀ i, noise o.params.sps ω c d r iq i ≤ ρ ^ 2 * ‖c‖ ^ 2 * RxQ.pulseEnergy o.params.band o.params.sps) :
    RxQ.receiveTuned o.params.band o.params.sps r = some (C119.content o.params (C102.bitsOfOctets msg)) := by
  obtain ⟨hne, h8, hb⟩ := C122.octets_bits o a msg hd h0 iq fs hok
  exact C126_bits o h hp _ _ (C03.C03_identity _ hne) h8 iq fs hb c hc ω ρ hρ hL hω d hdd r hn

/-- **C126 (without noise).**  Then any difference of less than half a turn per quarter of the preamble will do. -/
theorem C126_clean (o : OqpskObj) (h : Standard o.params) (hp : C119.Sampled o.params) (a : Arg) (msg : List UInt8) (hd : C01.Denotes a msg) (h0 : msg ≠ [])
    (iq : List ℂ) (fs : ℚ) (hok : ((oqpskBytesToIQ a).call o).1 = .ok (iq, fs)) (c : ℂ) (hc : c ≠ 0) (ω : ℝ) (hω : |ω| * RxQ.quarter o.params.band o.params.sps < Real.pi)
    (d : Nat) (hdd : 2 * d ≤ RxQ.preambleSymbols o.params.band) :
    RxQ.receiveTuned o.params.band o.params.sps (RxQ.turned ω ((iq.drop (d * o.params.sps)).map fun z => c * z)) =
      some (C119.content o.params (C102.bitsOfOctets msg)) := by
  obtain ⟨s1, s2, s3, s4, s5, s6⟩ := sizes o.params.band
  refine C126_octets o h hp a msg hd h0 iq fs hok c hc ω 0 le_rfl ?_ (by simpa using hω) d hdd _ fun i => ?_
  · have : 0 < RxQ.quarter o.params.band o.params.sps := Nat.mul_pos s1 h.sps
    simpa using this
  · unfold noise
    rw [Finset.sum_eq_zero]
    · simp
    · intro j _
      have : ∀ k, (RxQ.turned ω ((iq.drop (d * o.params.sps)).map fun z => c * z)).getD k 0 = exp (I * (ω * k : ℝ)) * (c * iq.getD (d * o.params.sps + k) 0) := fun k => by
        rw [← C122.drop_getD]
        generalize iq.drop (d * o.params.sps) = y
        unfold RxQ.turned
        by_cases hk : k < y.length
        · rw [List.getD_eq_getElem?_getD, List.getElem?_map, List.getElem?_range (by simpa using hk)]
          simp [List.getD_eq_getElem?_getD, hk]
        · rw [List.getD_eq_getElem?_getD, List.getElem?_eq_none (by simpa using hk), List.getD_eq_getElem?_getD, List.getElem?_eq_none (by omega)]; simp
      rw [this, sub_self]; simp

/-! Non-vacuity: in every band a message of one octet is modulated; its frame, weakened, turned, its first symbol interval missed and half a radian per quarter of the preamble
off, is received. -/
example : ∀ (b : Band) (x : UInt8), ∃ iq fs, ((oqpskBytesToIQ (.bytes [x])).call { params := ⟨b, 0, 0, 4⟩ }).1 = .ok (iq, fs) ∧
    RxQ.receiveTuned b 4 (RxQ.turned (1 / 2 / RxQ.quarter b 4) ((iq.drop (1 * 4)).map fun z => I / 1000 * z)) =
      some (C119.content ⟨b, 0, 0, 4⟩ (C102.bitsOfOctets [x])) := by
  intro b x
  have hstd : Standard (⟨b, 0, 0, 4⟩ : OqpskParams) := ⟨⟨le_rfl, show (0 : Int) ≤ 3 by decide⟩, Or.inl rfl, show 1 ≤ 4 by decide⟩
  have := C68.C68_bytes { params := ⟨b, 0, 0, 4⟩ } hstd (.bytes [x]) [x] rfl (by simp) (by simp)
  simp only at this
  have h4 : fourBitGroups b (0 : Int).toNat = false := by cases b <;> decide
  rw [if_neg (by rw [h4]; simp)] at this
  refine ⟨_, _, this, ?_⟩
  obtain ⟨s1, s2, s3, s4, s5, s6⟩ := sizes b
  have hq : (0 : ℝ) < (RxQ.quarter b 4 : ℝ) := by unfold RxQ.quarter; exact_mod_cast Nat.mul_pos s1 (by norm_num)
  refine C126_clean { params := ⟨b, 0, 0, 4⟩ } hstd (by show if _ then _ else _; split <;> simp) (.bytes [x]) [x] rfl (by simp) _ _ this (I / 1000)
    (div_ne_zero I_ne_zero (by norm_num)) (1 / 2 / RxQ.quarter b 4) ?_ 1 (by show 2 * 1 ≤ RxQ.preambleSymbols b; omega)
  rw [abs_of_pos (by positivity)]
  show 1 / 2 / (RxQ.quarter b 4 : ℝ) * (RxQ.quarter b 4 : ℝ) < Real.pi
  rw [div_mul_cancel₀ _ hq.ne']
  have := Real.pi_gt_d2
  linarith

end
end SunPhy.C126
