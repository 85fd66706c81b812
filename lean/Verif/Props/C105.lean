import Verif.Props.C91
import Verif.Props.C96
import Verif.Props.C62
import Verif.Props.C42
import Verif.Props.C100
import Mathlib.Analysis.Convex.SpecificFunctions.Deriv
import Mathlib.Analysis.SpecialFunctions.Trigonometric.Bounds
import Mathlib.Algebra.Order.Chebyshev
/-
C105 — peak amplitude of the signals: a bound on every sample that holds for every message.
-/
namespace SunPhy.C105
open SunPhy Spec Complex C91
noncomputable section

/-! ### Raised cosine and half sine pulses never exceed 1 -/

/-- Concavity of the sine on `[0, π/4]`. -/
theorem sin_chord {u : ℝ} (h0 : 0 ≤ u) (h1 : u ≤ 1) : u * (Real.sqrt 2 / 2) ≤ Real.sin (Real.pi / 4 * u) := by
  have hm0 : (0 : ℝ) ∈ Set.Icc 0 Real.pi := ⟨le_refl _, Real.pi_pos.le⟩
  have hm1 : Real.pi / 4 ∈ Set.Icc 0 Real.pi := ⟨by positivity, by linarith [Real.pi_pos]⟩
  have hc := strictConcaveOn_sin_Icc.concaveOn.2 hm0 hm1 (show 0 ≤ 1 - u by linarith) h0 (by ring)
  simp only [smul_eq_mul, mul_zero, Real.sin_zero, zero_add, Real.sin_pi_div_four] at hc
  rw [mul_comm (Real.pi / 4) u]
  exact hc

theorem cos_le {u : ℝ} (h : |u| ≤ 1) : Real.cos (Real.pi / 2 * u) ≤ 1 - u ^ 2 := by
  have key : ∀ v : ℝ, 0 ≤ v → v ≤ 1 → Real.cos (Real.pi / 2 * v) ≤ 1 - v ^ 2 := by
    intro v h0 h1
    have hs := sin_chord h0 h1
    have h2 : (v * (Real.sqrt 2 / 2)) ^ 2 ≤ Real.sin (Real.pi / 4 * v) ^ 2 := pow_le_pow_left₀ (by positivity) hs 2
    have h3 : Real.cos (Real.pi / 2 * v) = 1 - 2 * Real.sin (Real.pi / 4 * v) ^ 2 := by
      rw [show Real.pi / 2 * v = 2 * (Real.pi / 4 * v) by ring, Real.cos_two_mul, Real.cos_sq']; ring
    have h4 : (v * (Real.sqrt 2 / 2)) ^ 2 = v ^ 2 / 2 := by
      rw [mul_pow, div_pow, Real.sq_sqrt (by norm_num)]; ring
    rw [h3]; rw [h4] at h2; linarith
  have := key |u| (abs_nonneg u) h
  rw [sq_abs] at this
  rcases abs_cases u with ⟨e, -⟩ | ⟨e, -⟩
  · rwa [e] at this
  · rw [e, mul_neg, Real.cos_neg] at this; exact this

theorem factor_le (u : ℝ) : |Real.cos (Real.pi / 2 * u) / (1 - u ^ 2)| ≤ 1 := by
  by_cases h1 : |u| ≤ 1
  · by_cases h0 : 1 - u ^ 2 = 0
    · rw [h0]; simp
    · have hu : u ^ 2 ≤ 1 := by rw [← sq_abs]; nlinarith [abs_nonneg u]
      have hp : 0 < 1 - u ^ 2 := lt_of_le_of_ne (by linarith) (Ne.symm h0)
      rw [abs_div, abs_of_pos hp, div_le_one hp, abs_le]
      refine ⟨?_, cos_le h1⟩
      have : 0 ≤ Real.cos (Real.pi / 2 * u) := by
        obtain ⟨a, b⟩ := abs_le.1 h1
        apply Real.cos_nonneg_of_neg_pi_div_two_le_of_le <;> nlinarith [Real.pi_pos]
      linarith
  · push Not at h1
    have hs : 0 < u ^ 2 - 1 := by rw [← sq_abs]; nlinarith
    have key : |Real.cos (Real.pi / 2 * u)| ≤ Real.pi / 2 * (|u| - 1) := by
      have e : Real.cos (Real.pi / 2 * u) = -Real.sin (Real.pi / 2 * (|u| - 1)) := by
        rw [show Real.pi / 2 * (|u| - 1) = Real.pi / 2 * |u| - Real.pi / 2 by ring, Real.sin_sub_pi_div_two, neg_neg]
        rcases abs_cases u with ⟨e, -⟩ | ⟨e, -⟩
        · rw [e]
        · rw [e, mul_neg, Real.cos_neg]
      rw [e, abs_neg]
      refine le_trans Real.abs_sin_le_abs ?_
      rw [abs_of_nonneg (mul_nonneg (by positivity) (by linarith))]
    rw [show 1 - u ^ 2 = -(u ^ 2 - 1) by ring, div_neg, abs_neg, abs_div, abs_of_pos hs, div_le_one hs]
    refine le_trans key ?_
    have : u ^ 2 - 1 = (|u| + 1) * (|u| - 1) := by rw [← sq_abs]; ring
    rw [this]
    apply mul_le_mul_of_nonneg_right _ (by linarith)
    have := Real.pi_le_four
    linarith

theorem raised_le (u : ℝ) : |raisedCosinePulse u| ≤ 1 := by
  unfold raisedCosinePulse
  split
  · simp
  · rename_i h
    have hf := factor_le (8 / 5 * u)
    rw [show Real.pi / 2 * (8 / 5 * u) = 4 / 5 * Real.pi * u by ring] at hf
    rw [abs_mul]
    have hs : |Real.sin (Real.pi * u) / (Real.pi * u)| ≤ 1 := by
      have hp : 0 < |Real.pi * u| := abs_pos.2 (mul_ne_zero Real.pi_ne_zero h)
      rw [abs_div, div_le_one hp]
      exact Real.abs_sin_le_abs
    exact mul_le_one₀ hs (abs_nonneg _) hf

theorem half_le (u : ℝ) : |halfSinePulse u| ≤ 1 := by
  unfold halfSinePulse
  split
  · exact Real.abs_sin_le_one _
  · simp

theorem pulse_le (b : Band) (sps j : Nat) : |pulseSample b sps j| ≤ 1 := by
  unfold pulseSample
  cases b <;> first | exact raised_le _ | exact half_le _

/-! ### MR-O-QPSK -/

/-- Every signal returned comes from an even, non-empty number of chips. -/
theorem api_chips (o : OqpskObj) (h : C63.Standard o.params) (a : Arg) (iq : List ℂ) (fs : ℚ) (hok : ((oqpskBitsToIQ a).call o).1 = .ok (iq, fs)) :
    ∃ chips : Bits, chips ≠ [] ∧ chips.length % 2 = 0 ∧ oqpskModulator o.params chips o.params.sps = .ok (iq, fs) := by
  rw [(oqpskBitsToIQ_result a o).1] at hok
  unfold oqpskBitsResult at hok
  cases ha : checkBinaryArray a with
  | error e => rw [ha] at hok; cases hok
  | ok m =>
    rw [ha] at hok
    simp only at hok
    have hne : m ≠ [] := by
      have hacc := (C03.C03_accepts_iff a).1 ⟨m, ha⟩
      have := (C03.C03_validation a).1 hacc
      rw [ha] at this
      rw [Except.ok.inj this]
      cases a <;> simp_all [C03.Acceptable, C03.entries]
    by_cases h2 : m.length / 8 ≤ 2047
    · obtain ⟨t, ht, k1, k2⟩ := C96.spread_bits h m hne
      obtain ⟨c, hc, hcl⟩ := phr_ok_iff o.params h.rate.1 h.rate.2 (m.length / 8) (by omega)
      by_cases hS : C96.Spreadable o.params m.length
      · obtain ⟨s, hs, hsl⟩ := k2 hS
        have hf : oqpskFrame o.params m = .ok (shrChips o.params ++ c ++ o.params.insertPilots s) := by
          rw [frame_eq o.params m c hc t ht, hs]; rfl
        have hlen : (shrChips o.params ++ c ++ o.params.insertPilots s).length = C96.frameChipsOf o.params m.length := by
          rw [List.length_append, List.length_append, (shr_ok _).2, hcl, C57.C57_size, hsl]
          unfold C96.frameChipsOf
          generalize o.params.band = b
          have e1 : preambleLength b = preambleBits b := by cases b <;> rfl
          have e2 : C57.spacing b = (Spec.pilots b).2 := by cases b <;> rfl
          have e3 : C57.pilotLen b = (Spec.pilots b).1 := by cases b <;> rfl
          rw [e1, e2, e3]
          omega
        have hpos := C96.chips_pos o.params m.length
        rw [hf] at hok
        exact ⟨_, by intro he; rw [he, List.length_nil] at hlen; omega, by rw [hlen]; exact C96.chips_even _ h _, hok⟩
      · rw [frame_eq o.params m c hc t ht, k1 hS] at hok; cases hok
    · unfold oqpskFrame at hok
      rw [(shr_ok _).1, phr_too_long _ _ (by omega)] at hok
      cases hok

theorem pair_norm (a b : Bool) (g : ℝ) : ‖(chipValue a + I * chipValue b) * (g : ℂ)‖ = Real.sqrt 2 * |g| := by
  have h2 : ‖chipValue a + I * chipValue b‖ = Real.sqrt 2 := by
    rw [Complex.norm_eq_sqrt_sq_add_sq]
    congr 1
    cases a <;> cases b <;> simp [chipValue] <;> norm_num
  rw [norm_mul, h2, Complex.norm_real, Real.norm_eq_abs]

/-- **C105 (MR-O-QPSK).**  No sample of any frame, in any configuration, exceeds `√2` in magnitude; the bound is reached by every frame with a
raised cosine pulse and an even number of samples per symbol, and by every half-sine frame with a multiple of four samples per symbol. -/
theorem C105_oqpsk (o : OqpskObj) (h : C63.Standard o.params) (a : Arg) (iq : List ℂ) (fs : ℚ) (hok : ((oqpskBitsToIQ a).call o).1 = .ok (iq, fs)) :
    (∀ v ∈ iq, ‖v‖ ≤ Real.sqrt 2) ∧
    ((if o.params.band = .b915 ∨ o.params.band = .b2450 then o.params.sps % 4 = 0 else o.params.sps % 2 = 0) → ∃ v ∈ iq, ‖v‖ = Real.sqrt 2) := by
  obtain ⟨chips, hne, he, hm⟩ := api_chips o h a iq fs hok
  obtain ⟨r, hr⟩ := C63.rate_ok h
  obtain ⟨iq', h', hl, hsam, hz⟩ := C60.C60_waveform o.params chips hne he o.params.sps h.sps r hr
  rw [hm] at h'
  obtain rfl : iq = iq' := (Prod.mk.inj (Except.ok.inj h')).1
  have hsps := h.sps
  have hpos := List.length_pos_iff.2 hne
  constructor
  · intro v hv
    obtain ⟨n, hn⟩ := List.mem_iff_getElem?.1 hv
    obtain ⟨hlt, -⟩ := List.getElem?_eq_some_iff.1 hn
    by_cases hc : n < chips.length / 2 * o.params.sps
    · have e := hsam (n / o.params.sps) (n % o.params.sps) (Nat.div_lt_of_lt_mul (by rw [Nat.mul_comm]; exact hc)) (Nat.mod_lt _ (by omega))
      rw [Nat.div_add_mod, hn] at e
      rw [Option.some.inj e, pair_norm]
      have := pulse_le o.params.band o.params.sps (n % o.params.sps)
      nlinarith [Real.sqrt_nonneg 2]
    · rw [hz n (by omega) (by omega)] at hn
      rw [← Option.some.inj hn]; simp
  · intro hsp
    have hp : ∃ j < o.params.sps, |pulseSample o.params.band o.params.sps j| = 1 := by
      have hne : (o.params.sps : ℝ) ≠ 0 := by exact_mod_cast (show o.params.sps ≠ 0 by omega)
      by_cases hb : o.params.band = .b915 ∨ o.params.band = .b2450
      · rw [if_pos hb] at hsp
        refine ⟨3 * (o.params.sps / 4), by omega, ?_⟩
        have e : -2 + 4 * ((3 * (o.params.sps / 4) : ℕ) : ℝ) / o.params.sps = 1 := by
          obtain ⟨q, hq⟩ := Nat.dvd_of_mod_eq_zero hsp
          rw [hq, Nat.mul_div_cancel_left _ (by norm_num)]
          rw [hq] at hne
          push_cast at hne ⊢
          have : (q : ℝ) ≠ 0 := by intro h0; rw [h0] at hne; simp at hne
          field_simp
          ring
        unfold pulseSample
        rw [e]
        have : bandPulse o.params.band = halfSinePulse := by rcases hb with hb | hb <;> rw [hb] <;> rfl
        rw [this]
        unfold halfSinePulse
        rw [if_pos (by norm_num), mul_one, Real.sin_pi_div_two, abs_one]
      · rw [if_neg hb] at hsp
        refine ⟨o.params.sps / 2, by omega, ?_⟩
        have e : -2 + 4 * ((o.params.sps / 2 : ℕ) : ℝ) / o.params.sps = 0 := by
          obtain ⟨q, hq⟩ := Nat.dvd_of_mod_eq_zero hsp
          rw [hq, Nat.mul_div_cancel_left _ (by norm_num)]
          rw [hq] at hne
          push_cast at hne ⊢
          have : (q : ℝ) ≠ 0 := by intro h0; rw [h0] at hne; simp at hne
          field_simp
          ring
        unfold pulseSample
        rw [e]
        have : bandPulse o.params.band = raisedCosinePulse := by
          revert hb; cases o.params.band <;> simp [bandPulse]
        rw [this]
        unfold raisedCosinePulse
        rw [if_pos rfl, abs_one]
    obtain ⟨j, hj, hj1⟩ := hp
    have e := hsam 0 j (by omega) hj
    refine ⟨_, List.mem_iff_getElem?.2 ⟨_, e⟩, ?_⟩
    rw [pair_norm, hj1, mul_one]

/-! ### MR-OFDM -/

theorem exp_norm (x : ℤ) (τ : ℤ) (N : Nat) : ‖exp (2 * Real.pi * I * (x : ℂ) * τ / N)‖ = 1 := by
  have : (2 * Real.pi * I * (x : ℂ) * τ / N : ℂ) = ((2 * Real.pi * x * τ / N : ℝ) : ℂ) * I := by push_cast; ring
  rw [this, Complex.norm_exp_ofReal_mul_I]

/-- Cauchy–Schwarz: a sample is bounded by the number of tones in use and their energy. -/
theorem wave_le (N : Nat) (hN : 0 < N) (X : Int → ℂ) (K : Nat) (P : Int → Prop) [DecidablePred P] (hP : ∀ t, ¬ P t → X t = 0)
    (hK : (allTones N).countP (fun t => decide (P t)) ≤ K) (τ : Int) :
    ‖Ref.wave N X τ‖ ^ 2 ≤ K * energy ((allTones N).map X) / N := by
  have hN' : (0 : ℝ) < N := by exact_mod_cast hN
  let g : Nat → Int := fun i => (i : Int) - ((N / 2 : Nat) : Int)
  let S := (Finset.range N).filter fun i => P (g i)
  have hcard : (S.card : ℝ) ≤ K := by
    have : S.card = (allTones N).countP (fun t => decide (P t)) := by
      unfold allTones
      rw [List.countP_map, List.countP_eq_length_filter]
      rfl
    rw [this]; exact_mod_cast hK
  have he : energy ((allTones N).map X) = ∑ i ∈ Finset.range N, ‖X (g i)‖ ^ 2 := by
    rw [energy_map]
    unfold allTones
    rw [List.map_map]
    rfl
  have h1 : ‖∑ i ∈ Finset.range N, X (g i) * exp (2 * Real.pi * I * ((g i : Int) : ℂ) * τ / N)‖ ≤ ∑ i ∈ S, ‖X (g i)‖ := by
    refine le_trans (norm_sum_le _ _) ?_
    rw [Finset.sum_filter]
    apply Finset.sum_le_sum
    intro i _
    rw [norm_mul, exp_norm, mul_one]
    split
    · exact le_refl _
    · rename_i hp; rw [hP _ hp, norm_zero]
  have h2 : (∑ i ∈ S, ‖X (g i)‖) ^ 2 ≤ S.card * ∑ i ∈ S, ‖X (g i)‖ ^ 2 := sq_sum_le_card_mul_sum_sq
  have h3 : ∑ i ∈ S, ‖X (g i)‖ ^ 2 ≤ ∑ i ∈ Finset.range N, ‖X (g i)‖ ^ 2 :=
    Finset.sum_le_sum_of_subset_of_nonneg (Finset.filter_subset _ _) fun _ _ _ => sq_nonneg _
  have h4 : (0 : ℝ) ≤ ∑ i ∈ Finset.range N, ‖X (g i)‖ ^ 2 := Finset.sum_nonneg fun _ _ => sq_nonneg _
  unfold Ref.wave
  rw [norm_div, div_pow, Complex.norm_real, Real.norm_eq_abs, sq_abs, Real.sq_sqrt hN'.le]
  refine div_le_div_of_nonneg_right ?_ hN'.le
  rw [he]
  calc _ ≤ (∑ i ∈ S, ‖X (g i)‖) ^ 2 := pow_le_pow_left₀ (norm_nonneg _) h1 2
    _ ≤ S.card * ∑ i ∈ S, ‖X (g i)‖ ^ 2 := h2
    _ ≤ S.card * ∑ i ∈ Finset.range N, ‖X (g i)‖ ^ 2 := mul_le_mul_of_nonneg_left h3 (Nat.cast_nonneg _)
    _ ≤ K * ∑ i ∈ Finset.range N, ‖X (g i)‖ ^ 2 := mul_le_mul_of_nonneg_right hcard h4

/-- Number of short training tones. -/
def shortTones : Nat → Nat | 1 => 12 | 2 => 12 | _ => 6

def isShort (opt : Nat) (t : Int) : Prop :=
  match opt with
  | 1 => t ≠ 0 ∧ t % 8 = 0 ∧ t.natAbs ≤ 48
  | 2 => t ∈ [-24, -20, -16, -12, -8, -4, 4, 8, 12, 16, 20, 24]
  | 3 => t ≠ 0 ∧ t % 4 = 0 ∧ t.natAbs ≤ 12
  | _ => t ≠ 0 ∧ t % 2 = 0 ∧ t.natAbs ≤ 6
instance (opt : Nat) (t : Int) : Decidable (isShort opt t) := by unfold isShort; split <;> infer_instance

theorem short_count : ∀ opt ∈ [1, 2, 3, 4], (allTones (Ref.nfft opt)).countP (fun t => decide (isShort opt t)) ≤ shortTones opt := by decide +kernel

theorem short_zero (opt : Nat) (h : opt ∈ [1, 2, 3, 4]) (t : Int) (ht : ¬ isShort opt t) : Ref.stfTone opt t = 0 := by
  simp only [List.mem_cons, List.not_mem_nil, or_false] at h
  rcases h with rfl | rfl | rfl | rfl
  · exact if_neg ht
  · have h1 : t ∉ ([-12, -8, -4, 4, 12, 16, 24] : List Int) := fun h => ht (by unfold isShort; revert h; simp; omega)
    have h2 : t ∉ ([-24, -20, -16, 8, 20] : List Int) := fun h => ht (by unfold isShort; revert h; simp; omega)
    simp only [Ref.stfTone]
    rw [if_neg h1, if_neg h2]
  · exact if_neg ht
  · exact if_neg ht

/-- The square of the largest magnitude: active tones × (pilots + largest data power × data tones) / FFT size. -/
def peakSq (opt mcs : Nat) : ℝ := active opt * (C91.pilots opt + (if mcs ≤ 4 then 1 else 9 / 5) * datas opt) / Ref.nfft opt

theorem peak_base (opt mcs : Nat) (h : opt ∈ [1, 2, 3, 4]) : active opt * active opt / Ref.nfft opt ≤ peakSq opt mcs := by
  simp only [List.mem_cons, List.not_mem_nil, or_false] at h
  unfold peakSq
  split <;> rcases h with rfl | rfl | rfl | rfl <;> norm_num [active, C91.pilots, datas, Ref.nfft]

theorem peak_short (opt : Nat) (h : opt ∈ [1, 2, 3, 4]) : 25 / 16 * (shortTones opt * active opt / Ref.nfft opt) ≤ (active opt * active opt / Ref.nfft opt : ℝ) := by
  simp only [List.mem_cons, List.not_mem_nil, or_false] at h
  rcases h with rfl | rfl | rfl | rfl <;> norm_num [active, shortTones, Ref.nfft]

theorem unused_zero (p : OfdmParams) (m : Bits) (n : Nat) (t : Int) (h : ¬ ¬ unused p.option t) : Ref.toneValue p m n t = 0 := by
  unfold Ref.toneValue
  simp only
  exact if_pos (not_not.1 h)

theorem frame_peak {p : OfdmParams} (h : Supported p) (m : Bits) : ∀ v ∈ Ref.frame p m, ‖v‖ ^ 2 ≤ peakSq p.option p.mcs := by
  obtain ⟨hm, ho, hh⟩ := C91.mcs_le h
  obtain ⟨-, hN⟩ := nfft_facts _ ho
  have hb := peak_base p.option p.mcs ho
  intro v hv
  unfold Ref.frame at hv
  rcases List.mem_append.1 hv with hv | hv
  · rcases List.mem_append.1 hv with hv | hv
    · unfold Ref.stf at hv
      obtain ⟨k, -, rfl⟩ := List.mem_map.1 hv
      have hw := wave_le (Ref.nfft p.option) hN (Ref.stfTone p.option) (shortTones p.option) (isShort p.option) (fun t ht => short_zero _ ho t ht)
        (short_count _ ho) (((k % (5 * Ref.nfft p.option / 4) : Nat) : Int) - ((Ref.nfft p.option / 4 : Nat) : Int))
      rw [stf_energy _ ho] at hw
      have e3 : ∀ c : Prop, [Decidable c] → ‖(if c then (-1 : ℂ) else 1)‖ = 1 := by intro c _; split <;> simp
      rw [norm_mul, norm_mul, e3, mul_one, mul_pow, show ‖(5 / 4 : ℂ)‖ ^ 2 = 25 / 16 by norm_num]
      have := peak_short _ ho
      linarith
    · unfold Ref.ltf at hv
      obtain ⟨k, -, rfl⟩ := List.mem_map.1 hv
      have hw := wave_le (Ref.nfft p.option) hN (Ref.ltfTone p.option) (active p.option) (fun t => ¬ unused p.option t)
        (fun t ht => by unfold Ref.ltfTone; exact if_pos (not_not.1 ht)) (active_count _ ho).le ((k : Int) - ((Ref.nfft p.option / 2 : Nat) : Int))
      rw [ltf_energy _ ho] at hw
      exact le_trans hw hb
  · obtain ⟨n, -, hv⟩ := List.mem_flatMap.1 hv
    unfold Ref.symbol at hv
    obtain ⟨k, -, rfl⟩ := List.mem_map.1 hv
    have hw := wave_le (Ref.nfft p.option) hN (Ref.toneValue p m n) (active p.option) (fun t => ¬ unused p.option t)
      (fun t ht => unused_zero p m n t ht) (active_count _ ho).le ((k : Int) - ((Ref.nfft p.option / 4 : Nat) : Int))
    refine le_trans hw ?_
    unfold peakSq
    refine div_le_div_of_nonneg_right (mul_le_mul_of_nonneg_left (le_trans (symbol_tones h m n).2 ?_) (Nat.cast_nonneg _)) (Nat.cast_nonneg _)
    have hd : (0 : ℝ) ≤ datas p.option := Nat.cast_nonneg _
    unfold hi schemeOf
    by_cases hn : n < Ref.headerCount p
    · rw [if_pos hn, if_pos (by omega)]
      split <;> nlinarith
    · rw [if_neg hn]

/-- **C105 (MR-OFDM).**  Whatever the message, no sample of a frame exceeds the value that all active tones could reach together: its squared
magnitude is at most (active tones) × (pilots + c × data tones) / N, with `c = 1` for MCS 0..4 and `9/5` for the 16-QAM schemes. -/
theorem C105_ofdm (o : OfdmObj) (h : Supported o.params) (a : Arg) (iq : List ℂ) (fs : ℚ)
    (hok : ((ofdmModBitsToIQ a).call o).1 = .ok (iq, fs)) : ∀ v ∈ iq, ‖v‖ ^ 2 ≤ peakSq o.params.option o.params.mcs := by
  obtain ⟨m, ha, h1, h2⟩ : ∃ m, checkBinaryArray a = .ok m ∧ 1 ≤ m.length / 8 ∧ m.length / 8 ≤ 2047 := by
    cases ha : checkBinaryArray a with
    | ok m => exact ⟨m, rfl, (C15.C15_bitsToIQ o h a m ha).1.1 ⟨_, hok⟩⟩
    | error e =>
      rw [(bitsToIQ_result h a).1] at hok
      unfold ofdmResult at hok
      rw [ha] at hok; cases hok
  obtain ⟨o', e, -⟩ := C67.C67_reference o h a m ha h1 h2
  rw [e] at hok
  obtain rfl : Ref.frame o.params m = iq := (Prod.mk.inj (Except.ok.inj hok)).1
  exact frame_peak h m

/-- **C105 (MR-FSK).**  Every sample has magnitude 1. -/
theorem C105_fsk (o : FskObj) (hr : 1 ≤ o.params.symbolRate) (a : Arg) (iq : List ℂ) (fs : ℚ)
    (hok : ((fskBitsToIQ id a).call o).1 = .ok (iq, fs)) : ∀ v ∈ iq, ‖v‖ = 1 := by
  obtain ⟨_, _, _, _, _, k, _⟩ := C42.C42_waveform o hr a iq fs hok
  exact k

/-- **C105 (octets).**  The same bounds for `bytesToIQ`. -/
theorem C105_bytes (a : Arg) (iq : List ℂ) (fs : ℚ) :
    (∀ o : OfdmObj, Supported o.params → ((ofdmModBytesToIQ a).call o).1 = .ok (iq, fs) → ∀ v ∈ iq, ‖v‖ ^ 2 ≤ peakSq o.params.option o.params.mcs) ∧
    (∀ o : OqpskObj, C63.Standard o.params → ((oqpskBytesToIQ a).call o).1 = .ok (iq, fs) → ∀ v ∈ iq, ‖v‖ ≤ Real.sqrt 2) ∧
    (∀ o : FskObj, 1 ≤ o.params.symbolRate → ((fskBytesToIQ id a).call o).1 = .ok (iq, fs) → ∀ v ∈ iq, ‖v‖ = 1) := by
  cases hb : toBinaryArray a with
  | error e =>
    refine ⟨fun o _ h => ?_, fun o _ h => ?_, fun o _ h => ?_⟩
    · unfold ofdmModBytesToIQ at h
      simp only [PyM.call_bind, PyM.call_lift, hb, PyM.seqR_error] at h; cases h
    · unfold oqpskBytesToIQ at h
      simp only [PyM.call_bind, PyM.call_lift, hb, PyM.seqR_error] at h; cases h
    · unfold fskBytesToIQ at h
      simp only [PyM.call_bind, PyM.call_lift, hb, PyM.seqR_error] at h; cases h
  | ok m =>
    refine ⟨fun o hs h => ?_, fun o hs h => ?_, fun o hs h => ?_⟩
    · unfold ofdmModBytesToIQ at h
      simp only [PyM.call_bind, PyM.call_lift, hb, PyM.seqR_ok] at h
      exact C105_ofdm o hs _ iq fs h
    · unfold oqpskBytesToIQ at h
      simp only [PyM.call_bind, PyM.call_lift, hb, PyM.seqR_ok] at h
      exact (C105_oqpsk o hs _ iq fs h).1
    · unfold fskBytesToIQ at h
      simp only [PyM.call_bind, PyM.call_lift, hb, PyM.seqR_ok] at h
      exact C105_fsk o hs _ iq fs h

/-! Non-vacuity: the bounds in numbers, and frames that exist. -/
example (o : OfdmObj) (ho : mrOfdmInit (.int 3) (.int 2) (.int 0) (.int 1) = .ok o.params) :
    ∃ iq fs o', (ofdmModBytesToIQ (.bytes [1, 2, 3])).call o = (.ok (iq, fs), o') :=
  let ⟨iq, fs, o', h, _⟩ := C31.C31_success _ _ _ _ o.params ho o rfl (.bytes [1, 2, 3]) [1, 2, 3] (by simp [C01.Denotes]) (by decide) (by decide)
  ⟨iq, fs, o', h⟩
example (o : OqpskObj) (ho : o.params = ⟨.b915, 0, 0, 8⟩) : ∃ r, ((oqpskBytesToIQ (.bytes [1, 2])).call o).1 = .ok r ∧
    (if o.params.band = .b915 ∨ o.params.band = .b2450 then o.params.sps % 4 = 0 else o.params.sps % 2 = 0) := by
  have hS : C63.Standard o.params := by rw [ho]; exact ⟨⟨by decide, by decide⟩, Or.inl rfl, by decide⟩
  obtain ⟨r, hr⟩ := C63.C53_one_bit_partial o hS (by rw [ho]) (by rw [ho]; rfl) (.bytes [1, 2]) [1, 2] (by simp [C01.Denotes]) (by decide) (by decide)
  exact ⟨r, hr, by rw [ho]; decide⟩
example : peakSq 1 0 = 169 / 2 ∧ peakSq 4 2 = 49 / 4 := by unfold peakSq; norm_num [active, C91.pilots, datas, Ref.nfft]

end
end SunPhy.C105
