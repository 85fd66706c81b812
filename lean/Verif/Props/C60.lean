import Verif.Proofs.OqpskSignal
/-
C60 — MR-O-QPSK waveform: chips can be recovered from the samples.
C61 — I/Q offset (false: both components use the same instants).
C66 — sampling frequency and chip rate.
-/
namespace SunPhy.C60
open SunPhy Spec Complex

theorem dataRate_pos {sm rm : Int} {b : Band} {r : Nat} (h : dataRate sm b rm = .ok r) : 1 ≤ r := by
  unfold dataRate at h
  simp only at h
  cases b <;> simp only at h <;> split_ifs at h <;> first | (have := Except.ok.inj h; omega) | cases h

/-- **C60 (waveform).**  For an even number of chips, `sps ≥ 1` samples per symbol and a configured rate `r`: sample `sps·m + j` is the
`m`-th chip pair (first chip real, second imaginary, chip 1 ↦ +1, chip 0 ↦ −1) times sample `j` of the pulse; `sps − 1` zeros follow;
the sampling frequency returned is `r·sps`. -/
theorem C60_waveform (p : OqpskParams) (chips : Bits) (hne : chips ≠ []) (he : chips.length % 2 = 0) (sps : Nat) (hs : 1 ≤ sps) (r : Nat)
    (hr : dataRate p.sm p.band p.rm = .ok r) :
    ∃ iq, oqpskModulator p chips sps = .ok (iq, (r : ℚ) * sps) ∧ iq.length = chips.length / 2 * sps + sps - 1 ∧
      (∀ m j, m < chips.length / 2 → j < sps → iq[sps * m + j]? =
        some ((chipValue (chips.getD (2 * m) false) + I * chipValue (chips.getD (2 * m + 1) false)) * (pulseSample p.band sps j : ℂ))) ∧
      ∀ n, chips.length / 2 * sps ≤ n → n < chips.length / 2 * sps + sps - 1 → iq[n]? = some 0 := by
  have hp := List.length_pos_of_ne_nil hne
  obtain ⟨out, ho, hl, hs1, hs2⟩ := convolve_eq (pairValue chips) (chips.length / 2) sps hs (by omega) (oqpskPulse p.band (1 / (r : ℝ)) sps) (pulse_length _ _ _)
  refine ⟨out, ?_, hl, ?_, hs2⟩
  · unfold oqpskModulator
    rw [hr, oqpskUpsample_eq chips he sps hs]
    simp only [bind, Except.bind, ho, pure, Except.pure]
  · intro m j hm hj
    rw [hs1 m j hm hj, List.getD_eq_getElem?_getD, pulse_eq p.band r (dataRate_pos hr) sps j hj]
    rfl

theorem sample_parts (a b : Bool) (g : ℝ) : ((chipValue a + I * chipValue b) * (g : ℂ)).re = (if a then 1 else -1) * g ∧
    ((chipValue a + I * chipValue b) * (g : ℂ)).im = (if b then 1 else -1) * g := by
  cases a <;> cases b <;> simp [chipValue]

/-- **C60 (demodulation).**  Where the pulse sample `j` is not zero, the chips are the signs of the real and imaginary parts relative to
the pulse. -/
theorem C60_demodulate (p : OqpskParams) (chips : Bits) (he : chips.length % 2 = 0) (sps : Nat) (hs : 1 ≤ sps) (iq : List ℂ) (fs : ℚ)
    (h : oqpskModulator p chips sps = .ok (iq, fs)) (j : Nat) (hj : j < sps) (hg : pulseSample p.band sps j ≠ 0) (m : Nat)
    (hm : m < chips.length / 2) :
    ∃ v, iq[sps * m + j]? = some v ∧ chips[2 * m]? = some (decide (0 < v.re * pulseSample p.band sps j)) ∧
      chips[2 * m + 1]? = some (decide (0 < v.im * pulseSample p.band sps j)) := by
  cases hr : dataRate p.sm p.band p.rm with
  | error e => unfold oqpskModulator at h; rw [hr] at h; simp only [bind, Except.bind] at h; cases h
  | ok r =>
    obtain ⟨iq', h', -, hsam, -⟩ := C60_waveform p chips (by intro e; subst e; simp at hm) he sps hs r hr
    rw [h] at h'
    have e := Except.ok.inj h'
    simp only [Prod.mk.injEq] at e
    obtain ⟨rfl, -⟩ := e
    refine ⟨_, hsam m j hm hj, ?_, ?_⟩
    · rw [(sample_parts _ _ _).1, List.getElem?_eq_getElem (by omega), List.getD_eq_getElem?_getD, List.getElem?_eq_getElem (by omega)]
      congr 1
      generalize chips[2 * m] = c
      have hpos := mul_self_pos.2 hg
      cases c
      · simp [hpos.le, mul_assoc]
      · simp [hpos]
    · rw [(sample_parts _ _ _).2, List.getElem?_eq_getElem (by omega), List.getD_eq_getElem?_getD (i := 2 * m + 1),
        List.getElem?_eq_getElem (l := chips) (i := 2 * m + 1) (by omega)]
      congr 1
      generalize chips[2 * m + 1] = c
      have hpos := mul_self_pos.2 hg
      cases c
      · simp [hpos.le, mul_assoc]
      · simp [hpos]

/-- **C60 (injective).**  If the pulse has a non-zero sample, different chip sequences give different signals. -/
theorem C60_injective (p : OqpskParams) (c c' : Bits) (he : c.length % 2 = 0) (he' : c'.length % 2 = 0) (sps : Nat) (hs : 1 ≤ sps) (iq : List ℂ)
    (fs fs' : ℚ) (h : oqpskModulator p c sps = .ok (iq, fs)) (h' : oqpskModulator p c' sps = .ok (iq, fs'))
    (hg : ∃ j < sps, pulseSample p.band sps j ≠ 0) : c = c' := by
  obtain ⟨j, hj, hg⟩ := hg
  have len : ∀ (c : Bits) (fs : ℚ), c.length % 2 = 0 → oqpskModulator p c sps = .ok (iq, fs) → iq.length = c.length / 2 * sps + sps - 1 ∧ 1 ≤ c.length := by
    intro c fs he h
    cases hr : dataRate p.sm p.band p.rm with
    | error e => unfold oqpskModulator at h; rw [hr] at h; simp only [bind, Except.bind] at h; cases h
    | ok r =>
      have hne : c ≠ [] := by
        rintro rfl
        unfold oqpskModulator at h
        rw [hr, oqpskUpsample_eq [] he sps hs] at h
        simp only [bind, Except.bind] at h
        unfold convolveC at h
        rw [if_pos (.inl (by simp))] at h
        cases h
      obtain ⟨iq', h', hl, -⟩ := C60_waveform p c hne he sps hs r hr
      rw [h] at h'
      have e := Except.ok.inj h'
      simp only [Prod.mk.injEq] at e
      rw [e.1]
      exact ⟨hl, List.length_pos_of_ne_nil hne⟩
  obtain ⟨l1, p1⟩ := len c fs he h
  obtain ⟨l2, p2⟩ := len c' fs' he' h'
  have hK : c.length / 2 = c'.length / 2 := Nat.eq_of_mul_eq_mul_right (show 0 < sps by omega) (by omega)
  apply List.ext_getElem?
  intro i
  by_cases hi : i < c.length
  · obtain ⟨v, e1, e2, e3⟩ := C60_demodulate p c he sps hs iq fs h j hj hg (i / 2) (by omega)
    obtain ⟨v', e1', e2', e3'⟩ := C60_demodulate p c' he' sps hs iq fs' h' j hj hg (i / 2) (by omega)
    rw [e1] at e1'
    obtain rfl := Option.some.inj e1'
    rcases Nat.mod_two_eq_zero_or_one i with hm | hm
    · rw [show i = 2 * (i / 2) by omega, e2, e2']
    · rw [show i = 2 * (i / 2) + 1 by omega, e3, e3']
  · rw [List.getElem?_eq_none (by omega), List.getElem?_eq_none (by omega)]

/-- **C61 (refutation).**  In offset modulation, the quadrature component is the waveform the same chips would give in phase, delayed by
a positive number `d` of samples.  Whatever `d ≥ 1`, that is not the case here: at the first sample where the pulse is not zero the
quadrature component is not zero, while the delayed waveform has not started. -/
theorem C61_false (p : OqpskParams) (sps : Nat) (hs : 1 ≤ sps) (hg : ∃ j < sps, pulseSample p.band sps j ≠ 0) (r : Nat)
    (hr : dataRate p.sm p.band p.rm = .ok r) (chips : Bits) (hne : chips ≠ []) (he : chips.length % 2 = 0) (d : Nat) (hd : 1 ≤ d) :
    ∃ iq, oqpskModulator p chips sps = .ok (iq, (r : ℚ) * sps) ∧
      ∃ n v, iq[n]? = some v ∧ v.im ≠ 0 ∧ (n < d ∨ ∃ w, iq[n - d]? = some w ∧ w.re = 0 ∧ w.im = 0) := by
  classical
  obtain ⟨iq, h, hl, hsam, -⟩ := C60_waveform p chips hne he sps hs r hr
  have hp := List.length_pos_of_ne_nil hne
  refine ⟨iq, h, ?_⟩
  have hg' : ∃ j, j < sps ∧ pulseSample p.band sps j ≠ 0 := hg
  obtain ⟨hj, hg0⟩ := Nat.find_spec hg'
  have hmin := fun k => Nat.find_min hg' (m := k)
  generalize Nat.find hg' = j at hj hg0 hmin
  have e := hsam 0 j (by omega) hj
  rw [Nat.mul_zero, Nat.zero_add] at e
  refine ⟨j, _, e, ?_, ?_⟩
  · rw [(sample_parts _ _ _).2]
    split <;> simpa using hg0
  · by_cases hjd : j < d
    · exact .inl hjd
    · right
      have hz : pulseSample p.band sps (j - d) = 0 := by
        by_contra hne
        exact hmin (j - d) (by omega) ⟨by omega, hne⟩
      have e' := hsam 0 (j - d) (by omega) (by omega)
      rw [Nat.mul_zero, Nat.zero_add] at e'
      refine ⟨_, e', ?_, ?_⟩
      · rw [(sample_parts _ _ _).1, hz, mul_zero]
      · rw [(sample_parts _ _ _).2, hz, mul_zero]

/-- **C61 (what holds).**  Real and imaginary parts are aligned: at every sample both are the same pulse sample times a chip sign. -/
theorem C61_aligned (p : OqpskParams) (chips : Bits) (hne : chips ≠ []) (he : chips.length % 2 = 0) (sps : Nat) (hs : 1 ≤ sps) (r : Nat)
    (hr : dataRate p.sm p.band p.rm = .ok r) :
    ∃ iq, oqpskModulator p chips sps = .ok (iq, (r : ℚ) * sps) ∧ ∀ v ∈ iq, v.im = v.re ∨ v.im = -v.re := by
  obtain ⟨iq, h, hl, hsam, hz⟩ := C60_waveform p chips hne he sps hs r hr
  refine ⟨iq, h, fun v hv => ?_⟩
  obtain ⟨n, hn⟩ := List.mem_iff_getElem?.1 hv
  obtain ⟨hlt, -⟩ := List.getElem?_eq_some_iff.1 hn
  by_cases hc : n < chips.length / 2 * sps
  · have e := hsam (n / sps) (n % sps) (Nat.div_lt_of_lt_mul (by rw [Nat.mul_comm]; exact hc)) (Nat.mod_lt _ (by omega))
    rw [Nat.div_add_mod, hn] at e
    rw [Option.some.inj e, (sample_parts _ _ _).1, (sample_parts _ _ _).2]
    generalize chips.getD (2 * (n / sps)) false = a
    generalize chips.getD (2 * (n / sps) + 1) false = b
    cases a <;> cases b <;> simp
  · rw [hz n (by omega) (by omega)] at hn
    rw [← Option.some.inj hn]; simp

/-- Chip rate of each band (chips per second), from the standard. -/
def chipRate : Band → Nat
  | .b470 | .b868 | .b920 | .b950 => 100000
  | .b780 | .b915 | .b917 => 1000000
  | .b2450 => 2000000

/-- The sampling frequency returned is the entry of the data rate table times the samples per symbol. -/
theorem fs_eq (p : OqpskParams) (r : Nat) (hr : dataRate p.sm p.band p.rm = .ok r) (chips : Bits) (sps : Nat) (iq : List ℂ) (fs : ℚ)
    (h : oqpskModulator p chips sps = .ok (iq, fs)) : fs = (r : ℚ) * sps := by
  unfold oqpskModulator at h
  rw [hr] at h
  simp only [bind, Except.bind] at h
  split at h
  · cases h
  · split at h
    · cases h
    · simp only [pure, Except.pure] at h
      have := Except.ok.inj h
      simp only [Prod.mk.injEq] at this
      exact this.2.symm

/-- **C66 (exact).**  A chip pair (`sps` samples) lasts two chip periods of the band, i.e. `sps / fs = 2 / chipRate`, exactly for rate mode 3
outside the 2450 MHz band. -/
theorem C66_exact_partial (p : OqpskParams) (chips : Bits) (sps : Nat) (hs : 1 ≤ sps) (iq : List ℂ) (fs : ℚ)
    (h : oqpskModulator p chips sps = .ok (iq, fs)) :
    fs = (chipRate p.band : ℚ) * sps / 2 ↔ p.rm = 3 ∧ p.band ≠ .b2450 := by
  cases hr : dataRate p.sm p.band p.rm with
  | error e => unfold oqpskModulator at h; rw [hr] at h; cases h
  | ok r =>
    rw [fs_eq p r hr chips sps iq fs h]
    have h2 : (0 : ℚ) < sps := by exact_mod_cast hs
    have key : (r : ℚ) * sps = (chipRate p.band : ℚ) * sps / 2 ↔ 2 * r = chipRate p.band := by
      constructor
      · intro e
        have : ((2 * r : ℕ) : ℚ) = (chipRate p.band : ℚ) := by
          push_cast
          apply mul_right_cancel₀ h2.ne'
          linarith
        exact_mod_cast this
      · intro e
        rw [← e]; push_cast; ring
    rw [key]
    unfold dataRate at hr
    simp only at hr
    generalize p.band = b at hr
    cases b <;> simp only at hr <;> split_ifs at hr <;>
      first
      | (have := Except.ok.inj hr; subst this; simp only [chipRate, *]; decide)
      | (cases hr; done)

/-- **C66 (refutation).**  In rate mode 0 the claim fails for every band and spreading mode. -/
theorem C66_false (p : OqpskParams) (h0 : p.rm = 0) (chips : Bits) (sps : Nat) (hs : 1 ≤ sps) (iq : List ℂ) (fs : ℚ)
    (h : oqpskModulator p chips sps = .ok (iq, fs)) : fs ≠ (chipRate p.band : ℚ) * sps / 2 := by
  intro e
  have := (C66_exact_partial p chips sps hs iq fs h).1 e
  omega

/-- A configuration and chips that meet the hypotheses. -/
example : dataRate 0 .b2450 3 = .ok 500000 ∧ ([true, false] : Bits).length % 2 = 0 := by decide

end SunPhy.C60
