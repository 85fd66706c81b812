import Verif.Spec.Spectrum
import Verif.Proofs.OfdmWindow
import Verif.Props.C120
import Verif.Props.C105
import Verif.Props.C28
/-
C132 — which frequencies an MR-OFDM frame occupies.
-/
namespace SunPhy.C132
open SunPhy Spec Complex
noncomputable section

theorem tone_sum (N : Nat) (he : N % 2 = 0) (hN : 0 < N) (i : Nat) (hi : i < N) (t : Int) (h1 : -((N / 2 : Nat) : Int) ≤ t) (h2 : t < ((N / 2 : Nat) : Int)) (τ : Int) :
    ∑ k ∈ Finset.range N, exp (2 * Real.pi * I * (((i : Int) - ((N / 2 : Nat) : Int) : Int) : ℂ) * ((τ + k : Int) : ℂ) / N) * exp (-(2 * Real.pi * I * t * k / N)) =
      if (i : Int) - ((N / 2 : Nat) : Int) = t then (N : ℂ) * exp (2 * Real.pi * I * t * τ / N) else 0 := by
  obtain ⟨j, hj⟩ : ∃ j : Nat, t = (j : Int) - ((N / 2 : Nat) : Int) := ⟨(t + ((N / 2 : Nat) : Int)).toNat, by omega⟩
  have hjN : j < N := by omega
  have e : ∀ k ∈ Finset.range N, exp (2 * Real.pi * I * (((i : Int) - ((N / 2 : Nat) : Int) : Int) : ℂ) * ((τ + k : Int) : ℂ) / N) * exp (-(2 * Real.pi * I * t * k / N)) =
      exp (2 * Real.pi * I * (((i : Int) - ((N / 2 : Nat) : Int) : Int) : ℂ) * (τ : ℂ) / N) * (exp (2 * Real.pi * I * i * k / N) * exp (-(2 * Real.pi * I * j * k / N))) := by
    intro k _
    rw [← exp_add, ← exp_add, ← exp_add]
    congr 1
    rw [hj]
    push_cast
    ring
  rw [Finset.sum_congr rfl e, ← Finset.mul_sum, orthogonality hjN hi]
  by_cases h : i = j
  · rw [if_pos h, if_pos (by omega)]
    rw [show (i : Int) - ((N / 2 : Nat) : Int) = t by omega]
    ring
  · rw [if_neg h, if_neg (by omega), mul_zero]

/-- A window that shows `c` times the wave with tones `X`, starting at time `τ`. -/
theorem spectrum_wave (N : Nat) (he : N % 2 = 0) (hN : 0 < N) (iq : List ℂ) (w : Nat) (c : ℂ) (X : Int → ℂ) (τ : Int)
    (h : ∀ k < N, iq.getD (w + k) 0 = c * Ref.wave N X (τ + k)) (t : Int) (h1 : -((N / 2 : Nat) : Int) ≤ t) (h2 : t < ((N / 2 : Nat) : Int)) :
    Sa.spectrum N iq w t = c * X t * (Real.sqrt N : ℂ) * exp (2 * Real.pi * I * t * τ / N) := by
  unfold Sa.spectrum
  have e : ∀ k ∈ Finset.range N, iq.getD (w + k) 0 * exp (-(2 * Real.pi * I * t * k / N)) =
      ∑ i ∈ Finset.range N, c * X ((i : Int) - ((N / 2 : Nat) : Int)) / (Real.sqrt N : ℂ) *
        (exp (2 * Real.pi * I * (((i : Int) - ((N / 2 : Nat) : Int) : Int) : ℂ) * ((τ + k : Int) : ℂ) / N) * exp (-(2 * Real.pi * I * t * k / N))) := by
    intro k hk
    rw [h k (Finset.mem_range.1 hk)]
    unfold Ref.wave
    rw [mul_div_assoc', Finset.mul_sum, Finset.sum_div, Finset.sum_mul]
    refine Finset.sum_congr rfl fun i _ => ?_
    ring
  rw [Finset.sum_congr rfl e, Finset.sum_comm]
  have e2 : ∀ i ∈ Finset.range N, (∑ k ∈ Finset.range N, c * X ((i : Int) - ((N / 2 : Nat) : Int)) / (Real.sqrt N : ℂ) *
        (exp (2 * Real.pi * I * (((i : Int) - ((N / 2 : Nat) : Int) : Int) : ℂ) * ((τ + k : Int) : ℂ) / N) * exp (-(2 * Real.pi * I * t * k / N)))) =
      if i = (t + ((N / 2 : Nat) : Int)).toNat then c * X t * (Real.sqrt N : ℂ) * exp (2 * Real.pi * I * t * τ / N) else 0 := by
    intro i hi
    rw [← Finset.mul_sum, tone_sum N he hN i (Finset.mem_range.1 hi) t h1 h2 τ]
    by_cases hit : (i : Int) - ((N / 2 : Nat) : Int) = t
    · rw [if_pos hit, if_pos (by omega), hit]
      have hs := sqrt_sq N
      have hs0 : (Real.sqrt N : ℂ) ≠ 0 := by
        intro e0
        rw [e0, mul_zero] at hs
        exact absurd hs.symm (by exact_mod_cast (by omega : N ≠ 0))
      rw [← hs]
      field_simp
    · rw [if_neg hit, if_neg (by omega), mul_zero]
  rw [Finset.sum_congr rfl e2, Finset.sum_ite_eq' (Finset.range N), if_pos (Finset.mem_range.2 (by omega))]

theorem spectrum_norm (N : Nat) (he : N % 2 = 0) (hN : 0 < N) (iq : List ℂ) (w : Nat) (c : ℂ) (X : Int → ℂ) (τ : Int)
    (h : ∀ k < N, iq.getD (w + k) 0 = c * Ref.wave N X (τ + k)) (t : Int) (h1 : -((N / 2 : Nat) : Int) ≤ t) (h2 : t < ((N / 2 : Nat) : Int)) :
    ‖Sa.spectrum N iq w t‖ ^ 2 = ‖c‖ ^ 2 * ‖X t‖ ^ 2 * N := by
  rw [spectrum_wave N he hN iq w c X τ h t h1 h2]
  have : ‖exp (2 * Real.pi * I * t * τ / N)‖ = 1 := by
    rw [show (2 * (Real.pi : ℂ) * I * t * τ / N) = ((2 * Real.pi * t * τ / N : ℝ) : ℂ) * I by push_cast; ring]
    exact Complex.norm_exp_ofReal_mul_I _
  rw [norm_mul, norm_mul, norm_mul, this, mul_one, Complex.norm_real, Real.norm_eq_abs, mul_pow, mul_pow, sq_abs, Real.sq_sqrt (by positivity)]

theorem inUse_iff (opt : Nat) (ho : opt ∈ [1, 2, 3, 4]) (t : Int) (h1 : -((Ref.nfft opt / 2 : Nat) : Int) ≤ t) (h2 : t < ((Ref.nfft opt / 2 : Nat) : Int)) :
    C91.unused opt t ↔ ¬ Sa.InUse opt t := by
  unfold C91.unused Sa.InUse isGuard
  simp only [List.mem_cons, List.not_mem_nil, or_false] at ho
  rcases ho with rfl | rfl | rfl | rfl <;> simp only [Ref.nfft, Ref.guardLow, Ref.guardHigh, Sa.edge] at * <;> omega

theorem toneValue_norm {p : OfdmParams} (h : Supported p) (m : Bits) (n : Nat) (t : Int) (ht : ¬ C91.unused p.option t) :
    1 / 5 ≤ ‖Ref.toneValue p m n t‖ ^ 2 ∧ ‖Ref.toneValue p m n t‖ ^ 2 ≤ 9 / 5 ∧ (n < Ref.headerCount p ∨ p.mcs ≤ 4 → ‖Ref.toneValue p m n t‖ ^ 2 = 1) := by
  obtain ⟨hm, ho, hh⟩ := C91.mcs_le h
  unfold Ref.toneValue
  simp only
  unfold C91.unused at ht
  rw [if_neg ht]
  split
  · rw [C91.sign_norm]; norm_num
  · split
    · have := C91.data_bounds p.option (Ref.headerMcs p.option) (by omega) (Ref.headerStream p (m.length / 8)) n
        ((dataToneList (Ref.nfft p.option) (Ref.guardLow p.option) (Ref.guardHigh p.option) (Ref.pilotTones p.option n)).idxOf t)
      unfold C91.lo C91.hi at this
      rw [if_pos (by omega), if_pos (by omega)] at this
      have e := le_antisymm this.2 this.1
      rw [e]; norm_num
    · rename_i hn
      have := C91.data_bounds p.option p.mcs hm (Ref.payloadStream p m) (n - Ref.headerCount p)
        ((dataToneList (Ref.nfft p.option) (Ref.guardLow p.option) (Ref.guardHigh p.option) (Ref.pilotTones p.option n)).idxOf t)
      unfold C91.lo C91.hi at this
      by_cases h4 : p.mcs ≤ 4
      · rw [if_pos h4, if_pos h4] at this
        have e := le_antisymm this.2 this.1
        rw [e]; norm_num
      · rw [if_neg h4, if_neg h4] at this
        exact ⟨this.1, this.2, fun hc => absurd hc (by omega)⟩

theorem frame_of (o : OfdmObj) (h : Supported o.params) (a : Arg) (m : Bits) (ha : checkBinaryArray a = .ok m) (iq : List ℂ) (fs : ℚ)
    (hr : ((ofdmModBitsToIQ a).call o).1 = .ok (iq, fs)) : iq = Ref.frame o.params m := by
  have k := (C15.C15_bitsToIQ o h a m ha).1.1 ⟨_, hr⟩
  obtain ⟨_, e, -⟩ := C67.C67_reference o h a m ha k.1 k.2
  rw [e] at hr
  exact (congrArg Prod.fst (Except.ok.inj hr)).symm

/-- **C132 (header and payload).**  In any window of `N` samples inside header or payload symbol `n` (prefix included, so the window may start anywhere in the prefix) the middle tone and the guard
tones carry nothing; every other tone carries a power between 1/5 and 9/5 of the mean, exactly the mean for header symbols and for MCS 0 to 4. -/
theorem C132_symbols (o : OfdmObj) (h : Supported o.params) (a : Arg) (m : Bits) (ha : checkBinaryArray a = .ok m) (iq : List ℂ) (fs : ℚ)
    (hr : ((ofdmModBitsToIQ a).call o).1 = .ok (iq, fs)) (n : Nat) (hn : n < Ref.symbolCount o.params m.length) (w : Nat)
    (hw1 : 15 * Sa.size o.params.option / 2 + n * (5 * Sa.size o.params.option / 4) ≤ w)
    (hw2 : w ≤ 15 * Sa.size o.params.option / 2 + n * (5 * Sa.size o.params.option / 4) + Sa.size o.params.option / 4) (t : Int)
    (h1 : -((Sa.size o.params.option / 2 : Nat) : Int) ≤ t) (h2 : t < ((Sa.size o.params.option / 2 : Nat) : Int)) :
    let N := Sa.size o.params.option
    let P := ‖Sa.spectrum N iq w t‖ ^ 2
    (¬ Sa.InUse o.params.option t → P = 0) ∧
    (Sa.InUse o.params.option t → (N : ℝ) / 5 ≤ P ∧ P ≤ 9 * N / 5 ∧ (n < Ref.headerCount o.params ∨ o.params.mcs ≤ 4 → P = N)) := by
  obtain ⟨hm, ho, hh⟩ := C91.mcs_le h
  obtain ⟨h8, hN⟩ := C91.nfft_facts _ ho
  have es : Sa.size o.params.option = Ref.nfft o.params.option := rfl
  rw [es] at hw1 hw2 h1 h2 ⊢
  have hiq := frame_of o h a m ha iq fs hr
  obtain ⟨d, rfl⟩ : ∃ d, w = 5 * Ref.nfft o.params.option + 5 * Ref.nfft o.params.option / 2 + (n * (5 * Ref.nfft o.params.option / 4) + d) :=
    ⟨w - (15 * Ref.nfft o.params.option / 2 + n * (5 * Ref.nfft o.params.option / 4)), by omega⟩
  have key := spectrum_norm (Ref.nfft o.params.option) (by omega) hN iq (5 * Ref.nfft o.params.option + 5 * Ref.nfft o.params.option / 2 + (n * (5 * Ref.nfft o.params.option / 4) + d)) 1 (Ref.toneValue o.params m n) ((d : Int) - ((Ref.nfft o.params.option / 4 : Nat) : Int))
    (fun k hk => by
      rw [hiq, Nat.add_assoc, Nat.add_assoc (n * _), C120.frame_symbol o.params m n hn (d + k) (by omega), one_mul]
      congr 1
      push_cast
      ring) t h1 h2
  have hiff := inUse_iff o.params.option ho t h1 h2
  have hN' : (0 : ℝ) < Ref.nfft o.params.option := by exact_mod_cast hN
  intro N P
  change P = _ at key
  rw [norm_one, one_pow, one_mul] at key
  constructor
  · intro hu
    rw [key, C105.unused_zero o.params m n t (not_not.2 (hiff.2 hu))]
    simp
  · intro hu
    have := toneValue_norm h m n t (fun hc => hiff.1 hc hu)
    rw [key]
    refine ⟨?_, ?_, fun hc => ?_⟩
    · nlinarith [this.1]
    · nlinarith [this.2.1]
    · rw [this.2.2 hc, one_mul]

/-- **C132 (long training field).**  In any window of `N` samples inside the long training field exactly the tones in use carry power, all of them the same. -/
theorem C132_long (o : OfdmObj) (h : Supported o.params) (a : Arg) (m : Bits) (ha : checkBinaryArray a = .ok m) (iq : List ℂ) (fs : ℚ)
    (hr : ((ofdmModBitsToIQ a).call o).1 = .ok (iq, fs)) (w : Nat) (hw1 : 5 * Sa.size o.params.option ≤ w)
    (hw2 : w + Sa.size o.params.option ≤ 5 * Sa.size o.params.option + 5 * Sa.size o.params.option / 2) (t : Int)
    (h1 : -((Sa.size o.params.option / 2 : Nat) : Int) ≤ t) (h2 : t < ((Sa.size o.params.option / 2 : Nat) : Int)) :
    let N := Sa.size o.params.option
    let P := ‖Sa.spectrum N iq w t‖ ^ 2
    (¬ Sa.InUse o.params.option t → P = 0) ∧ (Sa.InUse o.params.option t → P = N) := by
  obtain ⟨hm, ho, hh⟩ := C91.mcs_le h
  obtain ⟨h8, hN⟩ := C91.nfft_facts _ ho
  have es : Sa.size o.params.option = Ref.nfft o.params.option := rfl
  rw [es] at hw1 hw2 h1 h2 ⊢
  have hiq := frame_of o h a m ha iq fs hr
  obtain ⟨d, rfl⟩ : ∃ d, w = 5 * Ref.nfft o.params.option + d := ⟨w - 5 * Ref.nfft o.params.option, by omega⟩
  have key := spectrum_norm (Ref.nfft o.params.option) (by omega) hN iq (5 * Ref.nfft o.params.option + d) 1 (Ref.ltfTone o.params.option) ((d : Int) - ((Ref.nfft o.params.option / 2 : Nat) : Int))
    (fun k hk => by
      rw [hiq, Nat.add_assoc, C120.frame_ltf o.params m (d + k) (by omega), one_mul]
      congr 1
      push_cast
      ring) t h1 h2
  have hiff := inUse_iff o.params.option ho t h1 h2
  unfold C91.unused at hiff
  intro N P
  change P = _ at key
  rw [norm_one, one_pow, one_mul] at key
  unfold Ref.ltfTone at key
  constructor
  · intro hu
    rw [if_pos (hiff.2 hu)] at key
    rw [key]; simp
  · intro hu
    rw [if_neg (fun hc => hiff.1 hc hu)] at key
    rw [key]
    split <;> simp <;> rfl

theorem short_norm (opt : Nat) (ho : opt ∈ [1, 2, 3, 4]) (t : Int) : (¬ Sa.Short opt t → Ref.stfTone opt t = 0) ∧ (Sa.Short opt t → ‖Ref.stfTone opt t‖ ^ 2 = Sa.shortPower opt) := by
  simp only [List.mem_cons, List.not_mem_nil, or_false] at ho
  rcases ho with rfl | rfl | rfl | rfl
  · simp only [Sa.Short, Ref.stfTone, Sa.shortPower]
    exact ⟨fun h => if_neg h, fun h => by rw [if_pos h]; exact C91.sqrt_sq (by norm_num)⟩
  · simp only [Sa.Short, Ref.stfTone, Sa.shortPower]
    constructor
    · intro h
      rw [if_neg (fun hc => h (by revert hc; clear h; simp only [List.mem_cons, List.not_mem_nil, or_false]; omega)),
        if_neg (fun hc => h (by revert hc; clear h; simp only [List.mem_cons, List.not_mem_nil, or_false]; omega))]
    · intro h
      by_cases h7 : t ∈ ([-12, -8, -4, 4, 12, 16, 24] : List Int)
      · rw [if_pos h7]; exact C91.sqrt_sq (by norm_num)
      · rw [if_neg h7, if_pos (by simp only [List.mem_cons, List.not_mem_nil, or_false] at h7 ⊢; omega), norm_neg]
        exact C91.sqrt_sq (by norm_num)
  · simp only [Sa.Short, Ref.stfTone, Sa.shortPower]
    exact ⟨fun h => if_neg h, fun h => by rw [if_pos h]; exact C91.sqrt_sq (by norm_num)⟩
  · simp only [Sa.Short, Ref.stfTone, Sa.shortPower]
    exact ⟨fun h => if_neg h, fun h => by rw [if_pos h]; exact C91.sqrt_sq (by norm_num)⟩

/-- **C132 (short training field).**  In any window of `N` samples inside one of the first three short training symbols exactly the tones of `Sa.Short` carry power. -/
theorem C132_short (o : OfdmObj) (h : Supported o.params) (a : Arg) (m : Bits) (ha : checkBinaryArray a = .ok m) (iq : List ℂ) (fs : ℚ)
    (hr : ((ofdmModBitsToIQ a).call o).1 = .ok (iq, fs)) (j w : Nat) (hj : j < 3) (hw1 : j * (5 * Sa.size o.params.option / 4) ≤ w)
    (hw2 : w ≤ j * (5 * Sa.size o.params.option / 4) + Sa.size o.params.option / 4) (t : Int)
    (h1 : -((Sa.size o.params.option / 2 : Nat) : Int) ≤ t) (h2 : t < ((Sa.size o.params.option / 2 : Nat) : Int)) :
    let N := Sa.size o.params.option
    let P := ‖Sa.spectrum N iq w t‖ ^ 2
    (¬ Sa.Short o.params.option t → P = 0) ∧ (Sa.Short o.params.option t → P = 25 / 16 * Sa.shortPower o.params.option * N) := by
  obtain ⟨hm, ho, hh⟩ := C91.mcs_le h
  obtain ⟨h8, hN⟩ := C91.nfft_facts _ ho
  have es : Sa.size o.params.option = Ref.nfft o.params.option := rfl
  rw [es] at hw1 hw2 h1 h2 ⊢
  have hiq := frame_of o h a m ha iq fs hr
  obtain ⟨d, rfl⟩ : ∃ d, w = j * (5 * Ref.nfft o.params.option / 4) + d := ⟨w - j * (5 * Ref.nfft o.params.option / 4), by omega⟩
  have hjj : j * (5 * Ref.nfft o.params.option / 4) ≤ 2 * (5 * Ref.nfft o.params.option / 4) := Nat.mul_le_mul_right _ (by omega)
  have key := spectrum_norm (Ref.nfft o.params.option) (by omega) hN iq (j * (5 * Ref.nfft o.params.option / 4) + d) (5 / 4) (Ref.stfTone o.params.option) ((d : Int) - ((Ref.nfft o.params.option / 4 : Nat) : Int))
    (fun k hk => by
      rw [hiq, SunPhy.OfdmWindow.frame_stf o.params m _ (by omega), if_neg (by omega), mul_one, Nat.add_assoc, Nat.mul_add_mod', Nat.mod_eq_of_lt (by omega)]
      congr 2
      push_cast
      ring) t h1 h2
  intro N P
  change P = _ at key
  rw [show ‖(5 / 4 : ℂ)‖ ^ 2 = 25 / 16 by norm_num] at key
  constructor
  · intro hu
    rw [key, (short_norm _ ho t).1 hu]; simp
  · intro hu
    rw [key, (short_norm _ ho t).2 hu]

/-- **C132 (no direct current).**  The mean of the samples is zero in every such window. -/
theorem C132_mean (o : OfdmObj) (h : Supported o.params) (a : Arg) (m : Bits) (ha : checkBinaryArray a = .ok m) (iq : List ℂ) (fs : ℚ)
    (hr : ((ofdmModBitsToIQ a).call o).1 = .ok (iq, fs)) (w : Nat)
    (hw : (∃ j < 3, j * (5 * Sa.size o.params.option / 4) ≤ w ∧ w ≤ j * (5 * Sa.size o.params.option / 4) + Sa.size o.params.option / 4) ∨
      (5 * Sa.size o.params.option ≤ w ∧ w + Sa.size o.params.option ≤ 5 * Sa.size o.params.option + 5 * Sa.size o.params.option / 2) ∨
      ∃ n < Ref.symbolCount o.params m.length, 15 * Sa.size o.params.option / 2 + n * (5 * Sa.size o.params.option / 4) ≤ w ∧
        w ≤ 15 * Sa.size o.params.option / 2 + n * (5 * Sa.size o.params.option / 4) + Sa.size o.params.option / 4) :
    ∑ k ∈ Finset.range (Sa.size o.params.option), iq.getD (w + k) 0 = 0 := by
  have hpos : 2 ≤ Sa.size o.params.option := by unfold Sa.size; split <;> decide
  have e : Sa.spectrum (Sa.size o.params.option) iq w 0 = ∑ k ∈ Finset.range (Sa.size o.params.option), iq.getD (w + k) 0 := by
    unfold Sa.spectrum
    refine Finset.sum_congr rfl fun k _ => ?_
    simp
  have hz : ‖Sa.spectrum (Sa.size o.params.option) iq w 0‖ ^ 2 = 0 := by
    have n0 : ¬ Sa.InUse o.params.option 0 := fun hc => hc.1 rfl
    rcases hw with ⟨j, hj, w1, w2⟩ | ⟨w1, w2⟩ | ⟨n, hn, w1, w2⟩
    · refine (C132_short o h a m ha iq fs hr j w hj w1 w2 0 (by omega) (by omega)).1 ?_
      unfold Sa.Short
      split <;> exact fun hc => hc.1 rfl
    · exact (C132_long o h a m ha iq fs hr w w1 w2 0 (by omega) (by omega)).1 n0
    · exact (C132_symbols o h a m ha iq fs hr n hn w w1 w2 0 (by omega) (by omega)).1 n0
  rw [← e]
  exact norm_eq_zero.1 (pow_eq_zero_iff (by decide) |>.1 hz)

/-! Non-vacuity: a frame with symbol 0 and a window that starts in the middle of its prefix; tones of both kinds exist. -/
example : let o : OfdmObj := { params := ⟨6, 3, 1, 2⟩ }
    ∃ a m iq fs, checkBinaryArray a = .ok m ∧ ((ofdmModBitsToIQ a).call o).1 = .ok (iq, fs) ∧ Supported o.params ∧ 0 < Ref.symbolCount o.params m.length ∧
      ‖Sa.spectrum 32 iq 244 14‖ ^ 2 = 0 ∧ ‖Sa.spectrum 32 iq 244 (-13)‖ ^ 2 = 32 := by
  intro o
  have hs : Supported o.params := ⟨by decide, by decide, by decide⟩
  have ha : checkBinaryArray (.list ⟨1, [1, 0, 1, 1, 0, 0, 1, 0]⟩) = .ok [true, false, true, true, false, false, true, false] := by rfl
  obtain ⟨iq, fs, o', e, -⟩ := C28.C28_size o hs _ _ ha (by decide) (by decide)
  have hr : ((ofdmModBitsToIQ (.list ⟨1, [1, 0, 1, 1, 0, 0, 1, 0]⟩)).call o).1 = .ok (iq, fs) := by rw [e]
  have hn : 0 < Ref.symbolCount o.params 8 := by decide +kernel
  refine ⟨_, _, iq, fs, ha, hr, hs, hn, ?_, ?_⟩
  · exact (C132_symbols o hs _ _ ha iq fs hr 0 hn 244 (by decide) (by decide) 14 (by decide) (by decide)).1 (by unfold Sa.InUse; decide)
  · have := (C132_symbols o hs _ _ ha iq fs hr 0 hn 244 (by decide) (by decide) (-13) (by decide) (by decide)).2 (by unfold Sa.InUse; decide)
    exact (this.2.2 (Or.inl (by decide +kernel))).trans (by norm_num [Sa.size, o])
example : Sa.InUse 4 (-7) ∧ ¬ Sa.InUse 4 (-8) ∧ ¬ Sa.InUse 1 53 ∧ Sa.Short 2 (-8) ∧ ¬ Sa.Short 2 2 := by
  unfold Sa.InUse Sa.Short Sa.edge; simp

end
end SunPhy.C132
