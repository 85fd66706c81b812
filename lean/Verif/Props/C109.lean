import Verif.Model.MrFskDouble
import Verif.Model.PolyFloat
import Verif.Props.C44
import Verif.Props.C101
import Mathlib.Analysis.Real.Pi.Bounds
import Mathlib.Analysis.SpecialFunctions.Trigonometric.Bounds
/-
C109: the samples of MR-FSK computed in double precision.
-/
namespace SunPhy.C109
open Complex SunPhy

/-- Unit round-off of IEEE 754 double precision. -/
noncomputable def u : ℝ := 1 / 2 ^ 53

/-- A correctly rounded arithmetic: relative error at most `2^-53`. -/
def Rounding (rn : Rat → Rat) : Prop := ∀ q : ℚ, |rn q - q| ≤ |q| / 2 ^ 53

/-- A library function for `exp(iθ)` with absolute error at most `η`. -/
def Exponential (cis : Rat → ℂ) (η : ℝ) : Prop := ∀ θ : ℚ, ‖cis θ - exp ((θ : ℂ) * I)‖ ≤ η

theorem rounding_double : Rounding float64 := by
  intro q
  unfold float64
  split
  · rename_i h
    have := C44.binary64_rounds (-q) (by linarith)
    rw [abs_of_neg h, show -binary64 (-q) - q = -(binary64 (-q) - -q) by ring, abs_neg]
    exact this
  · rename_i h
    rcases eq_or_lt_of_le (not_lt.mp h) with h0 | h0
    · subst h0; decide +kernel
    · rw [abs_of_pos h0]; exact C44.binary64_rounds q h0

theorem Rounding.rounds {rn : Rat → Rat} (h : Rounding rn) : C44.Rounds rn := fun q hq => by
  have := h q; rwa [abs_of_pos hq] at this

/-- `k` relative errors of size `u`. -/
def Rel (k : Nat) (x y : ℝ) : Prop := |x - y| ≤ ((1 + u) ^ k - 1) * |y|

theorem u_pos : 0 < u := by unfold u; positivity

theorem Rel.refl (y : ℝ) : Rel 0 y y := by unfold Rel; simp

theorem one_le_pow (k : Nat) : 1 ≤ (1 + u) ^ k := one_le_pow₀ (by have := u_pos; linarith)

theorem Rel.abs_le {k : Nat} {x y : ℝ} (h : Rel k x y) : |x| ≤ (1 + u) ^ k * |y| := by
  have : |x| ≤ |x - y| + |y| := by have := abs_add_le (x - y) y; rwa [sub_add_cancel] at this
  unfold Rel at h
  linarith

theorem Rel.mul {j k : Nat} {a b x y : ℝ} (h : Rel j a x) (h' : Rel k b y) : Rel (j + k) (a * b) (x * y) := by
  have e : a * b - x * y = a * (b - y) + (a - x) * y := by ring
  have h1 := h.abs_le
  unfold Rel at *
  rw [e, pow_add, abs_mul x y]
  have t := abs_add_le (a * (b - y)) ((a - x) * y)
  rw [abs_mul, abs_mul] at t
  have p1 : |a| * |b - y| ≤ ((1 + u) ^ j * |x|) * (((1 + u) ^ k - 1) * |y|) := mul_le_mul h1 h' (abs_nonneg _) (by have := one_le_pow j; positivity)
  have p2 : |a - x| * |y| ≤ (((1 + u) ^ j - 1) * |x|) * |y| := mul_le_mul_of_nonneg_right h (abs_nonneg _)
  nlinarith

theorem Rel.mono {j k : Nat} {x y : ℝ} (h : Rel j x y) (hjk : j ≤ k) : Rel k x y := by
  unfold Rel at *
  have : (1 + u) ^ j ≤ (1 + u) ^ k := pow_le_pow_right₀ (by have := u_pos; linarith) hjk
  exact h.trans (mul_le_mul_of_nonneg_right (by linarith) (abs_nonneg _))

theorem Rel.neg {k : Nat} {x y : ℝ} (h : Rel k x y) : Rel k (-x) (-y) := by
  unfold Rel at *
  rwa [abs_neg, show -x - -y = -(x - y) by ring, abs_neg]

theorem rn_real {rn : Rat → Rat} (hrn : Rounding rn) (q : ℚ) : |((rn q : ℚ) : ℝ) - (q : ℝ)| ≤ u * |(q : ℝ)| := by
  have h := hrn q
  have : ((|rn q - q| : ℚ) : ℝ) ≤ ((|q| / 2 ^ 53 : ℚ) : ℝ) := by exact_mod_cast h
  push_cast at this
  unfold u
  linarith

theorem Rel.rn {rn : Rat → Rat} (hrn : Rounding rn) {k : Nat} {q : ℚ} {y : ℝ} (h : Rel k (q : ℝ) y) : Rel (k + 1) ((rn q : ℚ) : ℝ) y := by
  have h1 := h.abs_le
  have h2 := rn_real hrn q
  unfold Rel at *
  have t := abs_add_le (((rn q : ℚ) : ℝ) - q) ((q : ℝ) - y)
  rw [sub_add_sub_cancel] at t
  have hu := u_pos
  have : u * |(q : ℝ)| ≤ u * ((1 + u) ^ k * |y|) := mul_le_mul_of_nonneg_left h1 hu.le
  rw [pow_succ]
  nlinarith

theorem pi_rel : Rel 1 ((npPi : ℚ) : ℝ) Real.pi := by
  have h1 := Real.pi_gt_d20
  have h2 := Real.pi_lt_d20
  unfold Rel u npPi
  rw [abs_of_pos Real.pi_pos, abs_le]
  push_cast
  constructor <;> norm_num at * <;> nlinarith

theorem pow_small : (1 + u) ^ 11 - 1 ≤ 12 * u := by
  unfold u
  norm_num

theorem delta_rel {rn : Rat → Rat} (hrn : Rounding rn) (ii : Bool) (p : FskParams) :
    Rel 3 ((fskDeltaF rn ii p : ℚ) : ℝ) ((p.symbolRate : ℝ) * p.modIndex / 2) := by
  unfold fskDeltaF
  cases ii with
  | true =>
    have : Rel 1 ((rn ((p.symbolRate : Rat) * p.modIndex / 2) : ℚ) : ℝ) ((p.symbolRate : ℝ) * p.modIndex / 2) := by
      apply Rel.rn hrn
      push_cast
      exact Rel.refl _
    exact this.mono (by omega)
  | false =>
    have a : Rel 1 ((rn (p.symbolRate : Rat) : ℚ) : ℝ) (p.symbolRate : ℝ) := by
      apply Rel.rn hrn; push_cast; exact Rel.refl _
    have b : Rel 2 ((rn (rn (p.symbolRate : Rat) * p.modIndex) : ℚ) : ℝ) ((p.symbolRate : ℝ) * p.modIndex) := by
      apply Rel.rn hrn; push_cast; exact a.mul (Rel.refl _)
    have c : Rel 3 ((rn (rn (rn (p.symbolRate : Rat) * p.modIndex) / 2) : ℚ) : ℝ) ((p.symbolRate : ℝ) * p.modIndex * (1 / 2)) := by
      apply Rel.rn hrn
      have := b.mul (Rel.refl (1 / 2))
      rw [mul_one_div] at this
      push_cast; exact this
    rw [mul_one_div] at c
    exact c

/-- Frequency of every symbol: five roundings. -/
theorem freq_rel {rn : Rat → Rat} (hrn : Rounding rn) (ii : Bool) (p : FskParams) (s : Bits) (hs : s.length = fskStepBits p.modulation) :
    ∃ f : ℚ, fskFreqF rn (fskFdevF rn ii p) p.modulation s = .ok f ∧
      Rel 5 (f : ℝ) ((fskDev p.modulation s : ℝ) * ((p.symbolRate : ℝ) * p.modIndex / 2)) := by
  have hd := delta_rel hrn ii p
  unfold fskFdevF
  cases hm : p.modulation with
  | FSK2 =>
    rw [hm] at hs
    match s, hs with
    | [true], _ => exact ⟨_, rfl, by simpa [fskDev, fskDeviation] using hd.mono (by omega)⟩
    | [false], _ => exact ⟨_, rfl, by simpa [fskDev, fskDeviation] using hd.neg.mono (by omega)⟩
  | FSK4 =>
    have h3 : Rel 4 ((rn (3 * fskDeltaF rn ii p) : ℚ) : ℝ) (3 * ((p.symbolRate : ℝ) * p.modIndex / 2)) := by
      apply Rel.rn hrn
      have := (Rel.refl 3).mul hd
      rw [Nat.zero_add] at this
      push_cast; exact this
    generalize rn (3 * fskDeltaF rn ii p) = F at h3
    have h1 : Rel 5 ((rn (F / 3) : ℚ) : ℝ) ((p.symbolRate : ℝ) * p.modIndex / 2) := by
      apply Rel.rn hrn
      have := h3.mul (Rel.refl (1 / 3))
      rw [mul_one_div, mul_one_div, mul_div_cancel_left₀ _ (by norm_num)] at this
      push_cast; exact this
    have h1' : Rel 5 ((rn (-F / 3) : ℚ) : ℝ) (-((p.symbolRate : ℝ) * p.modIndex / 2)) := by
      apply Rel.rn hrn
      have := h3.neg.mul (Rel.refl (1 / 3))
      rw [mul_one_div, mul_one_div, neg_div, neg_div, mul_div_cancel_left₀ _ (by norm_num), ← neg_div] at this
      push_cast; exact this
    rw [hm] at hs
    match s, hs with
    | [true, true], _ => exact ⟨_, rfl, by simpa [fskDev, fskDeviation] using h3.mono (by omega)⟩
    | [false, true], _ => exact ⟨_, rfl, by simpa [fskDev, fskDeviation] using h3.neg.mono (by omega)⟩
    | [true, false], _ => exact ⟨_, rfl, by simpa [fskDev, fskDeviation] using h1⟩
    | [false, false], _ => exact ⟨_, rfl, by simpa [fskDev, fskDeviation] using h1'⟩

theorem dt_rel {rn : Rat → Rat} (hrn : Rounding rn) (rate sps : Nat) : Rel 2 ((fskDt rn rate sps : ℚ) : ℝ) (1 / (rate : ℝ) * (1 / sps)) := by
  unfold fskDt
  have a : Rel 1 ((rn (1 / (rate : Rat)) : ℚ) : ℝ) (1 / (rate : ℝ)) := by apply Rel.rn hrn; push_cast; exact Rel.refl _
  apply Rel.rn hrn
  have := a.mul (Rel.refl (1 / (sps : ℝ)))
  rw [mul_one_div] at this
  push_cast; exact this

/-- Phase of a sample: eleven roundings. -/
theorem phase_rel {rn : Rat → Rat} (hrn : Rounding rn) (p : FskParams) (f : ℚ) (x : ℝ) (hf : Rel 5 (f : ℝ) x) (sps i : Nat) :
    Rel 11 ((fskPhaseF rn f (rn ((i : ℚ) * fskDt rn p.symbolRate sps)) : ℚ) : ℝ) (2 * Real.pi * x * (i * (1 / (p.symbolRate : ℝ) * (1 / sps)))) := by
  unfold fskPhaseF
  have a : Rel 7 ((rn (2 * npPi * f) : ℚ) : ℝ) (2 * Real.pi * x) := by
    apply Rel.rn hrn
    have := ((Rel.refl 2).mul pi_rel).mul hf
    push_cast; exact this
  have b : Rel 3 ((rn ((i : ℚ) * fskDt rn p.symbolRate sps) : ℚ) : ℝ) (i * (1 / (p.symbolRate : ℝ) * (1 / sps))) := by
    apply Rel.rn hrn
    have := (Rel.refl (i : ℝ)).mul (dt_rel hrn p.symbolRate sps)
    rw [Nat.zero_add] at this
    push_cast; exact this
  apply Rel.rn hrn
  push_cast
  exact a.mul b

theorem exp_lip (a b : ℝ) : ‖exp ((a : ℂ) * I) - exp ((b : ℂ) * I)‖ ≤ |a - b| := by
  have e : exp ((a : ℂ) * I) - exp ((b : ℂ) * I) = exp ((b : ℂ) * I) * (exp (I * ((a - b : ℝ) : ℂ)) - 1) := by
    rw [mul_sub, ← exp_add, mul_one]; congr 2; push_cast; ring
  rw [e, norm_mul, norm_exp_ofReal_mul_I, one_mul]
  exact Real.norm_exp_I_mul_ofReal_sub_one_le

/-- Frequency as a total function. -/
def freq (rn : Rat → Rat) (ii : Bool) (p : FskParams) (s : Bits) : ℚ := match fskFreqF rn (fskFdevF rn ii p) p.modulation s with | .ok f => f | .error _ => 0

theorem freq_ok {rn : Rat → Rat} (hrn : Rounding rn) (ii : Bool) (p : FskParams) (s : Bits) (hs : s.length = fskStepBits p.modulation) :
    fskFreqF rn (fskFdevF rn ii p) p.modulation s = .ok (freq rn ii p s) ∧
      Rel 5 ((freq rn ii p s : ℚ) : ℝ) ((fskDev p.modulation s : ℝ) * ((p.symbolRate : ℝ) * p.modIndex / 2)) := by
  obtain ⟨f, h1, h2⟩ := freq_rel hrn ii p s hs
  have : freq rn ii p s = f := by unfold freq; rw [h1]
  rw [this]
  exact ⟨h1, h2⟩

def freqs (rn : Rat → Rat) (ii : Bool) (p : FskParams) (b : Bits) : List ℚ := (chunks (fskStepBits p.modulation) b).map (freq rn ii p)

theorem freqs_length (rn : Rat → Rat) (ii : Bool) (p : FskParams) (b : Bits) : (freqs rn ii p b).length = (fskDevs p b).length := by
  simp [freqs, fskDevs]

/-- The floating-point modulator, reduced to the broadcast. -/
theorem modulatorF_eq {rn : Rat → Rat} (hrn : Rounding rn) (cis : Rat → ℂ) (ii : Bool) (p : FskParams) (b : Bits) (sps : Nat)
    (hm : b.length % fskStepBits p.modulation = 0) :
    fskModulatorF rn cis ii p b sps = (match bcast (fun (f t : ℚ) => cis (fskPhaseF rn f t)) ((freqs rn ii p b).flatMap fun x => List.replicate sps x)
        ((List.range (fskArangeLen rn p.symbolRate sps (sps * (fskDevs p b).length))).map fun (i : Nat) => rn ((i : ℚ) * fskDt rn p.symbolRate sps)) with
      | .ok iq => .ok (iq, rn (1 / fskDt rn p.symbolRate sps))
      | .error e => .error e) := by
  unfold fskModulatorF
  rw [fskSymbols_eq, if_pos hm]
  simp only [bind, Except.bind, pure, Except.pure]
  rw [mapM_eq_ok _ (freq rn ii p) _ (fun s hs => (freq_ok hrn ii p s (mem_chunks_length hs)).1)]
  simp only
  have hfl : (((chunks (fskStepBits p.modulation) b).map (freq rn ii p)).flatMap (fun x => List.replicate sps x)).length = sps * (fskDevs p b).length := by
    rw [repeat_length, ← freqs_length rn ii p b]; rfl
  rw [hfl]
  unfold freqs
  generalize bcast _ _ _ = r
  cases r <;> rfl

theorem modulatorF_odd (rn : Rat → Rat) (cis : Rat → ℂ) (ii : Bool) (p : FskParams) (b : Bits) (sps : Nat) (hm : b.length % fskStepBits p.modulation ≠ 0) :
    fskModulatorF rn cis ii p b sps = .error .ValueError := by
  unfold fskModulatorF
  rw [fskSymbols_eq, if_neg hm]; rfl

theorem freqs_get (rn : Rat → Rat) (ii : Bool) (p : FskParams) (b : Bits) (k : Nat) (hk : k < (fskDevs p b).length) :
    ∃ s : Bits, s.length = fskStepBits p.modulation ∧ (freqs rn ii p b)[k]? = some (freq rn ii p s) ∧ (fskDevs p b).getD k 0 = fskDev p.modulation s := by
  have hk' : k < (chunks (fskStepBits p.modulation) b).length := by simpa [fskDevs] using hk
  refine ⟨(chunks (fskStepBits p.modulation) b)[k], mem_chunks_length (List.getElem_mem _), ?_, ?_⟩
  · simp [freqs, hk']
  · simp [fskDevs, List.getD_eq_getElem?_getD, hk']

/-- Exact phase of sample `i`. -/
noncomputable def phase (p : FskParams) (b : Bits) (sps i : Nat) : ℝ :=
  2 * Real.pi * (((fskDevs p b).getD (i / sps) 0 : ℝ) * ((p.symbolRate : ℝ) * p.modIndex / 2)) * (i * (1 / (p.symbolRate : ℝ) * (1 / sps)))

theorem modulatorF_ok {rn : Rat → Rat} (hrn : Rounding rn) (cis : Rat → ℂ) (ii : Bool) (p : FskParams) (b : Bits) (sps : Nat) (hs : 0 < sps)
    (hm : b.length % fskStepBits p.modulation = 0)
    (hl : fskArangeLen rn p.symbolRate sps (sps * (fskDevs p b).length) = sps * (fskDevs p b).length) :
    ∃ iq, fskModulatorF rn cis ii p b sps = .ok (iq, rn (1 / fskDt rn p.symbolRate sps)) ∧ iq.length = sps * (fskDevs p b).length ∧
      ∀ i, i < sps * (fskDevs p b).length → ∃ θ : ℚ, iq[i]? = some (cis θ) ∧ Rel 11 (θ : ℝ) (phase p b sps i) := by
  have hlen : ((freqs rn ii p b).flatMap fun x => List.replicate sps x).length = sps * (fskDevs p b).length := by rw [repeat_length, freqs_length]
  rw [modulatorF_eq hrn cis ii p b sps hm, hl]
  unfold bcast
  rw [if_pos (by rw [hlen, List.length_map, List.length_range])]
  refine ⟨_, rfl, ?_, fun i hi => ?_⟩
  · rw [List.length_zipWith, hlen, List.length_map, List.length_range, min_self]
  · obtain ⟨s, h1, h2, h3⟩ := freqs_get rn ii p b (i / sps) (Nat.div_lt_of_lt_mul hi)
    rw [List.getElem?_zipWith, repeat_getElem? _ _ _ hs, h2, List.getElem?_map, List.getElem?_range hi]
    refine ⟨_, rfl, ?_⟩
    unfold phase
    rw [h3]
    exact phase_rel hrn p _ _ (freq_ok hrn ii p s h1).2 sps i

theorem modulatorF_fail {rn : Rat → Rat} (hrn : Rounding rn) (cis : Rat → ℂ) (ii : Bool) (p : FskParams) (b : Bits) (sps : Nat)
    (hm : b.length % fskStepBits p.modulation = 0)
    (hl : fskArangeLen rn p.symbolRate sps (sps * (fskDevs p b).length) ≠ sps * (fskDevs p b).length)
    (h1 : sps * (fskDevs p b).length ≠ 1) (h2 : fskArangeLen rn p.symbolRate sps (sps * (fskDevs p b).length) ≠ 1) :
    fskModulatorF rn cis ii p b sps = .error .ValueError := by
  have hlen : ((freqs rn ii p b).flatMap fun x => List.replicate sps x).length = sps * (fskDevs p b).length := by rw [repeat_length, freqs_length]
  rw [modulatorF_eq hrn cis ii p b sps hm]
  generalize ((freqs rn ii p b).flatMap fun x => List.replicate sps x) = F at hlen
  have htl : ((List.range (fskArangeLen rn p.symbolRate sps (sps * (fskDevs p b).length))).map
      fun (i : Nat) => rn ((i : ℚ) * fskDt rn p.symbolRate sps)).length = fskArangeLen rn p.symbolRate sps (sps * (fskDevs p b).length) := by simp
  generalize ((List.range (fskArangeLen rn p.symbolRate sps (sps * (fskDevs p b).length))).map
      fun (i : Nat) => rn ((i : ℚ) * fskDt rn p.symbolRate sps)) = T at htl ⊢
  have hb : bcast (fun (f t : ℚ) => cis (fskPhaseF rn f t)) F T = .error .ValueError := by
    unfold bcast
    rw [if_neg (by omega)]
    split
    · simp at hlen; omega
    · simp at htl; omega
    · rfl
  rw [hb]

/-- The exact sample has the exact phase. -/
theorem sample_phase (p : FskParams) (b : Bits) (sps i : Nat) (hi : i < sps * (fskDevs p b).length) :
    (fskSamples p (fskDevs p b) sps)[i]? = some (exp ((phase p b sps i : ℂ) * I)) := by
  unfold fskSamples phase
  rw [List.getElem?_map, List.getElem?_range hi, Option.map_some]
  congr 2
  push_cast
  rw [div_eq_mul_one_div (i : ℂ), one_div_mul_one_div]
  ring

theorem dev_abs (p : FskParams) (b : Bits) (k : Nat) : |((fskDevs p b).getD k 0 : ℝ)| ≤ 3 := by
  rcases lt_or_ge k (fskDevs p b).length with h | h
  · obtain ⟨s, hs, -, e⟩ := freqs_get id false p b k h
    rw [e]
    cases hm : p.modulation with
    | FSK2 =>
      rw [hm] at hs
      match s, hs with
      | [true], _ => norm_num [fskDev, fskDeviation]
      | [false], _ => norm_num [fskDev, fskDeviation]
    | FSK4 =>
      rw [hm] at hs
      match s, hs with
      | [true, true], _ => norm_num [fskDev, fskDeviation]
      | [true, false], _ => norm_num [fskDev, fskDeviation]
      | [false, true], _ => norm_num [fskDev, fskDeviation]
      | [false, false], _ => norm_num [fskDev, fskDeviation]
  · rw [List.getD_eq_default _ _ h]; norm_num

/-- Phases stay below 970000 radians for at most 41000 symbols. -/
theorem phase_bound (p : FskParams) (hr : 1 ≤ p.symbolRate) (h1 : 1 / 4 ≤ p.modIndex) (h2 : p.modIndex ≤ 5 / 2) (b : Bits) (i : Nat)
    (hn : (fskDevs p b).length ≤ 41000) (hi : i < 20 * (fskDevs p b).length) : |phase p b 20 i| ≤ 970000 := by
  have hd := dev_abs p b (i / 20)
  unfold phase
  generalize ((fskDevs p b).getD (i / 20) 0 : ℝ) = d at *
  have hR : (p.symbolRate : ℝ) ≠ 0 := by exact_mod_cast (show p.symbolRate ≠ 0 by omega)
  have hh1 : (1 / 4 : ℝ) ≤ (p.modIndex : ℝ) := by
    have : ((1 / 4 : ℚ) : ℝ) ≤ (p.modIndex : ℝ) := by exact_mod_cast h1
    push_cast at this; exact this
  have hh2 : (p.modIndex : ℝ) ≤ 5 / 2 := by
    have : (p.modIndex : ℝ) ≤ ((5 / 2 : ℚ) : ℝ) := by exact_mod_cast h2
    push_cast at this; exact this
  have e : 2 * Real.pi * (d * ((p.symbolRate : ℝ) * p.modIndex / 2)) * (i * (1 / (p.symbolRate : ℝ) * (1 / (20 : Nat)))) =
      Real.pi * d * (p.modIndex : ℝ) * ((i : ℝ) / 20) := by
    push_cast; field_simp
  rw [e, abs_mul, abs_mul, abs_mul, abs_of_pos Real.pi_pos, abs_of_nonneg (by linarith : (0:ℝ) ≤ p.modIndex), abs_of_nonneg (by positivity : (0:ℝ) ≤ (i : ℝ) / 20)]
  have hi' : (i : ℝ) / 20 ≤ 41000 := by
    have : (i : ℝ) ≤ 20 * 41000 := by exact_mod_cast (show i ≤ 20 * 41000 by omega)
    linarith
  have hp : Real.pi ≤ 3.1416 := by have := Real.pi_lt_d4; linarith
  have a1 : Real.pi * |d| ≤ 3.1416 * 3 := mul_le_mul hp hd (abs_nonneg _) (by norm_num)
  have a2 : Real.pi * |d| * (p.modIndex : ℝ) ≤ 3.1416 * 3 * (5 / 2) := mul_le_mul a1 hh2 (by linarith) (by norm_num)
  have a3 := mul_le_mul a2 hi' (by positivity : (0:ℝ) ≤ (i : ℝ) / 20) (by norm_num)
  exact a3.trans (by norm_num)

/-- Sampling frequency: `20·rate` up to three roundings. -/
theorem rate_bound {rn : Rat → Rat} (hrn : Rounding rn) (rate : Nat) (hr : 1 ≤ rate) :
    |((rn (1 / fskDt rn rate 20) : ℚ) : ℝ) - 20 * rate| ≤ 20 * rate / 2 ^ 51 := by
  have hR : (1 : ℝ) ≤ (rate : ℝ) := by exact_mod_cast hr
  have h := dt_rel hrn rate 20
  have h2 := rn_real hrn (1 / fskDt rn rate 20)
  push_cast at h h2
  generalize ((fskDt rn rate 20 : ℚ) : ℝ) = d at *
  generalize ((rn (1 / fskDt rn rate 20) : ℚ) : ℝ) = f at *
  unfold Rel at h
  have hx : 1 / (rate : ℝ) * (1 / 20) = 1 / (20 * rate) := by field_simp
  have hN : (0 : ℝ) < 20 * rate := by linarith
  rw [hx] at h
  generalize (20 * rate : ℝ) = N at *
  rw [abs_of_pos (by positivity : 0 < 1 / N)] at h
  -- scale by N: `d * N` is near 1
  have hdN : |d * N - 1| ≤ (1 + u) ^ 2 - 1 := by
    have : d * N - 1 = (d - 1 / N) * N := by field_simp
    rw [this, abs_mul, abs_of_pos hN]
    calc |d - 1 / N| * N ≤ (((1 + u) ^ 2 - 1) * (1 / N)) * N := mul_le_mul_of_nonneg_right h hN.le
      _ = _ := by field_simp
  have hu : u = 1 / 2 ^ 53 := rfl
  have hu2 : (1 + u) ^ 2 - 1 ≤ 21 / 10 * u := by rw [hu]; norm_num
  obtain ⟨l1, l2⟩ := abs_le.mp hdN
  have hup := u_pos
  have hub : u ≤ 1 / 1000000000000000 := by rw [hu]; norm_num
  have hd0 : 0 < d := by
    by_contra hc
    have : d * N ≤ 0 := mul_nonpos_of_nonpos_of_nonneg (not_lt.mp hc) hN.le
    linarith
  have e : 1 / d - N = N * ((1 - d * N) / (d * N)) := by field_simp
  have hq : |(1 - d * N) / (d * N)| ≤ 22 / 10 * u := by
    rw [abs_div, abs_of_pos (by positivity : 0 < d * N), div_le_iff₀ (by positivity), abs_sub_comm]
    have : 22 / 10 * u * (1 - 21 / 10 * u) ≤ 22 / 10 * u * (d * N) := mul_le_mul_of_nonneg_left (by linarith) (by linarith)
    nlinarith
  have h3 : |1 / d - N| ≤ N * (22 / 10 * u) := by
    rw [e, abs_mul, abs_of_pos hN]; exact mul_le_mul_of_nonneg_left hq hN.le
  have h4 : |1 / d| ≤ 3 / 2 * N := by
    have t := abs_add_le (1 / d - N) N
    rw [sub_add_cancel, abs_of_pos hN] at t
    have : N * (22 / 10 * u) ≤ N * (1 / 2) := mul_le_mul_of_nonneg_left (by linarith) hN.le
    linarith
  have h5 : u * |1 / d| ≤ u * (3 / 2 * N) := mul_le_mul_of_nonneg_left h4 hup.le
  have t := abs_add_le (f - 1 / d) (1 / d - N)
  rw [sub_add_sub_cancel] at t
  have hf : N / 2 ^ 51 = 4 * u * N := by rw [hu]; ring
  rw [hf]
  have := mul_pos hup hN
  nlinarith

/-- `bitsToIQ` in floating point as a function of parameters and argument. -/
def resultF (rn : Rat → Rat) (cis : Rat → ℂ) (ii : Bool) (p : FskParams) (a : Arg) : Res (List ℂ × ℚ) :=
  match checkBinaryArray a with
  | .error e => .error e
  | .ok m => match fskBits p m with
    | .error e => .error e
    | .ok b => fskModulatorF rn cis ii p b 20

theorem bitsF_result (rn : Rat → Rat) (cis : Rat → ℂ) (ii : Bool) (a : Arg) (o : FskObj) :
    ((fskBitsToIQF rn cis ii a).call o).1 = resultF rn cis ii o.params a ∧ ((fskBitsToIQF rn cis ii a).call o).2.params = o.params := by
  obtain ⟨h1, h2⟩ := fskBinary_result a o
  unfold fskBitsToIQF resultF
  rw [PyM.call_bind]
  generalize hr : (fskBinary a).call o = r at h1 h2
  obtain ⟨r, s⟩ := r
  simp only at h1 h2
  cases hc : checkBinaryArray a with
  | error e => rw [hc] at h1; simp only at h1; subst h1; rw [PyM.seqR_error]; exact ⟨rfl, h2⟩
  | ok m =>
    rw [hc] at h1
    simp only at h1
    cases hb : fskBits o.params m with
    | error e => rw [hb] at h1; subst h1; rw [PyM.seqR_error]; simp only; rw [hb]; exact ⟨rfl, h2⟩
    | ok b =>
      rw [hb] at h1
      subst h1
      rw [PyM.seqR_ok, PyM.call_bind, PyM.call_get, PyM.seqR_ok, PyM.call_lift, h2]
      simp only
      rw [hb]
      exact ⟨rfl, trivial⟩

theorem bytesF_result (rn : Rat → Rat) (cis : Rat → ℂ) (ii : Bool) (a : Arg) (o : FskObj) :
    ((fskBytesToIQF rn cis ii a).call o).1 = (match toBinaryArray a with | .error e => .error e | .ok m => resultF rn cis ii o.params (bitsArg m)) := by
  unfold fskBytesToIQF
  cases ha : toBinaryArray a with
  | error e => simp only [PyM.call_bind, PyM.call_lift, PyM.seqR_error]
  | ok m =>
    simp only [PyM.call_bind, PyM.call_lift, PyM.seqR_ok]
    exact (bitsF_result rn cis ii _ o).1

/-- What the rounded call may differ in: nothing but small errors of samples and sampling frequency. -/
def Near (η : ℝ) (rate : Nat) (iq : List ℂ) (iqF : List ℂ) (fsF : ℚ) : Prop :=
  iqF.length = iq.length ∧ (∀ i < iq.length, ‖iqF.getD i 0 - iq.getD i 0‖ ≤ η + 2 / 10 ^ 9) ∧ |(fsF : ℝ) - 20 * rate| ≤ 20 * rate / 2 ^ 51

theorem frame_size (p : FskParams) (hpre : p.preambleLength ≤ 1000) (m b : Bits) (h : fskBits p m = .ok b) :
    16 ≤ b.length ∧ b.length / RefF.width p.modulation ≤ 41000 := by
  rw [C69.bits_ref] at h
  split at h
  · cases h
  · rename_i hR
    obtain rfl := Except.ok.inj h
    have hb : (RefF.bits p m).length = (RefF.preamble p ++ RefF.sfd p).length + (RefF.body p m).length := by
      unfold RefF.bits; simp; omega
    rw [C69.body_length, ← fsk_shr_ref, C35.shr_length] at hb
    unfold C35.shrSize at hb
    cases hm : p.modulation with
    | FSK2 =>
      rw [hm] at hb
      simp only [RefF.width, C34.sfdLength, C34.preambleUnit] at hb ⊢
      cases hf : p.fecEnabled <;> rw [hf] at hb <;> simp at hb <;> (try split at hb) <;> omega
    | FSK4 =>
      rw [hm] at hb
      simp only [RefF.width, C34.sfdLength, C34.preambleUnit] at hb ⊢
      cases hf : p.fecEnabled <;> rw [hf] at hb <;> simp at hb <;> (try split at hb) <;> omega

theorem result_near {rn : Rat → Rat} (hrn : Rounding rn) {cis : Rat → ℂ} {η : ℝ} (hc : Exponential cis η) (ii : Bool) (p : FskParams) (hr : 1 ≤ p.symbolRate)
    (h1 : 1 / 4 ≤ p.modIndex) (h2 : p.modIndex ≤ 5 / 2) (hpre : p.preambleLength ≤ 1000) (a : Arg) :
    (∃ e, resultF rn cis ii p a = .error e ∧ fskResult rn p a = .error e) ∨
    (∃ iqF fsF iq, resultF rn cis ii p a = .ok (iqF, fsF) ∧ fskResult rn p a = .ok (iq, fsF) ∧ fskResult id p a = .ok (iq, 20 * p.symbolRate) ∧
      Near η p.symbolRate iq iqF fsF) := by
  unfold resultF fskResult
  cases ha : checkBinaryArray a with
  | error e => exact Or.inl ⟨e, rfl, rfl⟩
  | ok m =>
    simp only
    cases hb : fskBits p m with
    | error e => exact Or.inl ⟨e, rfl, rfl⟩
    | ok b =>
      simp only
      by_cases hm : b.length % fskStepBits p.modulation = 0
      · obtain ⟨s1, s2⟩ := frame_size p hpre m b hb
        have hd : (fskDevs p b).length = b.length / RefF.width p.modulation := by rw [fskDevs_length, C42.bps_eq, C69.width_eq]
        have hw : RefF.width p.modulation ≤ 2 := by cases p.modulation <;> decide
        have hw0 : 0 < RefF.width p.modulation := by cases p.modulation <;> decide
        have hge : 8 ≤ (fskDevs p b).length := by rw [hd, Nat.le_div_iff_mul_le hw0]; omega
        have hle : (fskDevs p b).length ≤ 41000 := by rw [hd]; exact s2
        rcases C44.C44_length rn hrn.rounds p.symbolRate 20 (20 * (fskDevs p b).length) hr (by decide) (by omega) (by omega) with hl | hl
        · right
          obtain ⟨iqF, e1, e2, e3⟩ := modulatorF_ok hrn cis ii p b 20 (by decide) hm hl
          refine ⟨iqF, _, fskSamples p (fskDevs p b) 20, e1, fskModulator_ok rn p b 20 (by decide) hm hl, ?_, ?_, ?_, ?_⟩
          · rw [C69.modulator_ref p hr, if_neg, C69.samples_ref p hr]
            rw [C69.width_eq, ← C42.bps_eq]; simpa using hm
          · rw [e2]; simp [fskSamples]
          · intro i hi
            have hi : i < 20 * (fskDevs p b).length := by simpa [fskSamples] using hi
            obtain ⟨θ, t1, t2⟩ := e3 i hi
            rw [List.getD_eq_getElem?_getD, List.getD_eq_getElem?_getD, t1, sample_phase p b 20 i hi, Option.getD_some, Option.getD_some]
            have c1 := hc θ
            have c2 := exp_lip (θ : ℝ) (phase p b 20 i)
            rw [show (((θ : ℚ) : ℝ) : ℂ) = (θ : ℂ) by push_cast; rfl] at c2
            have c3 := phase_bound p hr h1 h2 b i hle hi
            have c4 : |(θ : ℝ) - phase p b 20 i| ≤ 2 / 10 ^ 9 := by
              refine le_trans t2 (le_trans (mul_le_mul pow_small c3 (abs_nonneg _) (by have := u_pos; linarith)) ?_)
              unfold u; norm_num
            have t := norm_add_le (cis θ - exp ((θ : ℂ) * I)) (exp ((θ : ℂ) * I) - exp ((phase p b 20 i : ℂ) * I))
            rw [sub_add_sub_cancel] at t
            linarith
          · exact rate_bound hrn p.symbolRate hr
        · left
          exact ⟨_, modulatorF_fail hrn cis ii p b 20 hm (by omega) (by omega) (by omega), fskModulator_fail rn p b 20 hm (by omega) (by omega) (by omega)⟩
      · exact Or.inl ⟨_, modulatorF_odd rn cis ii p b 20 hm, fskModulator_odd rn p b 20 hm⟩

/-- **C109 (failures).**  Rounding of samples never causes or hides a failure: `bitsToIQ` in floating point fails exactly like the model in which only the length of
the time axis is rounded (C44, C76). -/
theorem C109_failures (rn : Rat → Rat) (hrn : Rounding rn) (cis : Rat → ℂ) (η : ℝ) (hc : Exponential cis η) (ii : Bool) (o : FskObj) (hr : 1 ≤ o.params.symbolRate)
    (h1 : 1 / 4 ≤ o.params.modIndex) (h2 : o.params.modIndex ≤ 5 / 2) (hpre : o.params.preambleLength ≤ 1000) (a : Arg) (e : PyErr) :
    ((fskBitsToIQF rn cis ii a).call o).1 = .error e ↔ ((fskBitsToIQ rn a).call o).1 = .error e := by
  rw [(bitsF_result rn cis ii a o).1, (fskBitsToIQ_result rn a o).1]
  rcases result_near hrn hc ii o.params hr h1 h2 hpre a with ⟨e', x1, x2⟩ | ⟨iqF, fsF, iq, x1, x2, -, -⟩ <;> rw [x1, x2] <;> simp

/-- **C109 (samples, bits).**  When `bitsToIQ` in floating point succeeds, so does exact arithmetic (C69), with the same number of samples; every sample is within
`η + 2·10⁻⁹` of the exact one and the sampling frequency is `20·symbolRate` up to a relative error of `2^-51`. -/
theorem C109_samples (rn : Rat → Rat) (hrn : Rounding rn) (cis : Rat → ℂ) (η : ℝ) (hc : Exponential cis η) (ii : Bool) (o : FskObj) (hr : 1 ≤ o.params.symbolRate)
    (h1 : 1 / 4 ≤ o.params.modIndex) (h2 : o.params.modIndex ≤ 5 / 2) (hpre : o.params.preambleLength ≤ 1000) (a : Arg) (iqF : List ℂ) (fsF : ℚ)
    (h : ((fskBitsToIQF rn cis ii a).call o).1 = .ok (iqF, fsF)) :
    ∃ iq, ((fskBitsToIQ id a).call o).1 = .ok (iq, 20 * o.params.symbolRate) ∧ iqF.length = iq.length ∧
      (∀ i < iq.length, ‖iqF.getD i 0 - iq.getD i 0‖ ≤ η + 2 / 10 ^ 9) ∧ |(fsF : ℝ) - 20 * o.params.symbolRate| ≤ 20 * o.params.symbolRate / 2 ^ 51 := by
  rw [(bitsF_result rn cis ii a o).1] at h
  rw [(fskBitsToIQ_result id a o).1]
  rcases result_near hrn hc ii o.params hr h1 h2 hpre a with ⟨e', x1, x2⟩ | ⟨iqF', fsF', iq, x1, x2, x3, x4⟩
  · rw [x1] at h; cases h
  · rw [x1] at h
    obtain ⟨rfl, rfl⟩ := Prod.mk.inj (Except.ok.inj h)
    exact ⟨iq, x3, x4⟩

/-- **C109 (samples, octets).** -/
theorem C109_octets (rn : Rat → Rat) (hrn : Rounding rn) (cis : Rat → ℂ) (η : ℝ) (hc : Exponential cis η) (ii : Bool) (o : FskObj) (hr : 1 ≤ o.params.symbolRate)
    (h1 : 1 / 4 ≤ o.params.modIndex) (h2 : o.params.modIndex ≤ 5 / 2) (hpre : o.params.preambleLength ≤ 1000) (a : Arg) :
    (∀ e, ((fskBytesToIQF rn cis ii a).call o).1 = .error e ↔ ((fskBytesToIQ rn a).call o).1 = .error e) ∧
    ∀ iqF fsF, ((fskBytesToIQF rn cis ii a).call o).1 = .ok (iqF, fsF) →
      ∃ iq, ((fskBytesToIQ id a).call o).1 = .ok (iq, 20 * o.params.symbolRate) ∧ iqF.length = iq.length ∧
        (∀ i < iq.length, ‖iqF.getD i 0 - iq.getD i 0‖ ≤ η + 2 / 10 ^ 9) ∧ |(fsF : ℝ) - 20 * o.params.symbolRate| ≤ 20 * o.params.symbolRate / 2 ^ 51 := by
  rw [bytesF_result, (fskBytesToIQ_result rn a o).1, (fskBytesToIQ_result id a o).1]
  unfold fskBytesResult
  cases hb : toBinaryArray a with
  | error e => exact ⟨fun _ => Iff.rfl, fun _ _ h => by cases h⟩
  | ok m =>
    simp only
    rcases result_near hrn hc ii o.params hr h1 h2 hpre (bitsArg m) with ⟨e', x1, x2⟩ | ⟨iqF', fsF', iq, x1, x2, x3, x4⟩
    · rw [x1, x2]
      exact ⟨fun _ => Iff.rfl, fun _ _ h => by cases h⟩
    · rw [x1, x2]
      refine ⟨fun _ => by simp, fun iqF fsF h => ?_⟩
      obtain ⟨rfl, rfl⟩ := Prod.mk.inj (Except.ok.inj h)
      exact ⟨iq, x3, x4⟩

/-- **C109 (decoding).**  The samples that the program really returns are decoded by the receiver of C101: octets, FCS flag and whitening flag come back. -/
theorem C109_decoded (rn : Rat → Rat) (hrn : Rounding rn) (cis : Rat → ℂ) (η : ℝ) (hc : Exponential cis η) (hη : η ≤ 1 / 8) (ii : Bool) (o : FskObj)
    (hr : 1 ≤ o.params.symbolRate) (h1 : 1 / 4 ≤ o.params.modIndex) (h2 : o.params.modIndex ≤ 5 / 2) (hpre : o.params.preambleLength ≤ 1000) (a : Arg)
    (msg : List UInt8) (hd : C01.Denotes a msg) (h0 : msg ≠ []) (iqF : List ℂ) (fsF : ℚ) (h : ((fskBytesToIQF rn cis ii a).call o).1 = .ok (iqF, fsF)) :
    (RxF.receive (C101.known o.params) iqF).1 = (o.params.fcsType == 1) ∧ (RxF.receive (C101.known o.params) iqF).2.1 = o.params.scramble ∧
      Rx.octets (RxF.receive (C101.known o.params) iqF).2.2 = msg := by
  obtain ⟨iq, e1, e2, e3, -⟩ := (C109_octets rn hrn cis η hc ii o hr h1 h2 hpre a).2 iqF fsF h
  refine C101.C101_octets o hr h1 h2 a msg hd h0 iq _ e1 iqF e2.ge fun n hn => ?_
  rw [C100.distSq_sum (N := 20) _ _ (by simp; omega) (by simp; omega)]
  have : ∀ k ∈ Finset.range 20, ‖((iqF.drop (20 * n)).take 20).getD k 0 - ((iq.drop (20 * n)).take 20).getD k 0‖ ^ 2 ≤ (1 / 7) ^ 2 := by
    intro k hk
    have hk : k < 20 := Finset.mem_range.mp hk
    have := e3 (20 * n + k) (by omega)
    rw [List.getD_eq_getElem?_getD, List.getD_eq_getElem?_getD] at this
    rw [List.getD_eq_getElem?_getD, List.getD_eq_getElem?_getD, List.getElem?_take_of_lt hk, List.getElem?_take_of_lt hk, List.getElem?_drop, List.getElem?_drop]
    exact pow_le_pow_left₀ (norm_nonneg _) (this.trans (by norm_num at *; linarith)) 2
  calc _ ≤ ∑ _k ∈ Finset.range 20, ((1 / 7 : ℝ)) ^ 2 := Finset.sum_le_sum this
    _ < 3 / 4 := by simp; norm_num

/-! Non-vacuity: IEEE double precision is such an arithmetic, the exact exponential such a function, and a frame of the constructor's default format is produced. -/
example : Rounding float64 := rounding_double
example : Exponential (fun θ => exp ((θ : ℂ) * I)) 0 := fun θ => by simp
example (cis : Rat → ℂ) (η : ℝ) (hc : Exponential cis η) (x : UInt8) :
    ∃ r, ((fskBytesToIQF float64 cis true (.bytes [x])).call { params := ⟨50000, 1, 0, .FSK2, false, 0, 0, true, false, 4⟩ }).1 = .ok r := by
  have h := (C109_octets float64 rounding_double cis η hc true { params := ⟨50000, 1, 0, .FSK2, false, 0, 0, true, false, 4⟩ } (by norm_num) (by norm_num)
    (by norm_num) (by norm_num) (.bytes [x])).1
  rcases hr : ((fskBytesToIQF float64 cis true (.bytes [x])).call { params := ⟨50000, 1, 0, .FSK2, false, 0, 0, true, false, 4⟩ }).1 with e | r
  · exfalso
    have h' := (h e).1 hr
    obtain ⟨m, bits, -, -, hbl, e'⟩ := C44.bytes_modulator float64 { params := ⟨50000, 1, 0, .FSK2, false, 0, 0, true, false, 4⟩ } (.bytes [x]) [x] rfl (by simp) (by simp)
    have h72 : bits.length = 72 := by rw [hbl]; rfl
    rw [e', fskModulator_ok float64 _ bits 20 (by decide) (by rw [h72]; rfl)] at h'
    · cases h'
    · rw [fskDevs_length, h72]; decide +kernel
  · exact ⟨r, rfl⟩

end SunPhy.C109
