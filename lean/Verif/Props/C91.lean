import Verif.Props.C67
import Verif.Proofs.RefFsk
/-
C91 — every symbol of an MR-OFDM frame has the same energy: as much as there are active tones.
-/
namespace SunPhy.C91
open SunPhy Spec Complex
noncomputable section

/-- Active tones (pilots and data), pilots, data tones of an option. -/
def active : Nat → Nat | 1 => 104 | 2 => 52 | 3 => 26 | _ => 14
def pilots : Nat → Nat | 1 => 8 | 2 => 4 | _ => 2
def datas : Nat → Nat | 1 => 96 | 2 => 48 | 3 => 24 | _ => 12

/-- `len` samples from `start` on. -/
def window (iq : List ℂ) (start len : Nat) : List ℂ := (iq.drop start).take len

theorem sum_indicator {α} (l : List α) (P : α → Prop) [DecidablePred P] (c : ℝ) :
    (l.map fun t => if P t then c else 0).sum = c * (l.countP fun t => decide (P t) : Nat) := by
  induction l with
  | nil => simp
  | cons a l ih =>
    rw [List.map_cons, List.sum_cons, ih, List.countP_cons]
    by_cases h : P a <;> simp [h] <;> ring

theorem energy_map {α} (l : List α) (X : α → ℂ) : energy (l.map X) = (l.map fun t => ‖X t‖ ^ 2).sum := by
  unfold energy; rw [List.map_map]; rfl

/-- Tones that are not used. -/
def unused (opt : Nat) (t : Int) : Prop := isGuard (Ref.nfft opt) (Ref.guardLow opt) (Ref.guardHigh opt) t ∨ t = 0
instance (opt : Nat) (t : Int) : Decidable (unused opt t) := by unfold unused; infer_instance

theorem active_count : ∀ opt ∈ [1, 2, 3, 4], (allTones (Ref.nfft opt)).countP (fun t => decide (¬ unused opt t)) = active opt := by decide +kernel

theorem pilot_count : ∀ opt ∈ [1, 2, 3, 4], ∀ k < 13, let ps := (Ref.pilotSets opt).getD (k % (Ref.pilotSets opt).length) []
    (allTones (Ref.nfft opt)).countP (fun t => decide (¬ unused opt t ∧ t ∈ ps)) = pilots opt ∧
    (allTones (Ref.nfft opt)).countP (fun t => decide (¬ unused opt t ∧ t ∉ ps)) = datas opt := by decide +kernel

theorem stf_count1 : (allTones 128).countP (fun t => decide (t ≠ 0 ∧ t % 8 = 0 ∧ t.natAbs ≤ 48)) = 12 := by decide +kernel
theorem stf_count3 : (allTones 32).countP (fun t => decide (t ≠ 0 ∧ t % 4 = 0 ∧ t.natAbs ≤ 12)) = 6 := by decide +kernel
theorem stf_count4 : (allTones 16).countP (fun t => decide (t ≠ 0 ∧ t % 2 = 0 ∧ t.natAbs ≤ 6)) = 6 := by decide +kernel

theorem stf_count2 : (allTones 64).countP (fun t => decide (t ∈ [-12, -8, -4, 4, 12, 16, 24])) = 7 ∧
    (allTones 64).countP (fun t => decide (t ∉ [-12, -8, -4, 4, 12, 16, 24] ∧ t ∈ [-24, -20, -16, 8, 20])) = 5 := by decide +kernel

theorem sqrt_sq {x : ℝ} (h : 0 ≤ x) : ‖((Real.sqrt x : ℝ) : ℂ)‖ ^ 2 = x := by
  rw [Complex.norm_real, Real.norm_eq_abs, sq_abs, Real.sq_sqrt h]

theorem stf_energy (opt : Nat) (h : opt ∈ [1, 2, 3, 4]) : energy ((allTones (Ref.nfft opt)).map (Ref.stfTone opt)) = active opt := by
  rw [energy_map]
  have one : ∀ (P : Int → Prop) [DecidablePred P] (c : ℝ), 0 ≤ c → ∀ n k : Nat, (allTones n).countP (fun t => decide (P t)) = k →
      ((allTones n).map fun t => ‖(if P t then ((Real.sqrt c : ℝ) : ℂ) else 0)‖ ^ 2).sum = c * k := by
    intro P _ c hc n k hk
    rw [← hk, ← sum_indicator]
    congr 1
    apply List.map_congr_left
    intro t _
    split
    · rw [sqrt_sq hc]
    · simp
  simp only [List.mem_cons, List.not_mem_nil, or_false] at h
  rcases h with rfl | rfl | rfl | rfl
  · simp only [Ref.stfTone]
    rw [show Ref.nfft 1 = 128 from rfl]
    refine (one _ _ (by norm_num) _ 12 stf_count1).trans ?_
    norm_num [active]
  · simp only [Ref.stfTone]
    have e : ((allTones (Ref.nfft 2)).map fun t => ‖(if t ∈ ([-12, -8, -4, 4, 12, 16, 24] : List Int) then ((Real.sqrt (52 / 12) : ℝ) : ℂ)
        else if t ∈ ([-24, -20, -16, 8, 20] : List Int) then -((Real.sqrt (52 / 12) : ℝ) : ℂ) else 0)‖ ^ 2).sum =
        ((allTones 64).map fun t => (if t ∈ ([-12, -8, -4, 4, 12, 16, 24] : List Int) then (52 / 12 : ℝ) else 0) +
          (if t ∉ ([-12, -8, -4, 4, 12, 16, 24] : List Int) ∧ t ∈ ([-24, -20, -16, 8, 20] : List Int) then (52 / 12 : ℝ) else 0)).sum := by
      congr 1
      apply List.map_congr_left
      intro t _
      by_cases h1 : t ∈ ([-12, -8, -4, 4, 12, 16, 24] : List Int)
      · rw [if_pos h1, if_pos h1, if_neg (fun h => h.1 h1), sqrt_sq (by norm_num)]; ring
      · by_cases h2 : t ∈ ([-24, -20, -16, 8, 20] : List Int)
        · rw [if_neg h1, if_pos h2, if_neg h1, if_pos ⟨h1, h2⟩, norm_neg, sqrt_sq (by norm_num)]; ring
        · rw [if_neg h1, if_neg h2, if_neg h1, if_neg (fun h => h2 h.2)]; simp
    rw [e, List.sum_map_add, sum_indicator, sum_indicator, stf_count2.1, stf_count2.2]
    norm_num [active]
  · simp only [Ref.stfTone]
    rw [show Ref.nfft 3 = 32 from rfl]
    refine (one _ _ (by norm_num) _ 6 stf_count3).trans ?_
    norm_num [active]
  · simp only [Ref.stfTone]
    rw [show Ref.nfft 4 = 16 from rfl]
    refine (one _ _ (by norm_num) _ 6 stf_count4).trans ?_
    norm_num [active]

theorem ltf_energy (opt : Nat) (h : opt ∈ [1, 2, 3, 4]) : energy ((allTones (Ref.nfft opt)).map (Ref.ltfTone opt)) = active opt := by
  rw [energy_map, ← active_count opt h]
  have := sum_indicator (allTones (Ref.nfft opt)) (fun t => ¬ unused opt t) 1
  rw [one_mul] at this
  rw [← this]
  congr 1
  apply List.map_congr_left
  intro t _
  unfold Ref.ltfTone unused
  by_cases hu : isGuard (Ref.nfft opt) (Ref.guardLow opt) (Ref.guardHigh opt) t ∨ t = 0
  · rw [if_pos hu, if_neg (not_not.2 hu)]; simp
  · rw [if_neg hu, if_pos hu]; split <;> simp

theorem sign_norm (b : Bool) : ‖Ref.sign b‖ = 1 := by cases b <;> simp [Ref.sign]

theorem turn_norm (k : Nat) : ‖(I : ℂ) ^ k‖ = 1 := by rw [norm_pow, Complex.norm_I, one_pow]

theorem point_low (w : Nat) (hw : w = 1 ∨ w = 2) (b : Nat → Bool) : ‖Ref.point w b‖ = 1 := by
  rcases hw with rfl | rfl
  · exact sign_norm _
  · have h2 : ‖Ref.sign (b 0) + Ref.sign (b 1) * I‖ = Real.sqrt 2 := by
      rw [Complex.norm_eq_sqrt_sq_add_sq]
      congr 1
      cases b 0 <;> cases b 1 <;> simp [Ref.sign] <;> norm_num
    simp only [Ref.point]
    rw [norm_div, h2, Complex.norm_real, Real.norm_eq_abs, abs_of_nonneg (Real.sqrt_nonneg _), div_self]
    simp

theorem point_high (b : Nat → Bool) : 1 / 5 ≤ ‖Ref.point 4 b‖ ^ 2 ∧ ‖Ref.point 4 b‖ ^ 2 ≤ 9 / 5 := by
  have h2 : ‖Ref.point 4 b‖ ^ 2 = ((Ref.level (b 0) (b 1)).re ^ 2 + (Ref.level (b 2) (b 3)).re ^ 2) / 10 := by
    simp only [Ref.point]
    rw [norm_div, div_pow, Complex.norm_real, Real.norm_eq_abs, sq_abs, Real.sq_sqrt (by norm_num), Complex.sq_norm, Complex.normSq_apply]
    congr 1
    cases b 0 <;> cases b 1 <;> cases b 2 <;> cases b 3 <;> simp [Ref.level] <;> norm_num
  rw [h2]
  cases b 0 <;> cases b 1 <;> cases b 2 <;> cases b 3 <;> simp [Ref.level] <;> norm_num

/-! ### Energy of the tones of one symbol -/

/-- Least and greatest square of a constellation point of a scheme. -/
def lo (mcs : Nat) : ℝ := if mcs ≤ 4 then 1 else 1 / 5
def hi (mcs : Nat) : ℝ := if mcs ≤ 4 then 1 else 9 / 5

theorem bitsOf_cases : ∀ mcs ≤ 6, (mcs ≤ 4 ∧ (bitsOf mcs = 1 ∨ bitsOf mcs = 2)) ∨ (¬ mcs ≤ 4 ∧ bitsOf mcs = 4) := by decide

theorem data_bounds (opt mcs : Nat) (hm : mcs ≤ 6) (s : Bits) (n d : Nat) :
    lo mcs ≤ ‖Ref.dataValue opt mcs s n d‖ ^ 2 ∧ ‖Ref.dataValue opt mcs s n d‖ ^ 2 ≤ hi mcs := by
  simp only [Ref.dataValue]
  rw [norm_mul, turn_norm, mul_one]
  unfold lo hi
  rcases bitsOf_cases mcs hm with ⟨h1, h2⟩ | ⟨h1, h2⟩
  · rw [if_pos h1, if_pos h1, point_low _ h2]; norm_num
  · rw [if_neg h1, if_neg h1, h2]; exact point_high _

theorem mcs_le {p : OfdmParams} (h : Supported p) : p.mcs ≤ 6 ∧ p.option ∈ [1, 2, 3, 4] ∧ Ref.headerMcs p.option ≤ 2 := by
  have key : ∀ q ∈ allSupported, q.mcs ≤ 6 ∧ q.option ∈ [1, 2, 3, 4] ∧ Ref.headerMcs q.option ≤ 2 := by decide +kernel
  exact key p (mem_allSupported h)

theorem sets_length : ∀ opt ∈ [1, 2, 3, 4], (Ref.pilotSets opt).length ≠ 0 ∧ (Ref.pilotSets opt).length ≤ 13 := by decide

/-- The scheme that symbol `n` uses. -/
def schemeOf (p : OfdmParams) (n : Nat) : Nat := if n < Ref.headerCount p then Ref.headerMcs p.option else p.mcs

theorem symbol_tones {p : OfdmParams} (h : Supported p) (m : Bits) (n : Nat) :
    pilots p.option + lo (schemeOf p n) * datas p.option ≤ energy ((allTones (Ref.nfft p.option)).map (Ref.toneValue p m n)) ∧
    energy ((allTones (Ref.nfft p.option)).map (Ref.toneValue p m n)) ≤ pilots p.option + hi (schemeOf p n) * datas p.option := by
  obtain ⟨hm, ho, hh⟩ := mcs_le h
  have hb : ∀ d, lo (schemeOf p n) ≤ ‖(if n < Ref.headerCount p then Ref.dataValue p.option (Ref.headerMcs p.option) (Ref.headerStream p (m.length / 8)) n d
      else Ref.dataValue p.option p.mcs (Ref.payloadStream p m) (n - Ref.headerCount p) d)‖ ^ 2 ∧
      ‖(if n < Ref.headerCount p then Ref.dataValue p.option (Ref.headerMcs p.option) (Ref.headerStream p (m.length / 8)) n d
      else Ref.dataValue p.option p.mcs (Ref.payloadStream p m) (n - Ref.headerCount p) d)‖ ^ 2 ≤ hi (schemeOf p n) := by
    intro d
    unfold schemeOf
    by_cases hn : n < Ref.headerCount p
    · rw [if_pos hn, if_pos hn]; exact data_bounds _ _ (by omega) _ _ _
    · rw [if_neg hn, if_neg hn]; exact data_bounds _ _ hm _ _ _
  obtain ⟨s1, s2⟩ := sets_length p.option ho
  have hk : n % (Ref.pilotSets p.option).length < 13 := lt_of_lt_of_le (Nat.mod_lt _ (by omega)) s2
  have hc := pilot_count p.option ho _ hk
  simp only [Nat.mod_mod] at hc
  change _ ∧ _ at hc
  have e : ∀ c : ℝ, (pilots p.option : ℝ) + c * datas p.option = ((allTones (Ref.nfft p.option)).map fun t =>
      (if ¬ unused p.option t ∧ t ∈ Ref.pilotTones p.option n then (1 : ℝ) else 0) +
      (if ¬ unused p.option t ∧ t ∉ Ref.pilotTones p.option n then c else 0)).sum := by
    intro c
    rw [List.sum_map_add, sum_indicator, sum_indicator, one_mul]
    unfold Ref.pilotTones
    rw [hc.1, hc.2]
  have hv : ∀ t, ‖Ref.toneValue p m n t‖ ^ 2 = (if unused p.option t then 0 else if t ∈ Ref.pilotTones p.option n then 1 else
      ‖(if n < Ref.headerCount p then Ref.dataValue p.option (Ref.headerMcs p.option) (Ref.headerStream p (m.length / 8)) n
          ((dataToneList (Ref.nfft p.option) (Ref.guardLow p.option) (Ref.guardHigh p.option) (Ref.pilotTones p.option n)).idxOf t)
      else Ref.dataValue p.option p.mcs (Ref.payloadStream p m) (n - Ref.headerCount p)
          ((dataToneList (Ref.nfft p.option) (Ref.guardLow p.option) (Ref.guardHigh p.option) (Ref.pilotTones p.option n)).idxOf t))‖ ^ 2) := by
    intro t
    unfold Ref.toneValue
    simp only
    by_cases hu : isGuard (Ref.nfft p.option) (Ref.guardLow p.option) (Ref.guardHigh p.option) t ∨ t = 0
    · rw [if_pos hu, if_pos (show unused p.option t from hu)]; simp
    · rw [if_neg hu, if_neg (show ¬ unused p.option t from hu)]
      by_cases hp : t ∈ Ref.pilotTones p.option n
      · rw [if_pos hp, if_pos hp, sign_norm]; norm_num
      · rw [if_neg hp, if_neg hp]
  rw [energy_map, e, e]
  constructor
  · apply List.sum_le_sum
    intro t _
    rw [hv t]
    by_cases hu : unused p.option t
    · simp [hu]
    · by_cases hp : t ∈ Ref.pilotTones p.option n
      · simp [hu, hp]
      · rw [if_neg hu, if_neg hp, if_neg (fun x : ¬ unused p.option t ∧ t ∈ Ref.pilotTones p.option n => hp x.2),
          if_pos (show ¬ unused p.option t ∧ t ∉ Ref.pilotTones p.option n from ⟨hu, hp⟩), zero_add]; exact (hb _).1
  · apply List.sum_le_sum
    intro t _
    rw [hv t]
    by_cases hu : unused p.option t
    · simp [hu]
    · by_cases hp : t ∈ Ref.pilotTones p.option n
      · simp [hu, hp]
      · rw [if_neg hu, if_neg hp, if_neg (fun x : ¬ unused p.option t ∧ t ∈ Ref.pilotTones p.option n => hp x.2),
          if_pos (show ¬ unused p.option t ∧ t ∉ Ref.pilotTones p.option n from ⟨hu, hp⟩), zero_add]; exact (hb _).2

/-! ### Parts of the frame -/

theorem window_range (f : Nat → ℂ) (c a n : Nat) (h : a + n ≤ c) :
    window ((List.range c).map f) a n = (List.range n).map fun k => f (a + k) := by
  unfold window
  refine range_map_ext (by simp; omega) _ fun i hi => ?_
  rw [List.getElem?_take_of_lt hi, List.getElem?_drop, List.getElem?_map, List.getElem?_range (by omega)]; rfl

theorem window_left (x y : List ℂ) (a n : Nat) (h : a + n ≤ x.length) : window (x ++ y) a n = window x a n := by
  unfold window
  rw [List.drop_append_of_le_length (by omega), List.take_append_of_le_length (by simp; omega)]

theorem window_right (x y : List ℂ) (a n : Nat) : window (x ++ y) (x.length + a) n = window y a n := by
  unfold window
  rw [List.drop_append, List.drop_eq_nil_of_le (by omega), List.nil_append]
  congr 2; omega

theorem window_block (f : Nat → List ℂ) (L c j a n : Nat) (hf : ∀ i, (f i).length = L) (hj : j < c) (h : a + n ≤ L) :
    window ((List.range c).flatMap f) (j * L + a) n = window (f j) a n := by
  have e : List.range c = List.range j ++ (j :: (List.range (c - j - 1)).map (j + 1 + ·)) := by
    have : c = j + ((c - j - 1) + 1) := by omega
    conv_lhs => rw [this]
    rw [List.range_add, List.range_succ_eq_map, List.map_cons, List.map_map]
    congr 2
    apply List.map_congr_left
    intro k _
    simp; omega
  rw [e, List.flatMap_append, List.flatMap_cons]
  have hl : ((List.range j).flatMap f).length = j * L := by rw [flatMap_length_const f L _ (fun i _ => hf i)]; simp
  rw [← hl, window_right, window_left _ _ _ _ (by rw [hf]; exact h)]

theorem nfft_facts : ∀ opt ∈ [1, 2, 3, 4], Ref.nfft opt % 8 = 0 ∧ 0 < Ref.nfft opt := by decide

theorem wave_window {N : Nat} (h8 : N % 8 = 0) (hN : 0 < N) (X : Int → ℂ) (c : ℂ) :
    energy ((List.range N).map fun (k : Nat) => c * Ref.wave N X (k : Int)) = ‖c‖ ^ 2 * energy ((allTones N).map X) := by
  rw [← energy_ofdmIfft ((allTones N).map X), plain_wave (by omega) hN, energy_map, energy_map, ← List.sum_map_mul_left]
  congr 1
  apply List.map_congr_left
  intro k _
  rw [norm_mul, mul_pow]

theorem wave_period {N : Nat} (hN : 0 < N) (X : Int → ℂ) (τ : Int) : Ref.wave N X (τ + N) = Ref.wave N X τ := by
  unfold Ref.wave
  congr 1
  apply Finset.sum_congr rfl
  intro i _
  congr 1
  have hc : (N : ℂ) ≠ 0 := by exact_mod_cast hN.ne'
  rw [show (2 * Real.pi * I * (((i : Int) - ((N / 2 : Nat) : Int) : Int) : ℂ) * ((τ + N : Int) : ℂ) / N) =
    (2 * Real.pi * I * (((i : Int) - ((N / 2 : Nat) : Int) : Int) : ℂ) * (τ : ℂ) / N) + (((i : Int) - ((N / 2 : Nat) : Int) : Int) : ℂ) * (2 * Real.pi * I) by
      push_cast; field_simp]
  rw [Complex.exp_add, Complex.exp_int_mul_two_pi_mul_I, mul_one]

/-- Where the useful part of data symbol `n` starts. -/
def symbolStart (N n : Nat) : Nat := 15 * N / 2 + n * (5 * N / 4) + N / 4

theorem symbol_window {p : OfdmParams} (h : Supported p) (m : Bits) (n : Nat) (hn : n < Ref.symbolCount p m.length) :
    energy (window (Ref.frame p m) (symbolStart (Ref.nfft p.option) n) (Ref.nfft p.option)) =
      energy ((allTones (Ref.nfft p.option)).map (Ref.toneValue p m n)) := by
  obtain ⟨_, ho, _⟩ := mcs_le h
  obtain ⟨h8, hN⟩ := nfft_facts _ ho
  have hl : (Ref.stf p.option ++ Ref.ltf p.option).length = 5 * Ref.nfft p.option + 5 * Ref.nfft p.option / 2 := by
    simp [Ref.stf, Ref.ltf]
  have e : symbolStart (Ref.nfft p.option) n = (Ref.stf p.option ++ Ref.ltf p.option).length +
      (n * (5 * Ref.nfft p.option / 4) + Ref.nfft p.option / 4) := by rw [hl]; unfold symbolStart; omega
  unfold Ref.frame
  rw [e, window_right, window_block _ (5 * Ref.nfft p.option / 4) _ _ _ _ (fun i => by simp [Ref.symbol]) hn (by omega)]
  unfold Ref.symbol
  simp only
  rw [window_range _ _ _ _ (by omega)]
  have := wave_window h8 hN (Ref.toneValue p m n) 1
  simp only [norm_one, one_pow, one_mul] at this
  rw [← this]
  congr 2
  funext k
  congr 1
  push_cast; ring

theorem stf_window {p : OfdmParams} (h : Supported p) (m : Bits) (j : Nat) (hj : j < 4) :
    energy (window (Ref.frame p m) (j * (5 * Ref.nfft p.option / 4) + Ref.nfft p.option / 4) (Ref.nfft p.option)) = 25 / 16 * active p.option := by
  obtain ⟨_, ho, _⟩ := mcs_le h
  obtain ⟨h8, hN⟩ := nfft_facts _ ho
  have hjj : j = 0 ∨ j = 1 ∨ j = 2 ∨ j = 3 := by omega
  have hb : j * (5 * Ref.nfft p.option / 4) + 5 * Ref.nfft p.option / 4 ≤ 5 * Ref.nfft p.option := by
    rcases hjj with rfl | rfl | rfl | rfl <;> omega
  unfold Ref.frame
  rw [List.append_assoc, window_left _ _ _ _ (by simp [Ref.stf]; omega)]
  unfold Ref.stf
  simp only
  rw [window_range _ _ _ _ (by omega), ← stf_energy _ ho]
  have := wave_window h8 hN (Ref.stfTone p.option) (5 / 4)
  rw [show ‖(5 / 4 : ℂ)‖ ^ 2 = 25 / 16 by norm_num] at this
  rw [← this, energy_map, energy_map]
  congr 1
  apply List.map_congr_left
  intro k hk
  have hk := List.mem_range.1 hk
  rw [norm_mul, norm_mul, norm_mul]
  have e : ((j * (5 * Ref.nfft p.option / 4) + Ref.nfft p.option / 4 + k) % (5 * Ref.nfft p.option / 4)) = Ref.nfft p.option / 4 + k := by
    rw [Nat.add_assoc, Nat.mul_comm, Nat.mul_add_mod, Nat.mod_eq_of_lt (by omega)]
  rw [e]
  have e2 : (((Ref.nfft p.option / 4 + k : Nat) : Int) - ((Ref.nfft p.option / 4 : Nat) : Int)) = (k : Int) := by push_cast; ring
  rw [e2]
  have e3 : ∀ c : Prop, [Decidable c] → ‖(if c then (-1 : ℂ) else 1)‖ = 1 := by intro c _; split <;> simp
  rw [e3, mul_one]

theorem ltf_window {p : OfdmParams} (h : Supported p) (m : Bits) (j : Nat) (hj : j < 2) :
    energy (window (Ref.frame p m) (5 * Ref.nfft p.option + Ref.nfft p.option / 2 + j * Ref.nfft p.option) (Ref.nfft p.option)) = active p.option := by
  obtain ⟨_, ho, _⟩ := mcs_le h
  obtain ⟨h8, hN⟩ := nfft_facts _ ho
  have hjj : j = 0 ∨ j = 1 := by omega
  have hb : Ref.nfft p.option / 2 + j * Ref.nfft p.option + Ref.nfft p.option ≤ 5 * Ref.nfft p.option / 2 := by
    rcases hjj with rfl | rfl <;> omega
  have hl : 5 * Ref.nfft p.option = (Ref.stf p.option).length := by simp [Ref.stf]
  unfold Ref.frame
  rw [List.append_assoc, Nat.add_assoc, hl, window_right, window_left _ _ _ _ (by simp [Ref.ltf]; omega)]
  unfold Ref.ltf
  simp only
  rw [window_range _ _ _ _ (by omega), ← ltf_energy _ ho]
  have := wave_window h8 hN (Ref.ltfTone p.option) 1
  simp only [norm_one, one_pow, one_mul] at this
  rw [← this]
  congr 2
  funext k
  rcases hjj with rfl | rfl
  · congr 1
    push_cast; ring
  · rw [← wave_period hN _ (k : Int)]
    congr 1
    push_cast; ring

/-- **C91.**  In every frame that `bitsToIQ` returns, the energy of the useful part of a symbol (the sum of the squared magnitudes of its
`N` samples) is: for every long training symbol the number of active tones; for every short training symbol 25/16 of it; for every header
symbol and, with the schemes 0 to 4, every payload symbol, the number of active tones whatever the data; with the schemes 5 and 6 (16-QAM)
every payload symbol lies between 1/5 and 9/5 of the data tones plus the pilots. -/
theorem C91_energy (o : OfdmObj) (h : Supported o.params) (a : Arg) (m : Bits) (ha : checkBinaryArray a = .ok m)
    (h1 : 1 ≤ m.length / 8) (h2 : m.length / 8 ≤ 2047) :
    ∃ o' iq fs, (ofdmModBitsToIQ a).call o = (.ok (iq, fs), o') ∧
      let opt := o.params.option
      let N := Ref.nfft opt
      let E := fun start => energy (window iq start N)
      iq.length = 15 * N / 2 + Ref.symbolCount o.params m.length * (5 * N / 4) ∧
      (∀ j < 4, E (j * (5 * N / 4) + N / 4) = 25 / 16 * active opt) ∧
      (∀ j < 2, E (5 * N + N / 2 + j * N) = active opt) ∧
      (∀ n < Ref.symbolCount o.params m.length,
        (n < Ref.headerCount o.params ∨ o.params.mcs ≤ 4 → E (15 * N / 2 + n * (5 * N / 4) + N / 4) = active opt) ∧
        (pilots opt + 1 / 5 * datas opt : ℝ) ≤ E (15 * N / 2 + n * (5 * N / 4) + N / 4) ∧
        E (15 * N / 2 + n * (5 * N / 4) + N / 4) ≤ (pilots opt + 9 / 5 * datas opt : ℝ)) := by
  obtain ⟨o', e, _⟩ := C67.C67_reference o h a m ha h1 h2
  obtain ⟨_, ho, hh⟩ := mcs_le h
  obtain ⟨h8, hN⟩ := nfft_facts _ ho
  have hsum : ∀ opt ∈ [1, 2, 3, 4], active opt = pilots opt + datas opt := by decide
  refine ⟨o', _, _, e, ?_, fun j hj => stf_window h m j hj, fun j hj => ltf_window h m j hj, fun n hn => ?_⟩
  · rw [C67.C67_size]; omega
  · have hs := symbol_tones h m n
    rw [← symbol_window h m n hn] at hs
    obtain ⟨s1, s2⟩ := hs
    unfold symbolStart at s1 s2
    have hd : (0 : ℝ) ≤ datas o.params.option := Nat.cast_nonneg _
    refine ⟨fun hc => ?_, ?_, ?_⟩
    · have hle : schemeOf o.params n ≤ 4 := by
        unfold schemeOf
        split
        · omega
        · rcases hc with hc | hc
          · contradiction
          · exact hc
      unfold lo at s1
      unfold hi at s2
      rw [if_pos hle] at s1 s2
      rw [hsum _ ho, Nat.cast_add]
      linarith
    · refine le_trans ?_ s1
      unfold lo
      split <;> nlinarith
    · refine le_trans s2 ?_
      unfold hi
      split <;> nlinarith

/-! Non-vacuity: the counts of tones, and a supported configuration. -/
example : ∀ opt ∈ [1, 2, 3, 4], active opt = pilots opt + datas opt ∧ datas opt = tonesOf opt := by decide
example : Supported ⟨3, 2, 1, 0⟩ ∧ (3 : Nat) ≤ 4 ∧ Ref.symbolCount ⟨3, 2, 1, 0⟩ 80 = 10 ∧ active 2 = 52 := ⟨⟨by decide, by decide, by decide⟩, by decide, by decide, rfl⟩

end
end SunPhy.C91
