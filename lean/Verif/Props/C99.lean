import Verif.Props.C88
import Verif.Proofs.Distance
import Mathlib.Analysis.SpecialFunctions.Trigonometric.Bounds
/-
C99 — MR-FSK signals: every symbol in which two frames differ contributes at least 3 to the squared Euclidean distance, whatever the modulation index.
-/
namespace SunPhy.C99
open SunPhy Spec Complex
noncomputable section

/-! ### One symbol -/

theorem exp_dist (a b : ℝ) : ‖exp (I * a) - exp (I * b)‖ ^ 2 = 4 * Real.sin ((a - b) / 2) ^ 2 := by
  rw [Complex.sq_norm, Complex.normSq_apply]
  rw [mul_comm I, mul_comm I, Complex.sub_re, Complex.sub_im, Complex.exp_ofReal_mul_I_re, Complex.exp_ofReal_mul_I_re, Complex.exp_ofReal_mul_I_im, Complex.exp_ofReal_mul_I_im]
  have h := Real.cos_sub a b
  have h2 : Real.cos (a - b) = 1 - 2 * Real.sin ((a - b) / 2) ^ 2 := by
    conv_lhs => rw [show a - b = 2 * ((a - b) / 2) by ring, Real.cos_two_mul]
    have := Real.sin_sq_add_cos_sq ((a - b) / 2)
    linarith
  have ha := Real.sin_sq_add_cos_sq a
  have hb := Real.sin_sq_add_cos_sq b
  nlinarith

theorem pair (x d c : ℝ) (hc : |Real.cos d| ≤ c) : 1 - c ≤ Real.sin x ^ 2 + Real.sin (x + d) ^ 2 := by
  have e : Real.sin x ^ 2 + Real.sin (x + d) ^ 2 = 1 - Real.cos (2 * x + d) * Real.cos d := by
    have h1 := Real.cos_add (x + d) x
    have h2 := Real.cos_sub (x + d) x
    rw [show x + d + x = 2 * x + d by ring] at h1
    rw [add_sub_cancel_left] at h2
    have hx := Real.sin_sq_add_cos_sq x
    have hy := Real.sin_sq_add_cos_sq (x + d)
    rw [h1, h2]
    linear_combination Real.cos (x + d) ^ 2 * hx + (1 - Real.sin x ^ 2) * hy
  rw [e]
  have h1 := Real.abs_cos_le_one (2 * x + d)
  have : Real.cos (2 * x + d) * Real.cos d ≤ c := by
    calc _ ≤ |Real.cos (2 * x + d) * Real.cos d| := le_abs_self _
      _ = |Real.cos (2 * x + d)| * |Real.cos d| := abs_mul _ _
      _ ≤ 1 * |Real.cos d| := mul_le_mul_of_nonneg_right h1 (abs_nonneg _)
      _ ≤ c := by linarith
  linarith

theorem cos_eighth : Real.cos (Real.pi / 8) ≤ 37 / 40 := by
  rw [Real.cos_pi_div_eight]
  have h2 : Real.sqrt 2 ≤ 1.4143 := by rw [Real.sqrt_le_left (by norm_num)]; norm_num
  have : Real.sqrt (2 + Real.sqrt 2) ≤ 1.85 := by rw [Real.sqrt_le_left (by norm_num)]; norm_num; norm_num at h2; linarith
  norm_num at this ⊢; linarith

theorem abs_cos_le {x : ℝ} (h1 : Real.pi / 8 ≤ x) (h2 : x ≤ 7 * Real.pi / 8) : |Real.cos x| ≤ 37 / 40 := by
  have hp := Real.pi_pos
  refine le_trans ?_ cos_eighth
  rw [abs_le]
  constructor
  · have : Real.cos (Real.pi - Real.pi / 8) ≤ Real.cos x := Real.cos_le_cos_of_nonneg_of_le_pi (by linarith) (by linarith) (by linarith)
    rwa [Real.cos_pi_sub] at this
  · exact Real.cos_le_cos_of_nonneg_of_le_pi (by linarith) (by linarith) h1

theorem window (x t : ℝ) (h1 : Real.pi / 80 ≤ t) (h2 : t ≤ 3 * Real.pi / 8) : 3 ≤ S 20 fun i => 4 * Real.sin (x + i * t) ^ 2 := by
  have hp := Real.pi_pos
  unfold S
  simp only [List.range_succ, List.range_zero, List.nil_append, List.cons_append, List.map_cons, List.map_nil, List.sum_cons, List.sum_nil]
  push_cast
  rcases le_total t (7 * Real.pi / 80) with h | h
  · have key : ∀ y, 1 - 37 / 40 ≤ Real.sin y ^ 2 + Real.sin (y + 10 * t) ^ 2 := fun y => pair y (10 * t) _ (abs_cos_le (by linarith) (by linarith))
    have a0 := key (x + 0 * t)
    have a1 := key (x + 1 * t)
    have a2 := key (x + 2 * t)
    have a3 := key (x + 3 * t)
    have a4 := key (x + 4 * t)
    have a5 := key (x + 5 * t)
    have a6 := key (x + 6 * t)
    have a7 := key (x + 7 * t)
    have a8 := key (x + 8 * t)
    have a9 := key (x + 9 * t)
    ring_nf at *
    linarith
  · have key : ∀ y, 1 - 37 / 40 ≤ Real.sin y ^ 2 + Real.sin (y + 2 * t) ^ 2 := fun y => pair y (2 * t) _ (abs_cos_le (by linarith) (by linarith))
    have a0 := key (x + 0 * t)
    have a1 := key (x + 1 * t)
    have a4 := key (x + 4 * t)
    have a5 := key (x + 5 * t)
    have a8 := key (x + 8 * t)
    have a9 := key (x + 9 * t)
    have b2 := key (x + 12 * t)
    have b3 := key (x + 13 * t)
    have b6 := key (x + 16 * t)
    have b7 := key (x + 17 * t)
    ring_nf at *
    linarith

/-- Two frequencies that differ by `D` units, `2 ≤ |D| ≤ 6`. -/
theorem symbol_window (h : ℝ) (h1 : 1 / 4 ≤ h) (h2 : h ≤ 5 / 2) (D : ℝ) (hD : 2 ≤ |D|) (hD' : |D| ≤ 6) (k : Nat) :
    3 ≤ S 20 fun i => 4 * Real.sin (Real.pi * h * D / 40 * ((20 * k + i : Nat) : ℝ)) ^ 2 := by
  have hp := Real.pi_pos
  have b1 : Real.pi / 80 ≤ Real.pi * h * |D| / 40 := by
    have : (1 / 4) * 2 ≤ h * |D| := mul_le_mul h1 hD (by norm_num) (by linarith)
    nlinarith
  have b2 : Real.pi * h * |D| / 40 ≤ 3 * Real.pi / 8 := by
    have : h * |D| ≤ 5 / 2 * 6 := mul_le_mul h2 hD' (abs_nonneg _) (by norm_num)
    nlinarith
  refine le_trans (window (Real.pi * h * |D| / 40 * (20 * k)) _ b1 b2) (le_of_eq ?_)
  apply S_congr
  intro i _
  rcases abs_choice D with e | e
  · rw [e]; congr 3; push_cast; ring
  · rw [e, show Real.pi * h * -D / 40 * (20 * (k : ℝ)) + i * (Real.pi * h * -D / 40) = -(Real.pi * h * D / 40 * ((20 * k + i : Nat) : ℝ)) by push_cast; ring, Real.sin_neg, neg_sq]

/-! ### Frames -/

theorem dev_facts (m : FskMod) (b b' : Bits) (k : Nat) (hne : RefF.deviation m b k ≠ RefF.deviation m b' k) :
    2 ≤ |((RefF.deviation m b k - RefF.deviation m b' k : Int) : ℝ)| ∧ |((RefF.deviation m b k - RefF.deviation m b' k : Int) : ℝ)| ≤ 6 := by
  have : 2 ≤ |RefF.deviation m b k - RefF.deviation m b' k| ∧ |RefF.deviation m b k - RefF.deviation m b' k| ≤ 6 := by
    revert hne
    unfold RefF.deviation
    cases m with
    | FSK2 => simp only; generalize RefF.at_ b k = u; generalize RefF.at_ b' k = v; revert u v; decide
    | FSK4 =>
      simp only
      generalize RefF.at_ b (2 * k) = u; generalize RefF.at_ b' (2 * k) = v; generalize RefF.at_ b (2 * k + 1) = w; generalize RefF.at_ b' (2 * k + 1) = z
      revert u v w z; decide
  rw [← Int.cast_abs]
  exact ⟨by exact_mod_cast this.1, by exact_mod_cast this.2⟩

/-- Number of the first `n` symbols whose frequencies differ. -/
def differing (m : FskMod) (b b' : Bits) (n : Nat) : Nat := ((List.range n).filter fun k => RefF.deviation m b k ≠ RefF.deviation m b' k).length

theorem count_S (n : Nat) (P : Nat → Bool) : (((List.range n).filter P).length : ℝ) = S n fun k => if P k then 1 else 0 := by
  induction n with
  | zero => simp [S]
  | succ n ih =>
    rw [S_add n 1, ← ih, List.range_succ, List.filter_append, List.length_append]
    simp only [S, List.range_succ, List.range_zero, List.nil_append, List.map_cons, List.map_nil, List.sum_cons, List.sum_nil, Nat.add_zero, add_zero]
    rw [List.filter_cons]
    cases P n <;> simp

theorem distSq_range (a b : Nat) (f g : Nat → ℂ) : distSq ((List.range a).map f) ((List.range b).map g) = S (min a b) fun i => ‖f i - g i‖ ^ 2 := by
  unfold distSq S
  congr 1
  apply List.ext_getElem (by simp)
  intro i h1 h2
  simp

theorem samples_dist (p : FskParams) (hr : 1 ≤ p.symbolRate) (h1 : 1 / 4 ≤ p.modIndex) (h2 : p.modIndex ≤ 5 / 2) (b b' : Bits) :
    3 * (differing p.modulation b b' (min (b.length / RefF.width p.modulation) (b'.length / RefF.width p.modulation)) : ℝ) ≤
      distSq (RefF.samples p b) (RefF.samples p b') := by
  unfold RefF.samples differing
  rw [distSq_range, count_S, ← S_scale, Nat.mul_min_mul_left, Nat.mul_comm 20, S_mul]
  apply S_le
  intro k hk
  have hR : (p.symbolRate : ℝ) ≠ 0 := by exact_mod_cast (show p.symbolRate ≠ 0 by omega)
  have e : ∀ i < 20, ‖exp (2 * Real.pi * I * (((RefF.deviation p.modulation b ((k * 20 + i) / 20) : ℚ) * (p.modIndex * p.symbolRate / 2) * (((k * 20 + i : Nat) : ℚ) / (20 * p.symbolRate)) : ℚ) : ℂ)) -
      exp (2 * Real.pi * I * (((RefF.deviation p.modulation b' ((k * 20 + i) / 20) : ℚ) * (p.modIndex * p.symbolRate / 2) * (((k * 20 + i : Nat) : ℚ) / (20 * p.symbolRate)) : ℚ) : ℂ))‖ ^ 2 =
      4 * Real.sin (Real.pi * (p.modIndex : ℝ) * ((RefF.deviation p.modulation b k - RefF.deviation p.modulation b' k : Int) : ℝ) / 40 * ((20 * k + i : Nat) : ℝ)) ^ 2 := by
    intro i hi
    rw [show (k * 20 + i) / 20 = k by omega]
    have f : ∀ d : Int, (2 * Real.pi * I * (((d : ℚ) * (p.modIndex * p.symbolRate / 2) * (((k * 20 + i : Nat) : ℚ) / (20 * p.symbolRate)) : ℚ) : ℂ)) =
        I * ((2 * Real.pi * ((d : ℝ) * (p.modIndex * p.symbolRate / 2) * (((k * 20 + i : Nat) : ℝ) / (20 * p.symbolRate))) : ℝ) : ℂ) := by
      intro d; push_cast; ring
    rw [f, f, exp_dist]
    congr 3
    push_cast
    field_simp
    ring
  rw [S_congr e]
  by_cases hne : RefF.deviation p.modulation b k = RefF.deviation p.modulation b' k
  · simp only [hne, ne_eq, not_true_eq_false, decide_false, Bool.false_eq_true, if_false, mul_zero]
    have := S_le (n := 20) (f := fun _ => 0) (g := fun i => 4 * Real.sin (Real.pi * (p.modIndex : ℝ) * ((RefF.deviation p.modulation b' k - RefF.deviation p.modulation b' k : Int) : ℝ) / 40 * ((20 * k + i : Nat) : ℝ)) ^ 2)
      fun i _ => by positivity
    rwa [S_const, mul_zero] at this
  · obtain ⟨d1, d2⟩ := dev_facts _ _ _ _ hne
    simp only [ne_eq, hne, not_false_eq_true, decide_true, if_true, mul_one]
    refine symbol_window _ ?_ ?_ _ d1 d2 k
    · have : ((1 / 4 : ℚ) : ℝ) ≤ p.modIndex := by exact_mod_cast h1
      push_cast at this; linarith
    · have : (p.modIndex : ℝ) ≤ ((5 / 2 : ℚ) : ℝ) := by exact_mod_cast h2
      push_cast at this; linarith

/-! ### From bits to symbols -/

theorem symbols2 (b b' : Bits) (hl : b.length = b'.length) : hamming b b' = differing .FSK2 b b' (min (b.length / 1) (b'.length / 1)) := by
  have h : ((hamming b b' : Nat) : ℝ) = (differing .FSK2 b b' (min (b.length / 1) (b'.length / 1)) : ℝ) := by
    unfold differing
    rw [count_S, hamming_S b b' hl, Nat.div_one, Nat.div_one, ← hl, Nat.min_self]
    apply S_congr
    intro i _
    unfold neq RefF.deviation RefF.at_
    cases b.getD i false <;> cases b'.getD i false <;> simp
  exact_mod_cast h

theorem symbols4 (b b' : Bits) (hl : b.length = b'.length) (h2 : b.length % 2 = 0) :
    hamming b b' ≤ 2 * differing .FSK4 b b' (min (b.length / 2) (b'.length / 2)) := by
  have h : ((hamming b b' : Nat) : ℝ) ≤ 2 * (differing .FSK4 b b' (min (b.length / 2) (b'.length / 2)) : ℝ) := by
    unfold differing
    rw [count_S, hamming_S b b' hl, ← hl, Nat.min_self, ← S_scale]
    conv_lhs => rw [show b.length = b.length / 2 * 2 by omega]
    rw [S_mul]
    apply S_le
    intro i _
    simp only [S, List.range_succ, List.range_zero, List.nil_append, List.cons_append, List.map_cons, List.map_nil, List.sum_cons, List.sum_nil]
    unfold neq RefF.deviation RefF.at_
    simp only [Nat.mul_comm i 2, Nat.add_zero]
    cases b.getD (2 * i) false <;> cases b'.getD (2 * i) false <;> cases b.getD (2 * i + 1) false <;> cases b'.getD (2 * i + 1) false <;> norm_num
  exact_mod_cast h

theorem signal_bits {o : FskObj} {a : Arg} {iq : List ℂ} {fs : ℚ} (hr : 1 ≤ o.params.symbolRate) (h : ((fskBitsToIQ id a).call o).1 = .ok (iq, fs)) :
    ∃ bits, ((fskBinary a).call o).1 = .ok bits ∧ bits.length % RefF.width o.params.modulation = 0 ∧ iq = RefF.samples o.params bits := by
  obtain ⟨b, hb, hm, e, -⟩ := C42.signal_parts hr h
  exact ⟨b, hb, by rw [C69.width_eq]; exact hm, by rw [e, C69.samples_ref _ hr]⟩

/-- **C99 (symbols).**  Two signals of modulators with the same configuration: the squared distance (over the shorter one) is at least three times the number
of symbols in which the transmitted bits select different frequencies. -/
theorem C99_symbols (o o' : FskObj) (hp : o'.params = o.params) (hr : 1 ≤ o.params.symbolRate) (h1 : 1 / 4 ≤ o.params.modIndex) (h2 : o.params.modIndex ≤ 5 / 2)
    (a a' : Arg) (iq iq' : List ℂ) (fs fs' : ℚ) (b b' : Bits) (h : ((fskBitsToIQ id a).call o).1 = .ok (iq, fs)) (h' : ((fskBitsToIQ id a').call o').1 = .ok (iq', fs'))
    (hb : ((fskBinary a).call o).1 = .ok b) (hb' : ((fskBinary a').call o').1 = .ok b') :
    3 * (differing o.params.modulation b b' (min (b.length / RefF.width o.params.modulation) (b'.length / RefF.width o.params.modulation)) : ℝ) ≤ distSq iq iq' := by
  obtain ⟨c, hc, -, rfl⟩ := signal_bits hr h
  obtain ⟨c', hc', -, rfl⟩ := signal_bits (by rw [hp]; exact hr) h'
  rw [hb] at hc
  rw [hb'] at hc'
  obtain rfl := Except.ok.inj hc
  obtain rfl := Except.ok.inj hc'
  rw [hp]
  exact samples_dist _ hr h1 h2 _ _

/-- Guaranteed squared distance of two coded frames. -/
def codedDist : FskMod → ℝ | .FSK2 => 18 | .FSK4 => 9

/-- **C99 (coded messages).**  With FEC, the signals of two different messages of the same length have squared distance at least 18 (2FSK) or 9 (4FSK). -/
theorem C99_coded (o o' : FskObj) (hp : o'.params = o.params) (hf : o.params.fecEnabled = true) (hr : 1 ≤ o.params.symbolRate) (h1 : 1 / 4 ≤ o.params.modIndex)
    (h2 : o.params.modIndex ≤ 5 / 2) (a a' : Arg) (m m' : Bits) (ha : checkBinaryArray a = .ok m) (ha' : checkBinaryArray a' = .ok m') (hl : m.length = m'.length)
    (hne : m ≠ m') (iq iq' : List ℂ) (fs fs' : ℚ) (h : ((fskBitsToIQ id a).call o).1 = .ok (iq, fs)) (h' : ((fskBitsToIQ id a').call o').1 = .ok (iq', fs')) :
    iq.length = iq'.length ∧ codedDist o.params.modulation ≤ distSq iq iq' := by
  obtain ⟨b, hb, hm, e⟩ := signal_bits hr h
  obtain ⟨b', hb', -, e'⟩ := signal_bits (by rw [hp]; exact hr) h'
  obtain ⟨hbl, h6⟩ := C88.C88_distance o o' hp hf a a' m m' ha ha' hl hne b b' hb hb'
  refine ⟨by rw [e, e', hp]; simp [RefF.samples, hbl], le_trans ?_ (C99_symbols o o' hp hr h1 h2 a a' iq iq' fs fs' b b' h h' hb hb')⟩
  cases hmod : o.params.modulation with
  | FSK2 =>
    have := symbols2 b b' hbl
    simp only [codedDist, RefF.width]
    have h6' : (6 : ℝ) ≤ (differing .FSK2 b b' (min (b.length / 1) (b'.length / 1)) : ℝ) := by rw [← this]; exact_mod_cast h6
    linarith
  | FSK4 =>
    rw [hmod] at hm
    have := symbols4 b b' hbl hm
    simp only [codedDist, RefF.width]
    have h6' : (3 : ℝ) ≤ (differing .FSK4 b b' (min (b.length / 2) (b'.length / 2)) : ℝ) := by
      have : 3 ≤ differing .FSK4 b b' (min (b.length / 2) (b'.length / 2)) := by omega
      exact_mod_cast this
    linarith

/-- **C99 (noise).**  A received signal at squared distance less than a quarter of the bound from the transmitted one is closer to it than to the signal of any
other message of the same length. -/
theorem C99_noise (o o' : FskObj) (hp : o'.params = o.params) (hf : o.params.fecEnabled = true) (hr : 1 ≤ o.params.symbolRate) (h1 : 1 / 4 ≤ o.params.modIndex)
    (h2 : o.params.modIndex ≤ 5 / 2) (a a' : Arg) (m m' : Bits) (ha : checkBinaryArray a = .ok m) (ha' : checkBinaryArray a' = .ok m') (hl : m.length = m'.length)
    (hne : m ≠ m') (iq iq' : List ℂ) (fs fs' : ℚ) (h : ((fskBitsToIQ id a).call o).1 = .ok (iq, fs)) (h' : ((fskBitsToIQ id a').call o').1 = .ok (iq', fs'))
    (r : List ℂ) (hrl : r.length = iq.length) (hn : distSq r iq < codedDist o.params.modulation / 4) : distSq r iq < distSq r iq' := by
  obtain ⟨e, hd⟩ := C99_coded o o' hp hf hr h1 h2 a a' m m' ha ha' hl hne iq iq' fs fs' h h'
  have := distSq_triangle r iq iq' hrl.symm (by omega)
  linarith

/-! Different symbols for different bits. -/

theorem no_difference {m : FskMod} {b b' : Bits} {n : Nat} (h : differing m b b' n = 0) : ∀ i < n * RefF.width m, b.getD i false = b'.getD i false := by
  have key : ∀ k < n, RefF.deviation m b k = RefF.deviation m b' k := by
    intro k hk
    unfold differing at h
    by_contra hne
    have := List.eq_nil_of_length_eq_zero h
    have hm : k ∈ (List.range n).filter fun k => RefF.deviation m b k ≠ RefF.deviation m b' k := by
      rw [List.mem_filter]; exact ⟨List.mem_range.2 hk, by simpa using hne⟩
    rw [this] at hm
    exact absurd hm (List.not_mem_nil)
  intro i hi
  cases m with
  | FSK2 =>
    have := key i (by simpa [RefF.width] using hi)
    unfold RefF.deviation RefF.at_ at this
    simp only at this
    revert this
    cases b.getD i false <;> cases b'.getD i false <;> decide
  | FSK4 =>
    simp only [RefF.width] at hi
    have := key (i / 2) (by omega)
    unfold RefF.deviation RefF.at_ at this
    simp only at this
    rcases Nat.mod_two_eq_zero_or_one i with e | e
    · rw [show 2 * (i / 2) = i by omega] at this
      revert this
      cases b.getD i false <;> cases b'.getD i false <;> cases b.getD (i + 1) false <;> cases b'.getD (i + 1) false <;> decide
    · rw [show 2 * (i / 2) + 1 = i by omega] at this
      revert this
      cases b.getD i false <;> cases b'.getD i false <;> cases b.getD (2 * (i / 2)) false <;> cases b'.getD (2 * (i / 2)) false <;> decide

theorem read_length {o : FskObj} {a : Arg} {m bits : Bits} (hm : checkBinaryArray a = .ok m) (h : ((fskBinary a).call o).1 = .ok bits) :
    C35.shrSize o.params + C35.headerSize o.params ≤ bits.length ∧
    C04.denotesMSB (((C41.decodeBlock o.params ((bits.drop (C35.shrSize o.params)).take (C35.headerSize o.params))).drop 5).take 11) = m.length / 8 := by
  obtain ⟨m', hdr, u, hm', hl, hp, hh, hu, hb⟩ := C35.frame_parts h
  rw [hm] at hm'
  obtain rfl := Except.ok.inj hm'
  have h16 := C35.isHeader_length hh
  have hge : C35.headerSize o.params ≤ u.length := by
    unfold C35.headerSize
    rcases hu with ⟨hf, rfl⟩ | ⟨hf, -, rfl⟩ | ⟨hf, -, hu⟩
    · rw [hf]; simp [h16]
    · rw [hf, fskFec_length]; simp [h16]; omega
    · rw [(C37.C39_involution _ _ hu).2, hf, fskFec_length]; simp [h16]; omega
  have hw : (fskWhiten o.params u).length ≥ C35.headerSize o.params := by
    have := congrArg List.length (C41.whiten_header hge)
    rw [List.length_take, List.length_take] at this
    omega
  refine ⟨by rw [hb, List.length_append, C35.shr_length]; omega, ?_⟩
  rw [hb, List.drop_left' (C35.shr_length _), C41.whiten_header hge, C41.decodeBlock_header h16 hu]
  obtain ⟨len, rfl, hlen, hn⟩ := hh
  rw [show ([false, false, false, decide (o.params.fcsType = 1), o.params.scramble] ++ len).drop 5 = len from rfl, List.take_of_length_le (l := len) (by omega), hn]

theorem take_of_getD {b b' : Bits} {n : Nat} (h1 : n ≤ b.length) (h2 : n ≤ b'.length) (h : ∀ i < n, b.getD i false = b'.getD i false) : b.take n = b'.take n := by
  apply List.ext_getElem (by simp; omega)
  intro i i1 i2
  simp only [List.length_take] at i1 i2
  have := h i (by omega)
  rw [List.getD_eq_getElem?_getD, List.getD_eq_getElem?_getD, List.getElem?_eq_getElem (by omega), List.getElem?_eq_getElem (by omega)] at this
  simpa using this

theorem bits_length {o o' : FskObj} (hp : o'.params = o.params) {a a' : Arg} {m m' b b' : Bits} (ha : checkBinaryArray a = .ok m) (ha' : checkBinaryArray a' = .ok m')
    (hl : m.length = m'.length) (hb : ((fskBinary a).call o).1 = .ok b) (hb' : ((fskBinary a').call o').1 = .ok b') : b.length = b'.length := by
  have h1 := C69.C69_bits o a m ha
  have h2 := C69.C69_bits o' a' m' ha'
  simp only at h1 h2
  rw [hb] at h1
  rw [hb', hp] at h2
  split at h1
  · cases h1
  rename_i hc
  rw [if_neg (by rw [← hl]; exact hc)] at h2
  rw [Except.ok.inj h1, Except.ok.inj h2]
  have hbl : (RefF.body o.params m).length = (RefF.body o.params m').length := by rw [C69.body_length, C69.body_length, hl]
  unfold RefF.bits; simp [hbl]

/-- **C99 (any messages).**  Whatever the configuration (coded or not), two different octet messages of any lengths give signals at squared distance at least 3
over the shorter one: in particular no signal is the beginning of another one. -/
theorem C99_any (o o' : FskObj) (hp : o'.params = o.params) (hr : 1 ≤ o.params.symbolRate) (h1 : 1 / 4 ≤ o.params.modIndex) (h2 : o.params.modIndex ≤ 5 / 2)
    (a a' : Arg) (msg msg' : List UInt8) (hd : C01.Denotes a msg) (hd' : C01.Denotes a' msg') (h0 : msg ≠ []) (h0' : msg' ≠ []) (hne : msg ≠ msg')
    (iq iq' : List ℂ) (fs fs' : ℚ) (h : ((fskBytesToIQ id a).call o).1 = .ok (iq, fs)) (h' : ((fskBytesToIQ id a').call o').1 = .ok (iq', fs')) : 3 ≤ distSq iq iq' := by
  have key : ∀ (o : FskObj) (a : Arg) (msg : List UInt8) (iq : List ℂ) (fs : ℚ), C01.Denotes a msg → msg ≠ [] → ((fskBytesToIQ id a).call o).1 = .ok (iq, fs) →
      ∃ m : Bits, toBinaryArray a = .ok m ∧ m ≠ [] ∧ m.length = 8 * msg.length ∧ ((fskBitsToIQ id (bitsArg m)).call o).1 = .ok (iq, fs) := by
    intro o a msg iq fs hd hne h
    obtain ⟨m, e, hl, -⟩ := C01.C01_lsb_first a msg hd hne
    rw [(fskBytesToIQ_result id a o).1] at h
    unfold fskBytesResult at h
    rw [e] at h
    have := List.length_pos_of_ne_nil hne
    exact ⟨m, e, by intro e; rw [e, List.length_nil] at hl; omega, hl, by rw [(fskBitsToIQ_result id _ o).1]; exact h⟩
  obtain ⟨m, e, m0, hl, g⟩ := key o a msg iq fs hd h0 h
  obtain ⟨m', e', m0', hl', g'⟩ := key o' a' msg' iq' fs' hd' h0' h'
  obtain ⟨b, hb, hm, -⟩ := signal_bits hr g
  obtain ⟨b', hb', hm', -⟩ := signal_bits (by rw [hp]; exact hr) g'
  rw [hp] at hm'
  have c := C03.C03_identity m m0
  have c' := C03.C03_identity m' m0'
  have hS := C99_symbols o o' hp hr h1 h2 _ _ iq iq' fs fs' b b' g g' hb hb'
  by_cases hz : differing o.params.modulation b b' (min (b.length / RefF.width o.params.modulation) (b'.length / RefF.width o.params.modulation)) = 0
  · exfalso
    apply hne
    have hagree := no_difference hz
    obtain ⟨r1, r2⟩ := read_length c hb
    obtain ⟨r1', r2'⟩ := read_length c' hb'
    rw [hp] at r1' r2'
    have hmin : min (b.length / RefF.width o.params.modulation) (b'.length / RefF.width o.params.modulation) * RefF.width o.params.modulation = min b.length b'.length := by
      rw [← Nat.mul_min_mul_right, Nat.div_mul_cancel (Nat.dvd_of_mod_eq_zero hm), Nat.div_mul_cancel (Nat.dvd_of_mod_eq_zero hm')]
    rw [hmin] at hagree
    have ht : (b.drop (C35.shrSize o.params)).take (C35.headerSize o.params) = (b'.drop (C35.shrSize o.params)).take (C35.headerSize o.params) := by
      have := take_of_getD r1 r1' fun i hi => hagree i (by omega)
      have d : ∀ x : Bits, (x.drop (C35.shrSize o.params)).take (C35.headerSize o.params) = (x.take (C35.shrSize o.params + C35.headerSize o.params)).drop (C35.shrSize o.params) := by
        intro x; rw [List.drop_take, Nat.add_sub_cancel_left]
      rw [d, d, this]
    rw [ht, r2'] at r2
    have hll := bits_length hp c c' (by omega) hb hb'
    have hbb : b = b' := by
      have := take_of_getD (n := b.length) le_rfl (by omega) fun i hi => hagree i (by omega)
      rw [List.take_length, hll, List.take_length] at this
      exact this
    subst hbb
    exact C41.C41_injective o o' hp a a' msg msg' hd hd' h0 h0' m m' b e e' hb hb'
  · have : (1 : ℝ) ≤ (differing o.params.modulation b b' (min (b.length / RefF.width o.params.modulation) (b'.length / RefF.width o.params.modulation)) : ℝ) := by
      exact_mod_cast Nat.one_le_iff_ne_zero.2 hz
    linarith

/-! Non-vacuity: configurations of both kinds and messages they accept. -/
example : ∀ (mod : FskMod) (fec : Bool) (b : UInt8),
    ∃ r, ((fskBytesToIQ id (.bytes [b])).call { params := ⟨50000, 1, 0, mod, fec, 1, 0, true, true, 4⟩ }).1 = .ok r := by
  intro mod fec b
  have := C69.C69_bytes { params := ⟨50000, 1, 0, mod, fec, 1, 0, true, true, 4⟩ } (show 1 ≤ 50000 by decide) (.bytes [b]) [b] rfl (by simp)
  simp only at this
  rw [if_neg (by simp)] at this
  exact ⟨_, this⟩

end
end SunPhy.C99
