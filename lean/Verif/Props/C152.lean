import Verif.Props.C88
import Verif.Props.C99
import Verif.Props.C102
import Verif.Props.C108
import Verif.Props.C148
import Verif.Props.C149
/-
C152 — the distances of MR-FSK and MR-O-QPSK signals, exactly.
-/
namespace SunPhy.C152
open SunPhy Spec Complex
noncomputable section

/-! ### MR-FSK -/

/-- Squared distance, over the 20 samples of symbol `n`, of two tones whose deviations differ by `D` units (modulation index `h`). -/
def toneDist (h : ℝ) (D : Int) (n : Nat) : ℝ :=
  if D = 0 then 0 else 40 - 2 * (Real.sin (Real.pi * h * D / 2) / Real.sin (Real.pi * h * D / 40) * Real.cos (Real.pi * h * D * (40 * n + 19) / 40))

theorem S_finset (n : Nat) (f : Nat → ℝ) : S n f = ∑ j ∈ Finset.range n, f j := by
  induction n with
  | zero => simp [S]
  | succ n ih => rw [S_add n 1, ih, Finset.sum_range_succ]; simp [S]

theorem cos_sum (a c : ℝ) (N : Nat) : 2 * Real.sin (a / 2) * S N (fun i => Real.cos (a * (c + i))) = 2 * Real.sin (a * N / 2) * Real.cos (a * (c + ((N : ℝ) - 1) / 2)) := by
  have key : ∀ N : Nat, 2 * Real.sin (a / 2) * S N (fun i => Real.cos (a * (c + i))) = Real.sin (a * (c + N - 1 / 2)) - Real.sin (a * (c - 1 / 2)) := by
    intro N
    induction N with
    | zero => simp [S]
    | succ N ih =>
      rw [S_add N 1, mul_add, ih]
      simp only [S, List.range_succ, List.range_zero, List.nil_append, List.map_cons, List.map_nil, List.sum_cons, List.sum_nil, Nat.add_zero, add_zero]
      have e1 : a * (c + ((N + 1 : Nat) : ℝ) - 1 / 2) = a * (c + N) + a / 2 := by push_cast; ring
      have e2 : a * (c + (N : ℝ) - 1 / 2) = a * (c + N) - a / 2 := by ring
      rw [e1, e2, Real.sin_add, Real.sin_sub]
      ring
  rw [key]
  have e1 : a * (c + (N : ℝ) - 1 / 2) = a * (c + ((N : ℝ) - 1) / 2) + a * N / 2 := by ring
  have e2 : a * (c - 1 / 2) = a * (c + ((N : ℝ) - 1) / 2) - a * N / 2 := by ring
  rw [e1, e2, Real.sin_add, Real.sin_sub]
  ring

theorem sin_ne {h : ℝ} (h0 : 0 < h) (h2 : h ≤ 5 / 2) {D : Int} (h1 : D ≠ 0) (h6 : |D| ≤ 6) : Real.sin (Real.pi * h * D / 40) ≠ 0 := by
  have hp := Real.pi_pos
  have hD : (1 : ℝ) ≤ |(D : ℝ)| := by rw [← Int.cast_abs]; exact_mod_cast Int.one_le_abs h1
  have hD6 : |(D : ℝ)| ≤ 6 := by rw [← Int.cast_abs]; exact_mod_cast h6
  intro hs
  have : Real.sin (Real.pi * h * |(D : ℝ)| / 40) = 0 := by
    rcases abs_choice (D : ℝ) with e | e
    · rw [e]; exact hs
    · rw [e, show Real.pi * h * -(D : ℝ) / 40 = -(Real.pi * h * D / 40) by ring, Real.sin_neg, hs, neg_zero]
  have k1 : h * |(D : ℝ)| ≤ 15 := by nlinarith
  have k0 : 0 < h * |(D : ℝ)| := mul_pos h0 (by linarith)
  have pos := Real.sin_pos_of_pos_of_lt_pi (x := Real.pi * h * |(D : ℝ)| / 40) (by rw [mul_assoc]; positivity) (by rw [mul_assoc]; nlinarith)
  rw [this] at pos
  exact lt_irrefl _ pos

theorem block_dist {h : ℝ} (h0 : 0 < h) (h2 : h ≤ 5 / 2) {D : Int} (h6 : |D| ≤ 6) (n : Nat) :
    (S 20 fun i => 4 * Real.sin (Real.pi * h * (D : ℝ) / 40 * ((20 * n + i : Nat) : ℝ)) ^ 2) = toneDist h D n := by
  unfold toneDist
  by_cases hD : D = 0
  · rw [if_pos hD, hD]; simp [S]
  rw [if_neg hD]
  have hs := sin_ne h0 h2 hD h6
  have e : ∀ i < 20, 4 * Real.sin (Real.pi * h * (D : ℝ) / 40 * ((20 * n + i : Nat) : ℝ)) ^ 2 = 2 + (-2) * Real.cos (Real.pi * h * D / 20 * (20 * n + (i : ℝ))) := by
    intro i _
    rw [Real.sin_sq, show Real.pi * h * (D : ℝ) / 20 * (20 * n + (i : ℝ)) = 2 * (Real.pi * h * (D : ℝ) / 40 * ((20 * n + i : Nat) : ℝ)) by push_cast; ring, Real.cos_two_mul]
    ring
  have sum_add : ∀ (N : Nat) (f g : Nat → ℝ), S N (fun i => f i + g i) = S N f + S N g := by
    intro N f g
    unfold S
    rw [List.sum_map_add]
  rw [S_congr e, sum_add, S_const, S_scale]
  have c := cos_sum (Real.pi * h * D / 20) (20 * n) 20
  rw [show Real.pi * h * (D : ℝ) / 20 / 2 = Real.pi * h * D / 40 by ring, show Real.pi * h * (D : ℝ) / 20 * ((20 : Nat) : ℝ) / 2 = Real.pi * h * D / 2 by push_cast; ring,
    show Real.pi * h * (D : ℝ) / 20 * (20 * (n : ℝ) + (((20 : Nat) : ℝ) - 1) / 2) = Real.pi * h * D * (40 * n + 19) / 40 by push_cast; ring] at c
  have : S 20 (fun i => Real.cos (Real.pi * h * D / 20 * (20 * n + (i : ℝ)))) =
      Real.sin (Real.pi * h * D / 2) / Real.sin (Real.pi * h * D / 40) * Real.cos (Real.pi * h * D * (40 * n + 19) / 40) := by
    rw [div_mul_eq_mul_div, eq_div_iff hs]
    linarith
  rw [this]
  push_cast
  ring

theorem dev_six (m : FskMod) (b b' : Bits) (k : Nat) : |RefF.deviation m b k - RefF.deviation m b' k| ≤ 6 := by
  unfold RefF.deviation
  cases m with
  | FSK2 => simp only; generalize RefF.at_ b k = u; generalize RefF.at_ b' k = v; revert u v; decide
  | FSK4 =>
    simp only
    generalize RefF.at_ b (2 * k) = u; generalize RefF.at_ b' (2 * k) = v; generalize RefF.at_ b (2 * k + 1) = w; generalize RefF.at_ b' (2 * k + 1) = z
    revert u v w z; decide

theorem samples_exact (p : FskParams) (hr : 1 ≤ p.symbolRate) (h1 : 0 < p.modIndex) (h2 : p.modIndex ≤ 5 / 2) (b b' : Bits) :
    distSq (RefF.samples p b) (RefF.samples p b') =
      S (min (b.length / RefF.width p.modulation) (b'.length / RefF.width p.modulation)) fun n =>
        toneDist p.modIndex (RefF.deviation p.modulation b n - RefF.deviation p.modulation b' n) n := by
  unfold RefF.samples
  rw [C99.distSq_range, Nat.mul_min_mul_left, Nat.mul_comm 20, S_mul]
  apply S_congr
  intro k hk
  have hR : (p.symbolRate : ℝ) ≠ 0 := by exact_mod_cast (show p.symbolRate ≠ 0 by omega)
  have q1 : (0 : ℝ) < p.modIndex := by exact_mod_cast h1
  have q2 : (p.modIndex : ℝ) ≤ 5 / 2 := by have := (Rat.cast_le (K := ℝ)).2 h2; push_cast at this; exact this
  rw [← block_dist q1 q2 (dev_six p.modulation b b' k) k]
  apply S_congr
  intro i hi
  rw [show (k * 20 + i) / 20 = k by omega]
  have f : ∀ d : Int, (2 * Real.pi * I * (((d : ℚ) * (p.modIndex * p.symbolRate / 2) * (((k * 20 + i : Nat) : ℚ) / (20 * p.symbolRate)) : ℚ) : ℂ)) =
      I * ((2 * Real.pi * ((d : ℝ) * (p.modIndex * p.symbolRate / 2) * (((k * 20 + i : Nat) : ℝ) / (20 * p.symbolRate))) : ℝ) : ℂ) := by
    intro d; push_cast; ring
  rw [f, f, C99.exp_dist]
  congr 3
  push_cast
  field_simp
  ring

/-- **C152 (MR-FSK).**  The squared distance of two signals of one configuration, over the shorter one: the sum over the symbols of `toneDist` of the difference of the frequencies. -/
theorem C152_fsk (o o' : FskObj) (hp : o'.params = o.params) (hr : 1 ≤ o.params.symbolRate) (h1 : 0 < o.params.modIndex) (h2 : o.params.modIndex ≤ 5 / 2)
    (a a' : Arg) (iq iq' : List ℂ) (fs fs' : ℚ) (b b' : Bits) (h : ((fskBitsToIQ id a).call o).1 = .ok (iq, fs)) (h' : ((fskBitsToIQ id a').call o').1 = .ok (iq', fs'))
    (hb : ((fskBinary a).call o).1 = .ok b) (hb' : ((fskBinary a').call o').1 = .ok b') :
    distSq iq iq' = ((List.range (min (b.length / RefF.width o.params.modulation) (b'.length / RefF.width o.params.modulation))).map fun n =>
        toneDist o.params.modIndex (RefF.deviation o.params.modulation b n - RefF.deviation o.params.modulation b' n) n).sum := by
  obtain ⟨c, hc, -, rfl⟩ := C99.signal_bits hr h
  obtain ⟨c', hc', -, rfl⟩ := C99.signal_bits (by rw [hp]; exact hr) h'
  rw [hb] at hc
  rw [hb'] at hc'
  obtain rfl := Except.ok.inj hc
  obtain rfl := Except.ok.inj hc'
  rw [hp]
  exact samples_exact _ hr h1 h2 _ _

theorem dev_even (m : FskMod) (b b' : Bits) (k : Nat) : ∃ e : Int, RefF.deviation m b k - RefF.deviation m b' k = 2 * e := by
  have : (RefF.deviation m b k - RefF.deviation m b' k) % 2 = 0 := by
    unfold RefF.deviation
    cases m with
    | FSK2 => simp only; generalize RefF.at_ b k = u; generalize RefF.at_ b' k = v; revert u v; decide
    | FSK4 =>
      simp only
      generalize RefF.at_ b (2 * k) = u; generalize RefF.at_ b' (2 * k) = v; generalize RefF.at_ b (2 * k + 1) = w; generalize RefF.at_ b' (2 * k + 1) = z
      revert u v w z; decide
  exact ⟨(RefF.deviation m b k - RefF.deviation m b' k) / 2, by omega⟩

theorem tone_integer (z : Int) (e : Int) (n : Nat) : toneDist (z : ℝ) (2 * e) n = if 2 * e = 0 then 0 else 40 := by
  unfold toneDist
  split
  · rfl
  · rw [show Real.pi * (z : ℝ) * ((2 * e : Int) : ℝ) / 2 = ((z * e : Int) : ℝ) * Real.pi by push_cast; ring, Real.sin_int_mul_pi]
    simp

/-- **C152 (integer modulation index).**  Different tones are orthogonal in every symbol: the squared distance is exactly 40 for each symbol in which the frequencies differ. -/
theorem C152_integer (o o' : FskObj) (hp : o'.params = o.params) (hr : 1 ≤ o.params.symbolRate) (z : Int) (hz : o.params.modIndex = z) (h1 : 0 < o.params.modIndex)
    (h2 : o.params.modIndex ≤ 5 / 2) (a a' : Arg) (iq iq' : List ℂ) (fs fs' : ℚ) (b b' : Bits) (h : ((fskBitsToIQ id a).call o).1 = .ok (iq, fs))
    (h' : ((fskBitsToIQ id a').call o').1 = .ok (iq', fs')) (hb : ((fskBinary a).call o).1 = .ok b) (hb' : ((fskBinary a').call o').1 = .ok b') :
    distSq iq iq' = 40 * (((List.range (min (b.length / RefF.width o.params.modulation) (b'.length / RefF.width o.params.modulation))).filter fun n =>
        RefF.deviation o.params.modulation b n ≠ RefF.deviation o.params.modulation b' n).length : ℝ) := by
  rw [C152_fsk o o' hp hr h1 h2 a a' iq iq' fs fs' b b' h h' hb hb', C99.count_S, ← S_scale]
  change S _ _ = _
  apply S_congr
  intro n _
  obtain ⟨e, he⟩ := dev_even o.params.modulation b b' n
  have hz' : ((o.params.modIndex : ℚ) : ℝ) = (z : ℝ) := by rw [hz]; push_cast; rfl
  rw [he, hz', tone_integer]
  by_cases hd : RefF.deviation o.params.modulation b n = RefF.deviation o.params.modulation b' n
  · rw [if_pos (by omega), if_neg (by simpa using hd), mul_zero]
  · rw [if_neg (by omega), if_pos (by simpa using hd), mul_one]

theorem tone_half (n : Nat) (u v : Bool) (huv : u ≠ v) :
    toneDist (1 / 2) ((if u then 1 else -1) - (if v then 1 else -1)) n = if n % 2 = 0 then 38 else 42 := by
  have hp := Real.pi_pos
  have hs : 0 < Real.sin (Real.pi / 40) := Real.sin_pos_of_pos_of_lt_pi (by positivity) (by linarith)
  have hc : Real.cos (Real.pi * (40 * n + 19) / 40) = (-1) ^ n * Real.sin (Real.pi / 40) := by
    rw [show Real.pi * (40 * n + 19) / 40 = (Real.pi / 2 - Real.pi / 40) + n * Real.pi by ring, Real.cos_add_nat_mul_pi, Real.cos_pi_div_two_sub]
  have sgn : (40 : ℝ) - 2 * (-1) ^ n = if n % 2 = 0 then 38 else 42 := by
    split
    · rw [Even.neg_one_pow (Nat.even_iff.2 ‹_›)]; norm_num
    · rw [Odd.neg_one_pow (Nat.odd_iff.2 (by omega))]; norm_num
  rw [← sgn]
  have two : toneDist (1 / 2) 2 n = 40 - 2 * (-1) ^ n := by
    unfold toneDist
    rw [if_neg (by decide)]
    push_cast
    rw [show Real.pi * (1 / 2) * 2 / 2 = Real.pi / 2 by ring, show Real.pi * (1 / 2) * 2 / 40 = Real.pi / 40 by ring,
      show Real.pi * (1 / 2) * 2 * (40 * (n : ℝ) + 19) / 40 = Real.pi * (40 * n + 19) / 40 by ring, Real.sin_pi_div_two, hc]
    field_simp
  have neg : toneDist (1 / 2) (-2) n = 40 - 2 * (-1) ^ n := by
    unfold toneDist
    rw [if_neg (by decide)]
    push_cast
    rw [show Real.pi * (1 / 2) * (-2) / 2 = -(Real.pi / 2) by ring, show Real.pi * (1 / 2) * (-2) / 40 = -(Real.pi / 40) by ring,
      show Real.pi * (1 / 2) * (-2) * (40 * (n : ℝ) + 19) / 40 = -(Real.pi * (40 * n + 19) / 40) by ring, Real.sin_neg, Real.sin_neg, Real.cos_neg, Real.sin_pi_div_two, hc]
    field_simp
  cases u <;> cases v
  · exact absurd rfl huv
  · exact neg
  · exact two
  · exact absurd rfl huv

/-- **C152 (modulation index 1/2).**  2FSK with modulation index 1/2: the squared distance is exactly 38 for each differing bit at an even place of the frame and 42 for each at an odd place. -/
theorem C152_half (o o' : FskObj) (hp : o'.params = o.params) (hr : 1 ≤ o.params.symbolRate) (hh : o.params.modIndex = 1 / 2) (hm : o.params.modulation = .FSK2)
    (a a' : Arg) (iq iq' : List ℂ) (fs fs' : ℚ) (b b' : Bits) (h : ((fskBitsToIQ id a).call o).1 = .ok (iq, fs)) (h' : ((fskBitsToIQ id a').call o').1 = .ok (iq', fs'))
    (hb : ((fskBinary a).call o).1 = .ok b) (hb' : ((fskBinary a').call o').1 = .ok b') :
    distSq iq iq' = ((List.range (min b.length b'.length)).map fun n => if b.getD n false = b'.getD n false then (0 : ℝ) else if n % 2 = 0 then 38 else 42).sum := by
  rw [C152_fsk o o' hp hr (by rw [hh]; norm_num) (by rw [hh]; norm_num) a a' iq iq' fs fs' b b' h h' hb hb', hm]
  change S _ _ = S _ _
  simp only [RefF.width, Nat.div_one]
  apply S_congr
  intro n _
  have hz' : ((o.params.modIndex : ℚ) : ℝ) = 1 / 2 := by rw [hh]; push_cast; rfl
  rw [hz']
  have hdev : ∀ x : Bits, RefF.deviation .FSK2 x n = if x.getD n false then 1 else -1 := fun x => rfl
  rw [hdev, hdev]
  by_cases e : b.getD n false = b'.getD n false
  · rw [if_pos e, e, sub_self]; unfold toneDist; rw [if_pos rfl]
  · rw [if_neg e, tone_half n _ _ e]

theorem sin_odd_sq (K : Int) (hK : K % 2 = 1) : Real.sin (Real.pi * K / 2) ^ 2 = 1 ∧ Real.cos (Real.pi * K / 2) = 0 := by
  have hc : Real.cos (Real.pi * K / 2) = 0 := by
    rw [Real.cos_eq_zero_iff]
    refine ⟨K / 2, ?_⟩
    have e : K = 2 * (K / 2) + 1 := by omega
    have e' : (K : ℝ) = 2 * ((K / 2 : Int) : ℝ) + 1 := by exact_mod_cast e
    rw [← e']; ring
  refine ⟨?_, hc⟩
  have := Real.sin_sq_add_cos_sq (Real.pi * K / 2)
  rw [hc] at this
  linarith

/-- Distance of two tones when twice the modulation index is an integer. -/
theorem tone_two {h : ℝ} (h0 : 0 < h) (h2 : h ≤ 5 / 2) (k : Int) (hk : h = k / 2) (e : Int) (h6 : |2 * e| ≤ 6) (n : Nat) :
    toneDist h (2 * e) n = if e = 0 then 0 else if k * e % 2 = 0 then 40 else if n % 2 = 0 then 38 else 42 := by
  by_cases he : e = 0
  · rw [if_pos he, he]; rfl
  rw [if_neg he]
  have hs := sin_ne h0 h2 (D := 2 * e) (by omega) h6
  unfold toneDist
  rw [if_neg (by omega)]
  have r1 : Real.pi * h * ((2 * e : Int) : ℝ) / 2 = Real.pi * ((k * e : Int) : ℝ) / 2 := by rw [hk]; push_cast; ring
  have r2 : Real.pi * h * ((2 * e : Int) : ℝ) * (40 * (n : ℝ) + 19) / 40 = Real.pi * ((k * e : Int) : ℝ) / 2 - Real.pi * h * ((2 * e : Int) : ℝ) / 40 + ((k * e * n : Int) : ℝ) * Real.pi := by
    rw [hk]; push_cast; ring
  by_cases hp : k * e % 2 = 0
  · rw [if_pos hp, r1]
    have e' : k * e = 2 * (k * e / 2) := by omega
    have : Real.pi * ((k * e : Int) : ℝ) / 2 = ((k * e / 2 : Int) : ℝ) * Real.pi := by
      have : ((k * e : Int) : ℝ) = 2 * ((k * e / 2 : Int) : ℝ) := by exact_mod_cast e'
      rw [this]; ring
    rw [this, Real.sin_int_mul_pi]
    simp
  · rw [if_neg hp]
    obtain ⟨q1, q2⟩ := sin_odd_sq (k * e) (by omega)
    rw [r2, Real.cos_add_int_mul_pi, Real.cos_sub, r1, q2]
    have sg : ((-1 : ℝ) ^ (k * e * n) : ℝ) = if n % 2 = 0 then 1 else -1 := by
      have ho : Odd (k * e) := Int.odd_iff.2 (by omega)
      rw [zpow_mul, ho.neg_one_zpow, zpow_natCast]
      split
      · exact (Nat.even_iff.2 ‹_›).neg_one_pow
      · exact (Nat.odd_iff.2 (by omega)).neg_one_pow
    rw [sg]
    have : Real.sin (Real.pi * ((k * e : Int) : ℝ) / 2) / Real.sin (Real.pi * h * ((2 * e : Int) : ℝ) / 40) *
        ((if n % 2 = 0 then (1 : ℝ) else -1) * (0 * Real.cos (Real.pi * h * ((2 * e : Int) : ℝ) / 40) + Real.sin (Real.pi * ((k * e : Int) : ℝ) / 2) * Real.sin (Real.pi * h * ((2 * e : Int) : ℝ) / 40))) =
        if n % 2 = 0 then 1 else -1 := by
      rw [zero_mul, zero_add, div_mul_eq_mul_div, div_eq_iff hs]
      calc _ = Real.sin (Real.pi * ((k * e : Int) : ℝ) / 2) ^ 2 * ((if n % 2 = 0 then (1 : ℝ) else -1) * Real.sin (Real.pi * h * ((2 * e : Int) : ℝ) / 40)) := by ring
        _ = _ := by rw [q1, one_mul]
    rw [this]
    split <;> norm_num

/-- **C152 (modulation index a multiple of 1/2).**  With frequencies `2e` units apart in symbol `n` and modulation index `k/2`, the symbol contributes 40 if `k·e` is even and otherwise 38 or 42,
depending on whether `n` is even or odd. -/
theorem C152_half_integer (o o' : FskObj) (hp : o'.params = o.params) (hr : 1 ≤ o.params.symbolRate) (k : Int) (hk : o.params.modIndex = k / 2) (h1 : 0 < o.params.modIndex)
    (h2 : o.params.modIndex ≤ 5 / 2) (a a' : Arg) (iq iq' : List ℂ) (fs fs' : ℚ) (b b' : Bits) (h : ((fskBitsToIQ id a).call o).1 = .ok (iq, fs))
    (h' : ((fskBitsToIQ id a').call o').1 = .ok (iq', fs')) (hb : ((fskBinary a).call o).1 = .ok b) (hb' : ((fskBinary a').call o').1 = .ok b') :
    distSq iq iq' = ((List.range (min (b.length / RefF.width o.params.modulation) (b'.length / RefF.width o.params.modulation))).map fun n =>
      let e := (RefF.deviation o.params.modulation b n - RefF.deviation o.params.modulation b' n) / 2
      if e = 0 then (0 : ℝ) else if k * e % 2 = 0 then 40 else if n % 2 = 0 then 38 else 42).sum := by
  rw [C152_fsk o o' hp hr h1 h2 a a' iq iq' fs fs' b b' h h' hb hb']
  change S _ _ = S _ _
  apply S_congr
  intro n _
  have q1 : (0 : ℝ) < o.params.modIndex := by exact_mod_cast h1
  have q2 : (o.params.modIndex : ℝ) ≤ 5 / 2 := by have := (Rat.cast_le (K := ℝ)).2 h2; push_cast at this; exact this
  have q3 : (o.params.modIndex : ℝ) = (k : ℝ) / 2 := by rw [hk]; push_cast; rfl
  have six := dev_six o.params.modulation b b' n
  obtain ⟨e, he⟩ := dev_even o.params.modulation b b' n
  rw [he] at six ⊢
  rw [tone_two q1 q2 k q3 e six n]
  simp only [Int.mul_ediv_cancel_left e (by decide : (2 : Int) ≠ 0)]

def dv2 (u : Bool) : Int := if u then 1 else -1
def dv4 (u w : Bool) : Int := (if u then 1 else -1) * (if w then 3 else 1)

theorem step2 : ∀ u v w z : Bool, ((u = v) ↔ (w = z)) → ((dv2 u - dv2 v) / 2 = 0 ↔ (dv2 w - dv2 z) / 2 = 0) ∧ (dv2 u - dv2 v) / 2 % 2 = (dv2 w - dv2 z) / 2 % 2 := by decide

theorem step4 : ∀ u v w z u' v' w' z' : Bool, ((u = v) ↔ (w = z)) → ((u' = v') ↔ (w' = z')) →
    ((dv4 u u' - dv4 v v') / 2 = 0 ↔ (dv4 w w' - dv4 z z') / 2 = 0) ∧ (dv4 u u' - dv4 v v') / 2 % 2 = (dv4 w w' - dv4 z z') / 2 % 2 := by decide

/-- What the distance of two symbols depends on: bits that differ at the same places give frequencies that are equal, an odd or an even number of steps apart. -/
theorem step_same (m : FskMod) (b b' c c' : Bits) (n : Nat) (h : ∀ i, (b.getD i false = b'.getD i false) ↔ (c.getD i false = c'.getD i false)) :
    ((RefF.deviation m b n - RefF.deviation m b' n) / 2 = 0 ↔ (RefF.deviation m c n - RefF.deviation m c' n) / 2 = 0) ∧
    (RefF.deviation m b n - RefF.deviation m b' n) / 2 % 2 = (RefF.deviation m c n - RefF.deviation m c' n) / 2 % 2 := by
  cases m with
  | FSK2 => exact step2 _ _ _ _ (h n)
  | FSK4 => exact step4 _ _ _ _ _ _ _ _ (h (2 * n)) (h (2 * n + 1))

/-- **C152 (differences).**  With a modulation index that is a multiple of 1/2 the distance of two signals depends only on where the messages differ, with 4FSK as with 2FSK (which C148 has
for every index). -/
theorem C152_differences (o : FskObj) (hr : 1 ≤ o.params.symbolRate) (k : Int) (hk : o.params.modIndex = k / 2) (h1 : 0 < o.params.modIndex) (h2 : o.params.modIndex ≤ 5 / 2)
    (x x' y y' : Arg) (a a' b b' : Bits) (ha : checkBinaryArray x = .ok a) (ha' : checkBinaryArray x' = .ok a') (hb : checkBinaryArray y = .ok b) (hb' : checkBinaryArray y' = .ok b')
    (hd : SameDifferences a a' b b') (s s' t t' : List ℂ) (fs fs' ft ft' : ℚ)
    (hs : ((fskBitsToIQ id x).call o).1 = .ok (s, fs)) (hs' : ((fskBitsToIQ id x').call o).1 = .ok (s', fs'))
    (ht : ((fskBitsToIQ id y).call o).1 = .ok (t, ft)) (ht' : ((fskBitsToIQ id y').call o).1 = .ok (t', ft')) : distSq s s' = distSq t t' := by
  obtain ⟨u, hu, -, -⟩ := C99.signal_bits hr hs
  obtain ⟨u', hu', -, -⟩ := C99.signal_bits hr hs'
  obtain ⟨v, hv, -, -⟩ := C99.signal_bits hr ht
  obtain ⟨v', hv', -, -⟩ := C99.signal_bits hr ht'
  obtain ⟨l1, l2, l3, hD⟩ := C148.C148_fsk_bits o x x' y y' a a' b b' ha ha' hb hb' hd u u' v v' hu hu' hv hv'
  have same : ∀ i, (u.getD i false = u'.getD i false) ↔ (v.getD i false = v'.getD i false) := by
    intro i
    by_cases hi : i < u.length
    · have := hD i hi
      simp only [List.getElem?_eq_getElem hi, List.getElem?_eq_getElem (l1 ▸ hi : i < u'.length), List.getElem?_eq_getElem (l2 ▸ hi : i < v.length),
        List.getElem?_eq_getElem (l3 ▸ hi : i < v'.length), ne_eq, Option.some.injEq] at this
      rw [List.getD_eq_getElem?_getD, List.getD_eq_getElem?_getD, List.getD_eq_getElem?_getD, List.getD_eq_getElem?_getD, List.getElem?_eq_getElem hi,
        List.getElem?_eq_getElem (l1 ▸ hi : i < u'.length), List.getElem?_eq_getElem (l2 ▸ hi : i < v.length), List.getElem?_eq_getElem (l3 ▸ hi : i < v'.length)]
      simp only [Option.getD_some]
      exact not_iff_not.1 this
    · rw [List.getD_eq_getElem?_getD, List.getD_eq_getElem?_getD, List.getD_eq_getElem?_getD, List.getD_eq_getElem?_getD, List.getElem?_eq_none (by omega),
        List.getElem?_eq_none (by omega), List.getElem?_eq_none (by omega), List.getElem?_eq_none (by omega)]
  rw [C152_half_integer o o rfl hr k hk h1 h2 x x' s s' fs fs' u u' hs hs' hu hu', C152_half_integer o o rfl hr k hk h1 h2 y y' t t' ft ft' v v' ht ht' hv hv', l1, l2, l3]
  change S _ _ = S _ _
  apply S_congr
  intro n _
  obtain ⟨e0, e2⟩ := step_same o.params.modulation u u' v v' n same
  simp only
  have : k * ((RefF.deviation o.params.modulation u n - RefF.deviation o.params.modulation u' n) / 2) % 2 =
      k * ((RefF.deviation o.params.modulation v n - RefF.deviation o.params.modulation v' n) / 2) % 2 := by
    rw [Int.mul_emod, e2, ← Int.mul_emod]
  rw [this]
  simp only [e0]

/-- 4FSK with modulation index 1/4, uncoded. -/
def quarter : FskParams := ⟨50000, 1 / 4, 0, .FSK4, false, 0, 0, false, false, 4⟩

/-- An octet message with the first two bits given. -/
def octet (u v : Bool) : Bits := [u, v, false, false, false, false, false, false]

theorem quarter_devs : ∀ v : Bool, (RefF.bits quarter (octet false v)).length = 120 ∧ (RefF.bits quarter (octet true v)).length = 120 ∧
    ∀ n < 60, RefF.deviation .FSK4 (RefF.bits quarter (octet false v)) n - RefF.deviation .FSK4 (RefF.bits quarter (octet true v)) n =
      if n = 56 then (if v then -6 else -2) else 0 := by decide +kernel

theorem single (N k : Nat) (hk : k < N) (x : ℝ) : (S N fun n => if n = k then x else 0) = x := by
  rw [S_finset, Finset.sum_ite_eq' (Finset.range N) k (fun _ => x), if_pos (Finset.mem_range.2 hk)]

theorem quarter_signal (u v : Bool) (o : FskObj) (ho : o.params = quarter) :
    ((fskBitsToIQ id (bitsArg (octet u v))).call o).1 = .ok (RefF.samples quarter (RefF.bits quarter (octet u v)), 20 * (quarter.symbolRate : ℚ)) := by
  have := (C69.C69_reference o (by rw [ho]; decide) _ _ (C03.C03_identity (octet u v) (by simp [octet]))).2 (by rw [ho]; unfold C69.Refused quarter octet; simp)
  rw [ho] at this
  exact this

theorem quarter_dist (v : Bool) :
    distSq (RefF.samples quarter (RefF.bits quarter (octet false v))) (RefF.samples quarter (RefF.bits quarter (octet true v))) = toneDist (1 / 4) (if v then -6 else -2) 56 := by
  obtain ⟨l1, l2, hd⟩ := quarter_devs v
  rw [samples_exact quarter (by decide) (by norm_num [quarter]) (by norm_num [quarter]), l1, l2]
  rw [S_congr (g := fun n => if n = 56 then toneDist (1 / 4) (if v then -6 else -2) 56 else 0), show min (120 / RefF.width quarter.modulation) (120 / RefF.width quarter.modulation) = 60 by rfl,
    single 60 56 (by omega)]
  intro n hn
  have hn : n < 60 := hn
  have := hd n hn
  change toneDist _ (RefF.deviation .FSK4 _ n - RefF.deviation .FSK4 _ n) n = _
  rw [this]
  have hq : ((quarter.modIndex : ℚ) : ℝ) = 1 / 4 := by norm_num [quarter]
  rw [hq]
  by_cases h : n = 56
  · rw [if_pos h, if_pos h, h]
  · rw [if_neg h, if_neg h]; rfl

/-- **C152 (other indices).**  With other indices this fails for 4FSK: with index 1/4, inverting the first bit of an octet moves the signal by less than 40 if the second bit is 0 and by more than
40 if it is 1. -/
theorem C152_quarter (o : FskObj) (ho : o.params = quarter) :
    SameDifferences (octet false false) (octet true false) (octet false true) (octet true true) ∧
    ∃ (s s' t t' : List ℂ) (fs : ℚ), ((fskBitsToIQ id (bitsArg (octet false false))).call o).1 = .ok (s, fs) ∧ ((fskBitsToIQ id (bitsArg (octet true false))).call o).1 = .ok (s', fs) ∧
      ((fskBitsToIQ id (bitsArg (octet false true))).call o).1 = .ok (t, fs) ∧ ((fskBitsToIQ id (bitsArg (octet true true))).call o).1 = .ok (t', fs) ∧
      distSq s s' < 40 ∧ 40 < distSq t t' := by
  have hp := Real.pi_pos
  refine ⟨by unfold SameDifferences; decide, _, _, _, _, _, quarter_signal _ _ o ho, quarter_signal _ _ o ho, quarter_signal _ _ o ho, quarter_signal _ _ o ho, ?_, ?_⟩
  · rw [quarter_dist false]
    unfold toneDist
    rw [if_neg (by decide)]
    have e1 : Real.pi * (1 / 4) * ((if false = true then (-6 : Int) else -2 : Int) : ℝ) / 2 = -(Real.pi / 4) := by norm_num; ring
    have e2 : Real.pi * (1 / 4) * ((if false = true then (-6 : Int) else -2 : Int) : ℝ) / 40 = -(Real.pi / 80) := by norm_num; ring
    have e3 : Real.pi * (1 / 4) * ((if false = true then (-6 : Int) else -2 : Int) : ℝ) * (40 * ((56 : Nat) : ℝ) + 19) / 40 = -(19 * Real.pi / 80 + (14 : Nat) * (2 * Real.pi)) := by norm_num; ring
    rw [e1, e2, e3, Real.sin_neg, Real.sin_neg, neg_div_neg_eq, Real.cos_neg, Real.cos_add_nat_mul_two_pi]
    have s1 : 0 < Real.sin (Real.pi / 4) := Real.sin_pos_of_pos_of_lt_pi (by positivity) (by linarith)
    have s2 : 0 < Real.sin (Real.pi / 80) := Real.sin_pos_of_pos_of_lt_pi (by positivity) (by linarith)
    have s3 : 0 < Real.cos (19 * Real.pi / 80) := Real.cos_pos_of_mem_Ioo ⟨by linarith, by linarith⟩
    have := mul_pos (div_pos s1 s2) s3
    linarith
  · rw [quarter_dist true]
    unfold toneDist
    rw [if_neg (by decide)]
    have e1 : Real.pi * (1 / 4) * ((if true = true then (-6 : Int) else -2 : Int) : ℝ) / 2 = -(3 * Real.pi / 4) := by norm_num; ring
    have e2 : Real.pi * (1 / 4) * ((if true = true then (-6 : Int) else -2 : Int) : ℝ) / 40 = -(3 * Real.pi / 80) := by norm_num; ring
    have e3 : Real.pi * (1 / 4) * ((if true = true then (-6 : Int) else -2 : Int) : ℝ) * (40 * ((56 : Nat) : ℝ) + 19) / 40 = -(57 * Real.pi / 80 + (42 : Nat) * (2 * Real.pi)) := by norm_num; ring
    rw [e1, e2, e3, Real.sin_neg, Real.sin_neg, neg_div_neg_eq, Real.cos_neg, Real.cos_add_nat_mul_two_pi]
    have s1 : 0 < Real.sin (3 * Real.pi / 4) := Real.sin_pos_of_pos_of_lt_pi (by positivity) (by linarith)
    have s2 : 0 < Real.sin (3 * Real.pi / 80) := Real.sin_pos_of_pos_of_lt_pi (by positivity) (by linarith)
    have s3 : Real.cos (57 * Real.pi / 80) < 0 := Real.cos_neg_of_pi_div_two_lt_of_lt (by linarith) (by linarith)
    have := mul_neg_of_pos_of_neg (div_pos s1 s2) s3
    linarith

/-- **C152 (closest coded messages).**  2FSK with FEC and an integer modulation index: next to every message there is another one whose signal is at squared distance exactly 240,
and no other message of that length is closer. -/
theorem C152_closest (o o' : FskObj) (hp : o'.params = o.params) (hf : o.params.fecEnabled = true) (hm : o.params.modulation = .FSK2) (hr : 1 ≤ o.params.symbolRate) (z : Int)
    (hz : o.params.modIndex = z) (h1 : 0 < o.params.modIndex) (h2 : o.params.modIndex ≤ 5 / 2) (a a' : Arg) (m : Bits) (j : Nat) (hj : j + 4 < m.length)
    (ha : checkBinaryArray a = .ok m) (ha' : checkBinaryArray a' = .ok (flipped m (if o.params.fecScheme = 0 then [j, j + 1] else [j, j + 4])))
    (iq : List ℂ) (fs : ℚ) (h : ((fskBitsToIQ id a).call o).1 = .ok (iq, fs)) :
    (∃ iq' fs', ((fskBitsToIQ id a').call o').1 = .ok (iq', fs') ∧ iq'.length = iq.length ∧ distSq iq iq' = 240) ∧
    ∀ (o'' : FskObj) (a'' : Arg) (m'' : Bits) (iq'' : List ℂ) (fs'' : ℚ), o''.params = o.params → checkBinaryArray a'' = .ok m'' → m''.length = m.length → m'' ≠ m →
      ((fskBitsToIQ id a'').call o'').1 = .ok (iq'', fs'') → 240 ≤ distSq iq iq'' := by
  obtain ⟨b, hb, hw, e⟩ := C99.signal_bits hr h
  have exact_ : ∀ (o'' : FskObj) (a'' : Arg) (iq'' : List ℂ) (fs'' : ℚ) (c : Bits), o''.params = o.params → ((fskBitsToIQ id a'').call o'').1 = .ok (iq'', fs'') →
      ((fskBinary a'').call o'').1 = .ok c → b.length = c.length → distSq iq iq'' = 40 * (hamming b c : ℝ) := by
    intro o'' a'' iq'' fs'' c hp'' h'' hc hl
    rw [C152_integer o o'' hp'' hr z hz h1 h2 a a'' iq iq'' fs fs'' b c h h'' hb hc, hm, C99.symbols2 b c hl]
    rfl
  constructor
  · obtain ⟨b', hb', hl', h6⟩ := C149.C149_fsk o o' hp hf a a' m j hj ha ha' b hb
    obtain ⟨e1, e2⟩ := C69.C69_reference o' (by rw [hp]; exact hr) a' _ ha'
    have nR : ¬ C69.Refused o'.params (flipped m (if o.params.fecScheme = 0 then [j, j + 1] else [j, j + 4])) := by
      intro hR
      obtain ⟨k1, k2⟩ := C69.C69_reference o hr a m ha
      refine absurd (k1 ?_) (by rw [h]; exact fun q => nomatch q)
      rw [hp] at hR
      unfold C69.Refused at hR ⊢
      rw [C149.flipped_length] at hR
      exact hR
    have h'' := e2 nR
    refine ⟨_, _, h'', ?_, ?_⟩
    · obtain ⟨c, hc, -, e'⟩ := C99.signal_bits (by rw [hp]; exact hr) h''
      rw [hb'] at hc
      obtain rfl := Except.ok.inj hc
      rw [e', e, hp]
      simp only [RefF.samples, List.length_map, List.length_range, hl']
    · rw [exact_ o' a' _ _ b' hp h'' hb' hl'.symm, h6]
      norm_num
  · intro o'' a'' m'' iq'' fs'' hp'' ha'' hl'' hne h''
    obtain ⟨c, hc, -, -⟩ := C99.signal_bits (by rw [hp'']; exact hr) h''
    obtain ⟨k1, k2⟩ := C88.C88_distance o o'' hp'' hf a a'' m m'' ha ha'' hl''.symm (Ne.symm hne) b c hb hc
    rw [exact_ o'' a'' iq'' fs'' c hp'' h'' hc k1]
    have : (6 : ℝ) ≤ hamming b c := by exact_mod_cast k2
    linarith

/-! ### MR-O-QPSK -/

theorem pair_dist (a b a' b' : Bool) (p : ℝ) :
    ‖(chipValue a + I * chipValue b) * (p : ℂ) - (chipValue a' + I * chipValue b') * (p : ℂ)‖ ^ 2 = 4 * (neq a a' + neq b b') * p ^ 2 := by
  rw [← sub_mul, norm_mul, mul_pow, Complex.norm_real, Real.norm_eq_abs, sq_abs, Complex.sq_norm, Complex.normSq_apply]
  congr 1
  cases a <;> cases b <;> cases a' <;> cases b' <;> simp [chipValue, neq] <;> norm_num

theorem oqpsk_exact (bd : Band) (sps : Nat) (hs : 1 ≤ sps) (c c' : Bits) (hl : c.length = c'.length) (he : c.length % 2 = 0) :
    distSq (RefQ.samples bd sps c) (RefQ.samples bd sps c') = 4 * RxQ.pulseEnergy bd sps * hamming c c' := by
  unfold RefQ.samples
  rw [← hl, C99.distSq_range, Nat.min_self, Nat.add_sub_assoc hs, S_add]
  have z : (S (sps - 1) fun i => ‖(if c.length / 2 * sps + i < c.length / 2 * sps then
      (chipValue (c.getD (2 * ((c.length / 2 * sps + i) / sps)) false) + I * chipValue (c.getD (2 * ((c.length / 2 * sps + i) / sps) + 1) false)) *
        (pulseSample bd sps ((c.length / 2 * sps + i) % sps) : ℝ) else 0) -
      (if c.length / 2 * sps + i < c.length / 2 * sps then
      (chipValue (c'.getD (2 * ((c.length / 2 * sps + i) / sps)) false) + I * chipValue (c'.getD (2 * ((c.length / 2 * sps + i) / sps) + 1) false)) *
        (pulseSample bd sps ((c.length / 2 * sps + i) % sps) : ℝ) else 0)‖ ^ 2) = 0 := by
    rw [S_congr (g := fun _ => 0), S_const, mul_zero]
    intro i _
    rw [if_neg (by omega), if_neg (by omega), sub_self, norm_zero]
    norm_num
  rw [z, add_zero, S_mul, hamming_S c c' hl]
  conv_rhs => rw [show c.length = c.length / 2 * 2 by omega]
  rw [S_mul, ← S_scale]
  apply S_congr
  intro i hi
  have e : ∀ j < sps, ‖(if i * sps + j < c.length / 2 * sps then
      (chipValue (c.getD (2 * ((i * sps + j) / sps)) false) + I * chipValue (c.getD (2 * ((i * sps + j) / sps) + 1) false)) * (pulseSample bd sps ((i * sps + j) % sps) : ℝ) else 0) -
      (if i * sps + j < c.length / 2 * sps then
      (chipValue (c'.getD (2 * ((i * sps + j) / sps)) false) + I * chipValue (c'.getD (2 * ((i * sps + j) / sps) + 1) false)) * (pulseSample bd sps ((i * sps + j) % sps) : ℝ) else 0)‖ ^ 2 =
      4 * (neq (c.getD (2 * i) false) (c'.getD (2 * i) false) + neq (c.getD (2 * i + 1) false) (c'.getD (2 * i + 1) false)) * pulseSample bd sps j ^ 2 := by
    intro j hj
    have lt : i * sps + j < c.length / 2 * sps := by
      calc i * sps + j < i * sps + sps := by omega
        _ = (i + 1) * sps := by ring
        _ ≤ _ := Nat.mul_le_mul_right _ (by omega)
    rw [if_pos lt, if_pos lt, Nat.mul_comm i, Nat.mul_add_div (by omega), Nat.div_eq_of_lt hj, Nat.add_zero, Nat.mul_add_mod, Nat.mod_eq_of_lt hj]
    exact pair_dist _ _ _ _ _
  rw [S_congr e, S_scale]
  have pe : S sps (fun j => pulseSample bd sps j ^ 2) = RxQ.pulseEnergy bd sps := by
    exact S_finset _ _
  rw [pe]
  simp only [S, List.range_succ, List.range_zero, List.nil_append, List.cons_append, List.map_cons, List.map_nil, List.sum_cons, List.sum_nil, Nat.add_zero, add_zero, Nat.mul_comm i 2]
  ring

/-- **C152 (MR-O-QPSK).**  Messages of one length, one configuration: the squared distance of the signals is four times the energy of the pulse for each chip in which the transmitted
chip sequences differ. -/
theorem C152_oqpsk (o o' : OqpskObj) (hp : o'.params = o.params) (h : C63.Standard o.params) (a a' : Arg) (m m' : Bits) (ha : checkBinaryArray a = .ok m)
    (ha' : checkBinaryArray a' = .ok m') (hl : m'.length = m.length) (iq iq' : List ℂ) (fs fs' : ℚ)
    (hr : ((oqpskBitsToIQ a).call o).1 = .ok (iq, fs)) (hr' : ((oqpskBitsToIQ a').call o').1 = .ok (iq', fs')) :
    ∃ c c', ((oqpskBitsToIQ a).call o).2.cPPDU = some c ∧ ((oqpskBitsToIQ a').call o').2.cPPDU = some c' ∧ c'.length = c.length ∧ iq'.length = iq.length ∧
      distSq iq iq' = 4 * RxQ.pulseEnergy o.params.band o.params.sps * hamming c c' := by
  have key : ∀ (o : OqpskObj) (_ : C63.Standard o.params) (x : Arg) (m : Bits) (s : List ℂ) (f : ℚ), checkBinaryArray x = .ok m → ((oqpskBitsToIQ x).call o).1 = .ok (s, f) →
      s = RefQ.samples o.params.band o.params.sps (RefQ.chips o.params.band (decide (o.params.sm = 1)) o.params.rm.toNat m) ∧
      (RefQ.chips o.params.band (decide (o.params.sm = 1)) o.params.rm.toNat m).length = C96.frameChipsOf o.params m.length := by
    intro o h x m s f h1 h2
    have h3 := C108.C108_reference o h x m h1
    have hne : m ≠ [] := by
      have hacc := (C03.C03_accepts_iff x).1 ⟨m, h1⟩
      have := (C03.C03_validation x).1 hacc
      rw [h1] at this
      rw [Except.ok.inj this]
      cases x <;> simp_all [C03.Acceptable, C03.entries]
    by_cases hR : m.length / 8 ≤ 2047 ∧ C96.Spreadable o.params m.length
    · rw [h3.2 hR] at h2
      exact ⟨(congrArg Prod.fst (Except.ok.inj h2)).symm, (C108.frame_ref h m hne hR.1 hR.2).2⟩
    · rw [h3.1 hR] at h2; cases h2
  have h' : C63.Standard o'.params := by rw [hp]; exact h
  obtain ⟨e, n⟩ := key o h a m iq fs ha hr
  obtain ⟨e', n'⟩ := key o' h' a' m' iq' fs' ha' hr'
  rw [hp] at e' n'
  rw [hl] at n'
  refine ⟨_, _, by rw [C87.C87_oqpsk_bitsToIQ o h a m ha _ hr]; rfl, by rw [C87.C87_oqpsk_bitsToIQ o' h' a' m' ha' _ hr']; rfl, ?_, ?_, ?_⟩
  · rw [hp, n, n']
  · rw [e, e']; simp only [RefQ.samples, List.length_map, List.length_range, n, n']
  · rw [e, e', hp]
    exact oqpsk_exact _ _ h.sps _ _ (by rw [n, n']) (by rw [n]; exact C96.chips_even _ h _)

/-- The energy of the half sine pulse. -/
theorem half_sine_energy (b : Band) (hb : b = .b915 ∨ b = .b2450) (sps : Nat) (hs : 3 ≤ sps) : RxQ.pulseEnergy b sps = sps / 4 := by
  have hp := Real.pi_pos
  have hS : (3 : ℝ) ≤ sps := by exact_mod_cast hs
  have hS0 : (sps : ℝ) ≠ 0 := by positivity
  let g : Nat → ℝ := fun j => Real.sin (2 * Real.pi * j / sps) ^ 2
  let P : Nat → ℝ := fun j => if sps ≤ 2 * j then g j else 0
  let Q : Nat → ℝ := fun j => if 2 * j ≤ sps then g j else 0
  have pulse : ∀ j < sps, pulseSample b sps j ^ 2 = P j := by
    intro j hj
    have hj' : (j : ℝ) < sps := by exact_mod_cast hj
    have e : bandPulse b = halfSinePulse := by rcases hb with rfl | rfl <;> rfl
    unfold pulseSample
    rw [e]
    unfold halfSinePulse
    have up : -2 + 4 * (j : ℝ) / sps ≤ 2 := by
      have : 4 * (j : ℝ) / sps ≤ 4 := by rw [div_le_iff₀ (by positivity)]; linarith
      linarith
    have low : 0 ≤ -2 + 4 * (j : ℝ) / sps ↔ sps ≤ 2 * j := by
      rw [show (0 ≤ -2 + 4 * (j : ℝ) / sps) ↔ 2 ≤ 4 * (j : ℝ) / sps from ⟨fun h => by linarith, fun h => by linarith⟩, le_div_iff₀ (by positivity)]
      constructor
      · intro h
        have : (sps : ℝ) ≤ 2 * j := by linarith
        exact_mod_cast this
      · intro h
        have : (sps : ℝ) ≤ 2 * j := by exact_mod_cast h
        linarith
    by_cases h : sps ≤ 2 * j
    · rw [if_pos ⟨low.2 h, up⟩]
      simp only [P, g, if_pos h]
      rw [show Real.pi * (-2 + 4 * (j : ℝ) / sps) / 2 = 2 * Real.pi * j / sps - Real.pi by field_simp; ring, Real.sin_sub_pi, neg_sq]
    · rw [if_neg fun k => h (low.1 k.1)]
      simp only [P, if_neg h]
      norm_num
  have gend : g sps = 0 := by
    simp only [g]
    rw [mul_div_assoc, div_self hS0, mul_one, Real.sin_two_pi]; norm_num
  have refl : ∀ j ≤ sps, g (sps - j) = g j := by
    intro j hj
    simp only [g]
    rw [Nat.cast_sub hj, show 2 * Real.pi * ((sps : ℝ) - j) / sps = 2 * Real.pi - 2 * Real.pi * j / sps by field_simp, Real.sin_two_pi_sub, neg_sq]
  have mid : ∀ j, 2 * j = sps → g j = 0 := by
    intro j hj
    have : (sps : ℝ) = 2 * j := by exact_mod_cast hj.symm
    simp only [g]
    have hj0 : (j : ℝ) ≠ 0 := by intro h0; rw [h0, mul_zero] at this; exact hS0 this
    rw [this, show 2 * Real.pi * (j : ℝ) / (2 * j) = Real.pi by field_simp, Real.sin_pi]; norm_num
  have PQ : ∑ j ∈ Finset.range (sps + 1), P j = ∑ j ∈ Finset.range (sps + 1), Q j := by
    rw [← Finset.sum_range_reflect P]
    apply Finset.sum_congr rfl
    intro j hj
    have hj := Finset.mem_range.1 hj
    simp only [P, Q, Nat.add_sub_cancel]
    by_cases h : 2 * j ≤ sps
    · rw [if_pos (by omega), if_pos h, refl j (by omega)]
    · rw [if_neg (by omega), if_neg h]
  have sum : ∑ j ∈ Finset.range (sps + 1), P j + ∑ j ∈ Finset.range (sps + 1), Q j = ∑ j ∈ Finset.range (sps + 1), g j := by
    rw [← Finset.sum_add_distrib]
    apply Finset.sum_congr rfl
    intro j _
    simp only [P, Q]
    rcases Nat.lt_trichotomy (2 * j) sps with h | h | h
    · rw [if_neg (by omega), if_pos (by omega), zero_add]
    · rw [if_pos (by omega), if_pos (by omega), mid j h, zero_add]
    · rw [if_pos (by omega), if_neg (by omega), add_zero]
  have total : ∑ j ∈ Finset.range sps, g j = sps / 2 := by
    rw [← S_finset]
    have e : ∀ j < sps, g j = 1 / 2 + (-1 / 2) * Real.cos (4 * Real.pi / sps * (0 + (j : ℝ))) := by
      intro j _
      simp only [g]
      rw [Real.sin_sq, show 4 * Real.pi / sps * (0 + (j : ℝ)) = 2 * (2 * Real.pi * j / sps) by ring, Real.cos_two_mul]
      ring
    rw [S_congr e, S_finset, Finset.sum_add_distrib, ← S_finset, ← S_finset, S_const, S_scale]
    have c := cos_sum (4 * Real.pi / sps) 0 sps
    rw [show 4 * Real.pi / sps * (sps : ℝ) / 2 = 2 * Real.pi by field_simp; ring, Real.sin_two_pi, mul_zero, zero_mul, show 4 * Real.pi / sps / 2 = 2 * Real.pi / sps by ring] at c
    have ns : Real.sin (2 * Real.pi / sps) ≠ 0 := by
      apply ne_of_gt
      apply Real.sin_pos_of_pos_of_lt_pi (by positivity)
      rw [div_lt_iff₀ (by positivity)]
      nlinarith
    have z : S sps (fun i => Real.cos (4 * Real.pi / sps * (0 + (i : ℝ)))) = 0 := by
      rcases mul_eq_zero.1 c with h | h
      · exact absurd h (mul_ne_zero two_ne_zero ns)
      · exact h
    rw [z]
    ring
  rw [Finset.sum_range_succ g, gend, add_zero, total] at sum
  have last : ∑ j ∈ Finset.range (sps + 1), P j = ∑ j ∈ Finset.range sps, P j := by
    rw [Finset.sum_range_succ]
    simp only [P]
    rw [if_pos (by omega), gend, add_zero]
  unfold RxQ.pulseEnergy
  rw [Finset.sum_congr rfl fun j hj => pulse j (Finset.mem_range.1 hj), ← last]
  linarith

/-- **C152 (half sine).**  At 915 and 2450 MHz with at least three samples per symbol the squared distance is `samples_per_symbol` for each differing chip. -/
theorem C152_half_sine (o o' : OqpskObj) (hp : o'.params = o.params) (h : C63.Standard o.params) (hb : o.params.band = .b915 ∨ o.params.band = .b2450) (h3 : 3 ≤ o.params.sps)
    (a a' : Arg) (m m' : Bits) (ha : checkBinaryArray a = .ok m) (ha' : checkBinaryArray a' = .ok m') (hl : m'.length = m.length) (iq iq' : List ℂ) (fs fs' : ℚ)
    (hr : ((oqpskBitsToIQ a).call o).1 = .ok (iq, fs)) (hr' : ((oqpskBitsToIQ a').call o').1 = .ok (iq', fs')) :
    ∃ c c', ((oqpskBitsToIQ a).call o).2.cPPDU = some c ∧ ((oqpskBitsToIQ a').call o').2.cPPDU = some c' ∧ c'.length = c.length ∧
      distSq iq iq' = o.params.sps * hamming c c' := by
  obtain ⟨c, c', e1, e2, e3, -, e5⟩ := C152_oqpsk o o' hp h a a' m m' ha ha' hl iq iq' fs fs' hr hr'
  refine ⟨c, c', e1, e2, e3, ?_⟩
  rw [e5, half_sine_energy _ hb _ h3]
  ring

/-! Non-vacuity. -/

/-- MR-FSK, integer modulation index with FEC and modulation index 1/2: every 3 octet message is accepted. -/
example (m : Bits) (hm : m.length = 24) :
    (∃ r, ((fskBitsToIQ id (bitsArg m)).call { params := ⟨50000, 1, 0, .FSK2, true, 1, 0, true, true, 4⟩ }).1 = .ok r) ∧
    (∃ r, ((fskBitsToIQ id (bitsArg m)).call { params := ⟨50000, 1 / 2, 0, .FSK2, false, 0, 0, true, false, 4⟩ }).1 = .ok r) ∧
    (∃ r, ((oqpskBitsToIQ (bitsArg m)).call { params := ⟨.b470, 2, 0, 10⟩ }).1 = .ok r) ∧
    ∃ r, ((oqpskBitsToIQ (bitsArg m)).call { params := ⟨.b2450, 0, 0, 4⟩ }).1 = .ok r := by
  have hm0 : m ≠ [] := by rintro rfl; simp at hm
  have hid := C03.C03_identity m hm0
  refine ⟨⟨_, (C69.C69_reference _ (by decide) _ m hid).2 (by unfold C69.Refused; rw [hm]; decide)⟩,
    ⟨_, (C69.C69_reference _ (by decide) _ m hid).2 (by unfold C69.Refused; rw [hm]; decide)⟩, ?_⟩
  have s1 := (C108.C108_reference (o := { params := ⟨.b470, 2, 0, 10⟩ }) ⟨by decide, Or.inl rfl, by decide⟩ _ m hid).2
  have s2 := (C108.C108_reference (o := { params := ⟨.b2450, 0, 0, 4⟩ }) ⟨by decide, Or.inl rfl, by decide⟩ _ m hid).2
  simp only at s1 s2
  exact ⟨⟨_, s1 (by rw [hm]; unfold C96.Spreadable; decide)⟩, ⟨_, s2 (by rw [hm]; unfold C96.Spreadable; decide)⟩⟩

end
end SunPhy.C152
