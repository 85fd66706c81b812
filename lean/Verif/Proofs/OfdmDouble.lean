import Verif.Model.MrOfdmDouble
import Verif.Proofs.OfdmResult
import Verif.Spec.Dft
/-
Error of the MR-OFDM samples computed by a machine whose primitives have relative error `ε`.
-/
namespace SunPhy
open Complex Spec OfdmParams
noncomputable section

/-- The primitives of the machine have relative error at most `ε`: products, quotients, square roots; the exponentials that occur; the inverse FFT in relation to the Euclidean norm
of its input. -/
structure Accurate (M : FloatOps) (ε : ℝ) : Prop where
  mul : ∀ z w, ‖M.mul z w - z * w‖ ≤ ε * (‖z‖ * ‖w‖)
  div : ∀ x y, y ≠ 0 → |M.div x y - x / y| ≤ ε * |x / y|
  sqrt : ∀ x, 0 ≤ x → |M.sqrt x - Real.sqrt x| ≤ ε * Real.sqrt x
  rot : ∀ m ≤ 1000, ‖M.rot m - exp (I * 2 * Real.pi * m / 4)‖ ≤ ε
  ifft_length : ∀ x, (M.ifft x).length = x.length
  ifft : ∀ x n, n < x.length → ‖(M.ifft x).getD n 0 - (ifftOrtho x).getD n 0‖ ≤ ε * Real.sqrt (energy x)

namespace OfdmDouble

theorem getD_lt {l : List ℂ} {n : Nat} (h : n < l.length) : l.getD n 0 = l[n] := by rw [List.getD_eq_getElem?_getD, List.getElem?_eq_getElem h]; rfl

/-- Entry by entry within `τ`. -/
def Within (τ : ℝ) (x y : List ℂ) : Prop := List.Forall₂ (fun a b => ‖a - b‖ ≤ τ) x y

theorem Within.length {τ : ℝ} {x y : List ℂ} (h : Within τ x y) : x.length = y.length := List.Forall₂.length_eq h

theorem Within.mono {τ σ : ℝ} {x y : List ℂ} (h : Within τ x y) (hs : τ ≤ σ) : Within σ x y := List.Forall₂.imp (fun _ _ h => h.trans hs) h

theorem Within.append {τ : ℝ} {x y x' y' : List ℂ} (h : Within τ x y) (h' : Within τ x' y') : Within τ (x ++ x') (y ++ y') := List.rel_append h h'

theorem Within.drop {τ : ℝ} {x y : List ℂ} (h : Within τ x y) (n : Nat) : Within τ (x.drop n) (y.drop n) := List.forall₂_drop n h

theorem within_of {τ : ℝ} {x y : List ℂ} (hl : x.length = y.length) (h : ∀ n < x.length, ‖x.getD n 0 - y.getD n 0‖ ≤ τ) : Within τ x y := by
  unfold Within
  rw [List.forall₂_iff_get]
  refine ⟨hl, fun i h1 h2 => ?_⟩
  have := h i h1
  rw [getD_lt h1, getD_lt h2] at this
  simpa using this

theorem Within.get {τ : ℝ} {x y : List ℂ} (h : Within τ x y) {n : Nat} (hn : n < x.length) : ‖x.getD n 0 - y.getD n 0‖ ≤ τ := by
  have := (List.forall₂_iff_get.1 h).2 n hn (by rw [← h.length]; exact hn)
  rw [getD_lt hn, getD_lt (by rw [← h.length]; exact hn)]
  simpa using this

theorem cyclicPrefix_within {τ : ℝ} {x y : List ℂ} (h : Within τ x y) (CP : ℚ) : Within τ (cyclicPrefix CP x) (cyclicPrefix CP y) := by
  unfold cyclicPrefix
  split
  · simp only
    rw [h.length]
    exact (h.drop _).append h
  · exact h

theorem flatMap_within {τ : ℝ} {α β : Type} {R : α → β → Prop} {x : List α} {y : List β} (h : List.Forall₂ R x y) (f : α → List ℂ) (g : β → List ℂ)
    (hfg : ∀ a b, R a b → Within τ (f a) (g b)) : Within τ (x.flatMap f) (y.flatMap g) := by
  induction h with
  | nil => exact List.Forall₂.nil
  | cons hab _ ih => rw [List.flatMap_cons, List.flatMap_cons]; exact (hfg _ _ hab).append ih

/-! ### The inverse FFT -/

theorem energy_le {x : List ℂ} {B : ℝ} (h : ∀ z ∈ x, ‖z‖ ≤ B) : energy x ≤ x.length * B ^ 2 := by
  unfold energy
  have := List.sum_le_card_nsmul (x.map fun v => ‖v‖ ^ 2) (B ^ 2) (fun v hv => by
    obtain ⟨z, hz, rfl⟩ := List.mem_map.1 hv
    exact pow_le_pow_left₀ (norm_nonneg _) (h z hz) 2)
  rwa [List.length_map, nsmul_eq_mul] at this

theorem exp_norm (k n N : Nat) : ‖exp (2 * Real.pi * I * k * n / N)‖ = 1 := by
  have : (2 * Real.pi * I * k * n / N : ℂ) = ((2 * Real.pi * k * n / N : ℝ) : ℂ) * I := by push_cast; ring
  rw [this, norm_exp_ofReal_mul_I]

theorem sqrtN {N : Nat} (hN : 0 < N) : (N : ℝ) / Real.sqrt N = Real.sqrt N := Real.div_sqrt

theorem ifft_getD (x : List ℂ) (n : Nat) (hn : n < x.length) : (ifftOrtho x).getD n 0 =
    (∑ k ∈ Finset.range x.length, x.getD k 0 * exp (2 * Real.pi * I * k * n / x.length)) / (Real.sqrt x.length : ℂ) := by
  unfold ifftOrtho
  rw [List.getD_eq_getElem?_getD, List.getElem?_map, List.getElem?_range hn]
  rfl

theorem sum_norm_le {N : Nat} {δ : ℝ} (f : Nat → ℂ) (hf : ∀ k < N, ‖f k‖ ≤ δ) (n : Nat) (hN : 0 < N) :
    ‖(∑ k ∈ Finset.range N, f k * exp (2 * Real.pi * I * k * n / N)) / (Real.sqrt N : ℂ)‖ ≤ Real.sqrt N * δ := by
  have hs : 0 < Real.sqrt N := Real.sqrt_pos.2 (by exact_mod_cast hN)
  rw [norm_div, Complex.norm_real, Real.norm_of_nonneg hs.le, div_le_iff₀ hs]
  refine (norm_sum_le _ _).trans ?_
  refine (Finset.sum_le_sum (g := fun _ => δ) fun k hk => ?_).trans ?_
  · rw [norm_mul, exp_norm, mul_one]; exact hf k (Finset.mem_range.1 hk)
  · rw [Finset.sum_const, Finset.card_range, nsmul_eq_mul, mul_comm (Real.sqrt N) δ, mul_assoc, Real.mul_self_sqrt (by positivity), mul_comm]

theorem ifft_within {M : FloatOps} {ε : ℝ} (hM : Accurate M ε) (hε : 0 ≤ ε) {x y : List ℂ} {δ B : ℝ} (hB : 0 ≤ B) (h : Within δ x y) (hb : ∀ z ∈ x, ‖z‖ ≤ B) (h0 : x ≠ []) :
    Within (Real.sqrt x.length * (ε * B + δ)) (M.ifft x) (ifftOrtho y) := by
  have hN : 0 < x.length := List.length_pos_iff.2 h0
  apply within_of
  · rw [hM.ifft_length, h.length]; simp [ifftOrtho]
  intro n hn
  rw [hM.ifft_length] at hn
  have e1 := hM.ifft x n hn
  have e2 : Real.sqrt (energy x) ≤ Real.sqrt x.length * B := by
    rw [← Real.sqrt_sq hB, ← Real.sqrt_mul (by positivity)]
    exact Real.sqrt_le_sqrt (energy_le hb)
  have e3 : ‖(ifftOrtho x).getD n 0 - (ifftOrtho y).getD n 0‖ ≤ Real.sqrt x.length * δ := by
    rw [ifft_getD x n hn, ifft_getD y n (by rw [← h.length]; exact hn), ← h.length, ← sub_div, ← Finset.sum_sub_distrib]
    have := sum_norm_le (N := x.length) (fun k => x.getD k 0 - y.getD k 0) (fun k hk => h.get hk) n hN
    refine le_trans (le_of_eq ?_) this
    congr 2
    apply Finset.sum_congr rfl
    intro k _
    ring
  calc ‖(M.ifft x).getD n 0 - (ifftOrtho y).getD n 0‖
      ≤ ‖(M.ifft x).getD n 0 - (ifftOrtho x).getD n 0‖ + ‖(ifftOrtho x).getD n 0 - (ifftOrtho y).getD n 0‖ := norm_sub_le_norm_sub_add_norm_sub _ _ _
    _ ≤ ε * (Real.sqrt x.length * B) + Real.sqrt x.length * δ := add_le_add (e1.trans (mul_le_mul_of_nonneg_left e2 hε)) e3
    _ = _ := by ring

theorem shift_within {τ : ℝ} {x y : List ℂ} (h : Within τ x y) : Within τ (ifftshift x) (ifftshift y) := by
  apply within_of
  · simp [ifftshift, h.length]
  intro n hn
  simp only [ifftshift, List.length_map, List.length_range] at hn
  unfold ifftshift
  rw [← h.length, List.getD_eq_getElem?_getD, List.getD_eq_getElem?_getD, List.getElem?_map, List.getElem?_map, List.getElem?_range hn]
  exact h.get (Nat.mod_lt _ (by omega))

theorem shift_mem {x : List ℂ} {B : ℝ} (hB : 0 ≤ B) (h : ∀ z ∈ x, ‖z‖ ≤ B) : ∀ z ∈ ifftshift x, ‖z‖ ≤ B := by
  intro z hz
  unfold ifftshift at hz
  obtain ⟨i, hi, rfl⟩ := List.mem_map.1 hz
  rw [List.getD_eq_getElem?_getD]
  have : (i + x.length / 2) % x.length < x.length := Nat.mod_lt _ (by have := List.mem_range.1 hi; omega)
  rw [List.getElem?_eq_getElem this]
  exact h _ (List.getElem_mem _)

theorem ofdmIfft_within {M : FloatOps} {ε : ℝ} (hM : Accurate M ε) (hε : 0 ≤ ε) {x y : List ℂ} {δ B : ℝ} (hB : 0 ≤ B) (h : Within δ x y) (hb : ∀ z ∈ x, ‖z‖ ≤ B) (h0 : x ≠ []) :
    Within (Real.sqrt x.length * (ε * B + δ)) (ofdmIfftF M x) (ofdmIfft y) := by
  have hl : (ifftshift x).length = x.length := by simp [ifftshift]
  have := ifft_within hM hε hB (shift_within h) (shift_mem hB hb) (by intro e; rw [e] at hl; exact h0 (List.eq_nil_of_length_eq_zero hl.symm))
  rwa [hl] at this

/-! ### The data values -/

/-- A machine number that stands for the exact value `w`. -/
def Rep (ε : ℝ) {M : FloatOps} (z : Num M) (w : ℂ) : Prop := ‖z.val - w‖ ≤ 7 * ε ∧ ‖z.val‖ ≤ 3 / 2

theorem inv_sqrt_err {M : FloatOps} {ε : ℝ} (hM : Accurate M ε) (hε : 0 ≤ ε) (hε1 : ε ≤ 1 / 1000) {a : ℝ} (ha : 0 < a) :
    |M.div 1 (M.sqrt a) - 1 / Real.sqrt a| ≤ 201 / 100 * ε * (1 / Real.sqrt a) := by
  have hs := Real.sqrt_pos.2 ha
  have h1 := hM.sqrt a ha.le
  generalize Real.sqrt a = r at *
  generalize M.sqrt a = s at *
  have hs2 : 999 / 1000 * r ≤ s := by
    have := (abs_le.1 h1).1
    nlinarith
  have hs0 : 0 < s := by nlinarith
  have h2 := hM.div 1 s hs0.ne'
  rw [abs_of_pos (show 0 < 1 / s by positivity)] at h2
  have h3 : |1 / s - 1 / r| ≤ ε * (1 / s) := by
    have : 1 / s - 1 / r = (r - s) / r * (1 / s) := by field_simp
    rw [this, abs_mul, abs_of_pos (show 0 < 1 / s by positivity), abs_div, abs_of_pos hs]
    refine mul_le_mul_of_nonneg_right ?_ (by positivity)
    rw [div_le_iff₀ hs, abs_sub_comm]; exact h1
  have h4 : 1 / s ≤ 1000 / 999 * (1 / r) := by
    rw [mul_one_div, div_le_div_iff₀ hs0 hs]
    linarith
  have h5 := abs_sub_le (M.div 1 s) (1 / s) (1 / r)
  have hr : 0 < 1 / r := by positivity
  nlinarith

theorem kMod_pos (k : ModKind) : 0 < kMod k := by cases k <;> unfold kMod <;> positivity

theorem kMod_err {M : FloatOps} {ε : ℝ} (hM : Accurate M ε) (hε : 0 ≤ ε) (hε1 : ε ≤ 1 / 1000) (k : ModKind) : |kModF M k - kMod k| ≤ 201 / 100 * ε * kMod k := by
  cases k
  · simp only [kModF, kMod, sub_self, abs_zero]; positivity
  · exact inv_sqrt_err hM hε hε1 (by norm_num)
  · exact inv_sqrt_err hM hε hε1 (by norm_num)

/-- The complex number of a Gaussian integer. -/
def gi (z : GI) : ℂ := (z.re : ℂ) + (z.im : ℂ) * I

theorem gi_normSq (z : GI) : ‖gi z‖ ^ 2 = (z.re : ℝ) ^ 2 + (z.im : ℝ) ^ 2 := by
  rw [← Complex.normSq_eq_norm_sq, Complex.normSq_apply]
  unfold gi
  simp
  ring

theorem point_norm (k : ModKind) (b : Bits) : ‖gi (C08.point k b)‖ * kMod k ≤ 27 / 20 := by
  have h2 : Real.sqrt 2 ^ 2 = 2 := Real.sq_sqrt (by norm_num)
  have h10 : Real.sqrt 10 ^ 2 = 10 := Real.sq_sqrt (by norm_num)
  have key : ‖gi (C08.point k b)‖ ^ 2 * kMod k ^ 2 ≤ 9 / 5 := by
    rw [gi_normSq]
    have zero : ∀ k', (((⟨0, 0⟩ : GI).re : ℝ) ^ 2 + ((⟨0, 0⟩ : GI).im : ℝ) ^ 2) * kMod k' ^ 2 ≤ 9 / 5 := by intro k'; norm_num
    unfold C08.point
    split
    · rename_i b0; cases b0 <;> norm_num [C08.level1, kMod]
    · rename_i b0 b1
      have : kMod .QPSK ^ 2 = 1 / 2 := by unfold kMod; rw [div_pow, h2]; norm_num
      rw [this]
      cases b0 <;> cases b1 <;> norm_num [C08.level1]
    · rename_i b0 b1 b2 b3
      have : kMod .QAM16 ^ 2 = 1 / 10 := by unfold kMod; rw [div_pow, h10]; norm_num
      rw [this]
      cases b0 <;> cases b1 <;> cases b2 <;> cases b3 <;> norm_num [C08.level2]
    · exact zero _
  have h0 := norm_nonneg (gi (C08.point k b))
  have h1 := kMod_pos k
  rw [← mul_pow] at key
  nlinarith [mul_nonneg h0 h1.le]

theorem map_err {M : FloatOps} {ε : ℝ} (hM : Accurate M ε) (hε : 0 ≤ ε) (hε1 : ε ≤ 1 / 1000) (k : ModKind) (b : Bits) :
    ‖M.mul (gi (C08.point k b)) (kModF M k) - gi (C08.point k b) * kMod k‖ ≤ 41 / 10 * ε ∧ ‖gi (C08.point k b) * kMod k‖ ≤ 27 / 20 := by
  have hp := point_norm k b
  have hk := kMod_pos k
  have he := kMod_err hM hε hε1 k
  have hm := hM.mul (gi (C08.point k b)) (kModF M k)
  generalize gi (C08.point k b) = z at *
  have hz := norm_nonneg z
  generalize kMod k = f at *
  generalize kModF M k = F at *
  have hF : |F| ≤ (1 + 201 / 100 * ε) * f := by
    have := abs_sub_abs_le_abs_sub F f
    rw [abs_of_pos hk] at this
    linarith
  have n1 : ‖((F : ℝ) : ℂ)‖ = |F| := by rw [Complex.norm_real, Real.norm_eq_abs]
  have n2 : ‖z * ((F : ℝ) : ℂ) - z * ((f : ℝ) : ℂ)‖ = ‖z‖ * |F - f| := by
    rw [← mul_sub, norm_mul, ← Complex.ofReal_sub, Complex.norm_real, Real.norm_eq_abs]
  refine ⟨?_, ?_⟩
  · have t := norm_sub_le_norm_sub_add_norm_sub (M.mul z F) (z * ((F : ℝ) : ℂ)) (z * ((f : ℝ) : ℂ))
    rw [n2] at t
    rw [n1] at hm
    have a1 : ε * (‖z‖ * |F|) ≤ ε * (‖z‖ * ((1 + 201 / 100 * ε) * f)) := by gcongr
    have a2 : ‖z‖ * |F - f| ≤ ‖z‖ * (201 / 100 * ε * f) := by gcongr
    have a3 : ε * (‖z‖ * ((1 + 201 / 100 * ε) * f)) + ‖z‖ * (201 / 100 * ε * f) = (‖z‖ * f) * (ε * (1 + 201 / 100 * ε) + 201 / 100 * ε) := by ring
    have a4 : (‖z‖ * f) * (ε * (1 + 201 / 100 * ε) + 201 / 100 * ε) ≤ 27 / 20 * (ε * (1 + 201 / 100 * ε) + 201 / 100 * ε) := by gcongr
    nlinarith
  · rw [norm_mul, Complex.norm_real, Real.norm_of_nonneg hk.le]; exact hp

theorem rot_norm (m : Nat) : ‖exp (I * 2 * Real.pi * m / 4)‖ = 1 := by
  have : (I * 2 * Real.pi * m / 4 : ℂ) = ((2 * Real.pi * m / 4 : ℝ) : ℂ) * I := by push_cast; ring
  rw [this, norm_exp_ofReal_mul_I]

theorem turn_err {M : FloatOps} {ε : ℝ} (hM : Accurate M ε) (hε : 0 ≤ ε) (hε1 : ε ≤ 1 / 1000) {x y : ℂ} (hx : ‖x - y‖ ≤ 41 / 10 * ε) (hy : ‖y‖ ≤ 27 / 20) {m : Nat} (hm : m ≤ 1000) :
    ‖M.mul x (M.rot m) - y * exp (I * 2 * Real.pi * m / 4)‖ ≤ 7 * ε ∧ ‖M.mul x (M.rot m)‖ ≤ 3 / 2 := by
  have h1 := hM.mul x (M.rot m)
  have h2 := hM.rot m hm
  have h3 := rot_norm m
  generalize exp (I * 2 * Real.pi * m / 4) = r at *
  generalize M.rot m = r' at *
  have hr : ‖r'‖ ≤ 1 + ε := by have := norm_sub_norm_le r' r; linarith
  have hx' : ‖x‖ ≤ 136 / 100 := by have := norm_sub_norm_le x y; linarith
  have e1 : ‖x * r' - y * r‖ ≤ ‖x‖ * ε + 41 / 10 * ε := by
    have : x * r' - y * r = x * (r' - r) + (x - y) * r := by ring
    rw [this]
    refine (norm_add_le _ _).trans ?_
    rw [norm_mul, norm_mul, h3, mul_one]
    have := mul_le_mul_of_nonneg_left h2 (norm_nonneg x)
    linarith
  have e2 : ε * (‖x‖ * ‖r'‖) ≤ ε * (136 / 100 * (1 + ε)) := by
    have := mul_le_mul hx' hr (norm_nonneg _) (by norm_num)
    exact mul_le_mul_of_nonneg_left this hε
  have e3 : ‖x‖ * ε ≤ 136 / 100 * ε := mul_le_mul_of_nonneg_right hx' hε
  have t := norm_sub_le_norm_sub_add_norm_sub (M.mul x r') (x * r') (y * r)
  have main : ‖M.mul x r' - y * r‖ ≤ 7 * ε := by nlinarith
  refine ⟨main, ?_⟩
  have := norm_sub_norm_le (M.mul x r') (y * r)
  rw [norm_mul, h3, mul_one] at this
  linarith

/-! ### Symbols -/

theorem set_rel {α β : Type} {R : α → β → Prop} {x : List α} {y : List β} (h : List.Forall₂ R x y) {a : α} {b : β} (hab : R a b) (n : Nat) :
    List.Forall₂ R (x.set n a) (y.set n b) := by
  induction h generalizing n with
  | nil => exact List.Forall₂.nil
  | cons hh ht ih =>
    cases n with
    | zero => exact List.Forall₂.cons hab ht
    | succ n => exact List.Forall₂.cons hh (ih n)

theorem put_rel {α β : Type} {R : α → β → Prop} (N : Nat) {v : List α} {v' : List β} (hv : List.Forall₂ R v v') :
    ∀ (tones : List Int) {x : List α} {y : List β}, List.Forall₂ R x y → List.Forall₂ R (put N x tones v) (put N y tones v') := by
  induction hv with
  | nil => intro tones x y h; simpa [put] using h
  | cons hh _ ih =>
    intro tones x y h
    cases tones with
    | nil => simpa [put] using h
    | cons t ts => exact ih ts (set_rel h hh (row N t))

theorem symbolOf_rel {α β : Type} [Zero α] [Zero β] {R : α → β → Prop} (h0 : R 0 0) (N padL padR : Nat) (ps : List Int) {pv col : List α} {pv' col' : List β}
    (hp : List.Forall₂ R pv pv') (hc : List.Forall₂ R col col') : List.Forall₂ R (symbolOf N padL padR ps pv col) (symbolOf N padL padR ps pv' col') := by
  unfold symbolOf
  refine put_rel N hc _ (put_rel N hp _ ?_)
  rw [List.forall₂_iff_get]
  refine ⟨by simp, fun i h1 h2 => by simpa using h0⟩

theorem rep_mono {ε : ℝ} (hε : 0 ≤ ε) (hε1 : ε ≤ 1 / 1000) {M : FloatOps} {z : Num M} {w : ℂ} (h : ‖z.val - w‖ ≤ 41 / 10 * ε ∧ ‖w‖ ≤ 27 / 20) : Rep ε z w := by
  refine ⟨by linarith [h.1], ?_⟩
  have := norm_sub_norm_le z.val w
  linarith [h.1, h.2]

theorem mapCol_rel {M : FloatOps} {ε : ℝ} (hM : Accurate M ε) (hε : 0 ≤ ε) (hε1 : ε ≤ 1 / 1000) (k : ModKind) (blk : Bits) :
    List.Forall₂ (fun (z : Num M) w => ‖z.val - w‖ ≤ 41 / 10 * ε ∧ ‖w‖ ≤ 27 / 20) (mapCol (floatNumbers M (kModF M k)) k blk) (mapCol (complexNumbers (kMod k)) k blk) := by
  unfold mapCol
  rw [List.forall₂_map_left_iff, List.forall₂_map_right_iff, List.forall₂_same]
  intro b _
  exact map_err hM hε hε1 k b

theorem mulPhase_rel {M : FloatOps} {ε : ℝ} (hM : Accurate M ε) (hε : 0 ≤ ε) (hε1 : ε ≤ 1 / 1000) (F f : ℝ) {x : List (Num M)} {y : List ℂ}
    (h : List.Forall₂ (fun (z : Num M) w => ‖z.val - w‖ ≤ 41 / 10 * ε ∧ ‖w‖ ≤ 27 / 20) x y) (ph : Nat → Nat) (hph : ∀ i < x.length, ph (i + 1) ≤ 1000) :
    List.Forall₂ (Rep ε) (mulPhase (floatNumbers M F) ph x) (mulPhase (complexNumbers f) ph y) := by
  obtain ⟨hl, hg⟩ := List.forall₂_iff_get.1 h
  rw [List.forall₂_iff_get]
  refine ⟨by simp [mulPhase, hl], fun i h1 h2 => ?_⟩
  simp only [mulPhase, List.length_map, List.length_zipIdx] at h1 h2
  obtain ⟨g1, g2⟩ := hg i h1 h2
  have := turn_err hM hε hε1 g1 g2 (hph i h1)
  simp only [List.get_eq_getElem] at this
  simp only [mulPhase, List.get_eq_getElem, List.getElem_map, List.getElem_zipIdx, Nat.zero_add]
  exact this

theorem spreadCol_rel {M : FloatOps} {ε : ℝ} (hM : Accurate M ε) (hε : 0 ≤ ε) (hε1 : ε ≤ 1 / 1000) (F f : ℝ) (sf : Nat) {x : List (Num M)} {y : List ℂ}
    (h : List.Forall₂ (fun (z : Num M) w => ‖z.val - w‖ ≤ 41 / 10 * ε ∧ ‖w‖ ≤ 27 / 20) x y) (hx : x.length ≤ 200) :
    List.Forall₂ (Rep ε) (spreadCol (floatNumbers M F) sf x) (spreadCol (complexNumbers f) sf y) := by
  have h0 : List.Forall₂ (Rep ε) x y := h.imp fun _ _ h => rep_mono hε hε1 h
  unfold spreadCol
  split
  · exact h0
  split
  · exact List.rel_append (mulPhase_rel hM hε hε1 F f h _ fun i hi => by omega) h0
  · exact List.rel_append (List.rel_append (List.rel_append (mulPhase_rel hM hε hε1 F f h _ fun i hi => by omega) (mulPhase_rel hM hε hε1 F f h _ fun i hi => by omega)) h0)
      (mulPhase_rel hM hε hε1 F f h _ fun i hi => by omega)

theorem pilot_rel {M : FloatOps} {ε : ℝ} (hε : 0 ≤ ε) (F f : ℝ) (b : Bool) : Rep ε (pilotOf (floatNumbers M F) (bpsk b)) (pilotOf (complexNumbers f) (bpsk b)) := by
  have : (pilotOf (floatNumbers M F) (bpsk b)).val = pilotOf (complexNumbers f) (bpsk b) := rfl
  refine ⟨by rw [this, sub_self, norm_zero]; positivity, ?_⟩
  rw [this]
  unfold pilotOf complexNumbers
  cases b <;> norm_num [bpsk]

theorem stream_rel {M : FloatOps} {ε : ℝ} (hM : Accurate M ε) (hε : 0 ≤ ε) (hε1 : ε ≤ 1 / 1000) (p : OfdmParams) (MCS L : Nat) (hL : L / (mcsModulation MCS).bitsPerSymbol ≤ 200)
    (st : OfdmState) (bits : Bits) :
    List.Forall₂ (List.Forall₂ (Rep ε))
      (streamSymbols (p.ofdmCfg MCS (Num M)) (floatNumbers M (kModF M (mcsModulation MCS))) (optPilots (Num M) p.option) L st bits)
      (streamSymbols (p.ofdmCfg MCS ℂ) (complexNumbers (kMod (mcsModulation MCS))) (optPilots ℂ p.option) L st bits) := by
  unfold streamSymbols
  rw [List.forall₂_iff_get]
  refine ⟨by simp, fun i h1 h2 => ?_⟩
  simp only [List.get_eq_getElem, List.getElem_mapIdx]
  simp only [List.length_mapIdx] at h1
  have hb := mem_chunks_length (List.getElem_mem h1)
  generalize (chunks L bits)[i] = blk at *
  unfold nthSymbol
  refine symbolOf_rel ⟨by show ‖(0 : ℂ) - 0‖ ≤ _; rw [sub_self, norm_zero]; positivity, by show ‖(0 : ℂ)‖ ≤ _; rw [norm_zero]; norm_num⟩ _ _ _ _ ?_ ?_
  · show List.Forall₂ _ (List.map _ _) (List.map _ _)
    refine List.forall₂_map_left_iff.2 (List.forall₂_map_right_iff.2 ?_)
    exact List.forall₂_same.2 fun b _ => pilot_rel hε _ _ (b == 1)
  · unfold dataCol
    refine spreadCol_rel hM hε hε1 _ _ _ (mapCol_rel hM hε hε1 _ _) ?_
    rw [mapCol_length, hb]
    exact hL

/-- Samples of the symbols as the machine computes them. -/
def symbolsIQF (M : FloatOps) (cols : List (List (Num M))) : List ℂ := cols.flatMap fun col => cyclicPrefix (1 / 4) (ofdmIfftF M (col.map Num.val))

theorem symbols_within {M : FloatOps} {ε : ℝ} (hM : Accurate M ε) (hε : 0 ≤ ε) {cols : List (List (Num M))} {cols' : List (List ℂ)}
    (h : List.Forall₂ (List.Forall₂ (Rep ε)) cols cols') (hN : ∀ c ∈ cols, 0 < c.length ∧ c.length ≤ 128) : Within (100 * ε) (symbolsIQF M cols) (symbolsIQ cols') := by
  unfold symbolsIQF symbolsIQ
  have h' : List.Forall₂ (fun a b => (0 < a.length ∧ a.length ≤ 128) ∧ List.Forall₂ (Rep ε) a b) cols cols' := by
    rw [List.forall₂_iff_get] at h ⊢
    exact ⟨h.1, fun i h1 h2 => ⟨hN _ (List.getElem_mem h1), h.2 i h1 h2⟩⟩
  refine flatMap_within h' _ _ fun a b ⟨⟨hl, hl2⟩, hab⟩ => cyclicPrefix_within ?_ _
  have hw : Within (7 * ε) (a.map Num.val) b := by
    unfold Within
    rw [List.forall₂_map_left_iff]
    exact hab.imp fun _ _ h => h.1
  have hb : ∀ z ∈ a.map Num.val, ‖z‖ ≤ 3 / 2 := by
    intro z hz
    obtain ⟨x, hx, rfl⟩ := List.mem_map.1 hz
    obtain ⟨i, hi, rfl⟩ := List.getElem_of_mem hx
    have := (List.forall₂_iff_get.1 hab)
    exact (this.2 i hi (by rw [← this.1]; exact hi)).2
  have := ofdmIfft_within hM hε (by norm_num) hw hb (by intro e; rw [List.map_eq_nil_iff] at e; rw [e] at hl; simp at hl)
  refine this.mono ?_
  rw [List.length_map]
  have hs : Real.sqrt a.length ≤ 1132 / 100 := by
    apply Real.sqrt_le_iff.2
    refine ⟨by norm_num, ?_⟩
    have : (a.length : ℝ) ≤ 128 := by exact_mod_cast hl2
    norm_num
    linarith
  have : Real.sqrt a.length * (ε * (3 / 2) + 7 * ε) ≤ 1132 / 100 * (ε * (3 / 2) + 7 * ε) := mul_le_mul_of_nonneg_right hs (by positivity)
  linarith

/-! ### Training fields -/

theorem amp_err {M : FloatOps} {ε : ℝ} (hM : Accurate M ε) (hε : 0 ≤ ε) (hε1 : ε ≤ 1 / 1000) {a b : ℝ} (ha : 0 < a) (hb : 0 < b) :
    |M.sqrt (M.div a b) - Real.sqrt (a / b)| ≤ 201 / 100 * ε * Real.sqrt (a / b) := by
  have hq : 0 < a / b := by positivity
  have h1 := hM.div a b hb.ne'
  rw [abs_of_pos hq] at h1
  generalize a / b = q at *
  generalize M.div a b = r at *
  have hr : 0 ≤ r := by have := (abs_le.1 h1).1; nlinarith
  have h2 := hM.sqrt r hr
  have hs := Real.sqrt_pos.2 hq
  have h3 : |Real.sqrt r - Real.sqrt q| ≤ ε * Real.sqrt q := by
    have e : (Real.sqrt r - Real.sqrt q) * (Real.sqrt r + Real.sqrt q) = r - q := by
      have := Real.mul_self_sqrt hr
      have := Real.mul_self_sqrt hq.le
      ring_nf
      rw [Real.sq_sqrt hr, Real.sq_sqrt hq.le]
    have h4 : |Real.sqrt r - Real.sqrt q| * Real.sqrt q ≤ ε * Real.sqrt q * Real.sqrt q := by
      have : |Real.sqrt r - Real.sqrt q| * Real.sqrt q ≤ |Real.sqrt r - Real.sqrt q| * (Real.sqrt r + Real.sqrt q) :=
        mul_le_mul_of_nonneg_left (by linarith [Real.sqrt_nonneg r]) (abs_nonneg _)
      refine this.trans ?_
      have e2 : |Real.sqrt r - Real.sqrt q| * (Real.sqrt r + Real.sqrt q) = |r - q| := by
        rw [← e, abs_mul, abs_of_nonneg (show 0 ≤ Real.sqrt r + Real.sqrt q by positivity)]
      rw [e2, mul_assoc, Real.mul_self_sqrt hq.le]
      exact h1
    exact le_of_mul_le_mul_right h4 hs
  have h5 : Real.sqrt r ≤ (1 + ε) * Real.sqrt q := by have := (abs_le.1 h3).2; linarith
  have h6 := abs_sub_le (M.sqrt r) (Real.sqrt r) (Real.sqrt q)
  have h7 : ε * Real.sqrt r ≤ ε * ((1 + ε) * Real.sqrt q) := mul_le_mul_of_nonneg_left h5 hε
  have h8 : ε * ((1 + ε) * Real.sqrt q) ≤ 101 / 100 * ε * Real.sqrt q := by
    rw [← mul_assoc]
    apply mul_le_mul_of_nonneg_right _ hs.le
    nlinarith
  linarith

theorem stf_quotient {opt : Nat} (ho : opt = 1 ∨ opt = 2 ∨ opt = 3 ∨ opt = 4) : 0 < (stfQuotient opt).1 ∧ 0 < (stfQuotient opt).2 ∧
    ((stfPower opt : ℚ) : ℝ) = (stfQuotient opt).1 / (stfQuotient opt).2 ∧ Real.sqrt ((stfQuotient opt).1 / (stfQuotient opt).2) ≤ 295 / 100 := by
  have key : ∀ q : ℝ, q ≤ 87 / 10 → Real.sqrt q ≤ 295 / 100 := fun q hq => Real.sqrt_le_iff.2 ⟨by norm_num, by norm_num; linarith⟩
  rcases ho with rfl | rfl | rfl | rfl <;> refine ⟨by norm_num [stfQuotient], by norm_num [stfQuotient], by norm_num [stfQuotient, stfPower], key _ (by norm_num [stfQuotient])⟩

theorem stfTable_within {M : FloatOps} {ε : ℝ} (hM : Accurate M ε) (hε : 0 ≤ ε) (hε1 : ε ≤ 1 / 1000) {opt : Nat} (ho : opt = 1 ∨ opt = 2 ∨ opt = 3 ∨ opt = 4) :
    Within (6 * ε) (stfTableF M opt) (stfTable opt) ∧ ∀ z ∈ stfTableF M opt, ‖z‖ ≤ 296 / 100 := by
  obtain ⟨q1, q2, q3, q4⟩ := stf_quotient ho
  have he := amp_err hM hε hε1 q1 q2
  have hs := Real.sqrt_nonneg ((stfQuotient opt).1 / (stfQuotient opt).2)
  unfold stfTableF stfTable
  simp only
  rw [q3]
  generalize Real.sqrt ((stfQuotient opt).1 / (stfQuotient opt).2) = A at *
  generalize M.sqrt (M.div (stfQuotient opt).1 (stfQuotient opt).2) = A' at *
  have hd : |A' - A| ≤ 6 * ε := he.trans (by nlinarith)
  have hA : |A'| ≤ 296 / 100 := by
    have := abs_sub_abs_le_abs_sub A' A
    rw [abs_of_nonneg hs] at this
    linarith
  constructor
  · unfold Within
    rw [List.forall₂_map_left_iff, List.forall₂_map_right_iff, List.forall₂_same]
    intro i _
    split
    · rw [← Complex.ofReal_sub, Complex.norm_real, Real.norm_eq_abs]; exact hd
    · split
      · rw [← Complex.ofReal_sub, Complex.norm_real, Real.norm_eq_abs, show -A' - -A = -(A' - A) by ring, abs_neg]; exact hd
      · rw [sub_self, norm_zero]; positivity
  · intro z hz
    obtain ⟨i, -, rfl⟩ := List.mem_map.1 hz
    split
    · rw [Complex.norm_real, Real.norm_eq_abs]; exact hA
    · split
      · rw [Complex.norm_real, Real.norm_eq_abs, abs_neg]; exact hA
      · rw [norm_zero]; norm_num

/-- One STF symbol as the machine computes it. -/
def stfSymF (M : FloatOps) (opt : Nat) : List ℂ := cyclicPrefix (1 / 4) (ofdmIfftF M (stfTableF M opt))

theorem stfTableF_length (M : FloatOps) (o : Nat) : (stfTableF M o).length = fftSize o := by simp [stfTableF]

theorem fft_le : ∀ o ∈ [1, 2, 3, 4], fftSize o ≤ 128 := by decide

theorem sqrt_fft {n : Nat} (h : n ≤ 128) : Real.sqrt n ≤ 1132 / 100 := by
  apply Real.sqrt_le_iff.2
  refine ⟨by norm_num, ?_⟩
  have : (n : ℝ) ≤ 128 := by exact_mod_cast h
  norm_num
  linarith

theorem ifft_bound {x : List ℂ} {B : ℝ} (hb : ∀ z ∈ x, ‖z‖ ≤ B) : ∀ z ∈ ifftOrtho x, ‖z‖ ≤ Real.sqrt x.length * B := by
  intro z hz
  obtain ⟨n, hn, rfl⟩ := List.getElem_of_mem hz
  have hn' : n < x.length := by simpa [ifftOrtho] using hn
  rw [← getD_lt hn, ifft_getD x n hn']
  exact sum_norm_le (fun k => x.getD k 0) (fun k hk => by rw [getD_lt hk]; exact hb _ (List.getElem_mem _)) n (by omega)

theorem cyclicPrefix_mem {CP : ℚ} {x : List ℂ} {z : ℂ} (h : z ∈ cyclicPrefix CP x) : z ∈ x := by
  unfold cyclicPrefix at h
  split at h
  · simp only [List.mem_append] at h
    rcases h with h | h
    · exact List.mem_of_mem_drop h
    · exact h
  · exact h

theorem stfTable_norm {opt : Nat} (ho : opt = 1 ∨ opt = 2 ∨ opt = 3 ∨ opt = 4) : ∀ z ∈ stfTable opt, ‖z‖ ≤ 295 / 100 := by
  obtain ⟨-, -, q3, q4⟩ := stf_quotient ho
  have hs := Real.sqrt_nonneg ((stfQuotient opt).1 / (stfQuotient opt).2)
  intro z hz
  unfold stfTable at hz
  obtain ⟨i, -, rfl⟩ := List.mem_map.1 hz
  simp only
  rw [q3]
  split
  · rw [Complex.norm_real, Real.norm_of_nonneg hs]; exact q4
  · split
    · rw [Complex.norm_real, Real.norm_eq_abs, abs_neg, abs_of_nonneg hs]; exact q4
    · rw [norm_zero]; norm_num

theorem stfSym_within {M : FloatOps} {ε : ℝ} (hM : Accurate M ε) (hε : 0 ≤ ε) (hε1 : ε ≤ 1 / 1000) {opt : Nat} (ho : opt = 1 ∨ opt = 2 ∨ opt = 3 ∨ opt = 4) :
    Within (102 * ε) (stfSymF M opt) (cyclicPrefix (1 / 4) (ofdmIfft (stfTable opt))) ∧ ∀ z ∈ cyclicPrefix (1 / 4) (ofdmIfft (stfTable opt)), ‖z‖ ≤ 334 / 10 := by
  obtain ⟨w, b⟩ := stfTable_within hM hε hε1 ho
  have hmem : opt ∈ [1, 2, 3, 4] := by simp; omega
  have h128 := fft_le opt hmem
  have hpos := (fft_facts opt hmem).2
  have hs := sqrt_fft h128
  constructor
  · have := ofdmIfft_within hM hε (B := 296 / 100) (by norm_num) w b (by intro e; have := stfTableF_length M opt; rw [e] at this; simp at this; omega)
    rw [stfTableF_length] at this
    refine cyclicPrefix_within (this.mono ?_) _
    have : Real.sqrt (fftSize opt) * (ε * (296 / 100) + 6 * ε) ≤ 1132 / 100 * (ε * (296 / 100) + 6 * ε) := mul_le_mul_of_nonneg_right hs (by positivity)
    linarith
  · intro z hz
    have hz := cyclicPrefix_mem hz
    have := ifft_bound (shift_mem (by norm_num) (stfTable_norm ho)) z hz
    have hl : (ifftshift (stfTable opt)).length = fftSize opt := by simp [ifftshift, stfTable_length]
    rw [hl] at this
    linarith

theorem mul_within {M : FloatOps} {ε : ℝ} (hM : Accurate M ε) (hε : 0 ≤ ε) (hε1 : ε ≤ 1 / 1000) {x y c : ℂ} {δ B : ℝ} (hx : ‖x - y‖ ≤ δ) (hy : ‖y‖ ≤ B) :
    ‖M.mul x c - y * c‖ ≤ (ε * (B + δ) + δ) * ‖c‖ := by
  have h1 := hM.mul x c
  have h2 := norm_sub_le_norm_sub_add_norm_sub (M.mul x c) (x * c) (y * c)
  rw [← sub_mul, norm_mul] at h2
  have hxB : ‖x‖ ≤ B + δ := by have := norm_sub_norm_le x y; linarith
  have h3 : ε * (‖x‖ * ‖c‖) ≤ ε * ((B + δ) * ‖c‖) := by gcongr
  have h4 : ‖x - y‖ * ‖c‖ ≤ δ * ‖c‖ := by gcongr
  calc _ ≤ ε * ((B + δ) * ‖c‖) + δ * ‖c‖ := by linarith
    _ = _ := by ring

/-- The STF as the machine computes it. -/
def stfIQF (M : FloatOps) (p : OfdmParams) : List ℂ :=
  let s := stfSymF M p.option
  (s ++ s ++ s ++ List.zipWith M.mul s (List.replicate (s.length / 5 * 3) 1 ++ List.replicate (s.length / 5 * 2) (-1))).map (M.mul · (1.25 : ℂ))

theorem ofdmIfftF_length {M : FloatOps} {ε : ℝ} (hM : Accurate M ε) (x : List ℂ) : (ofdmIfftF M x).length = x.length := by
  unfold ofdmIfftF; rw [hM.ifft_length]; simp [ifftshift]

theorem stfF_ok {M : FloatOps} {ε : ℝ} (hM : Accurate M ε) {p : OfdmParams} (h : Supported p) : p.stfF M = .ok (stfIQF M p) := by
  obtain ⟨f1, f2⟩ := fft_facts p.option (by have := option_cases h; simp; omega)
  unfold OfdmParams.stfF subcarriersToIQF stfIQF stfSymF
  rw [if_neg (by rw [stfTableF_length]; simp)]
  simp only [bind, Except.bind]
  rw [bcast_eq]
  · rfl
  · rw [cyclicPrefix_length_quarter _ (by rw [ofdmIfftF_length hM, stfTableF_length]; omega) (by rw [ofdmIfftF_length hM, stfTableF_length]; omega),
      ofdmIfftF_length hM, stfTableF_length]
    simp only [List.length_append, List.length_replicate]
    omega

theorem stf_within {M : FloatOps} {ε : ℝ} (hM : Accurate M ε) (hε : 0 ≤ ε) (hε1 : ε ≤ 1 / 1000) {p : OfdmParams} (h : Supported p) :
    Within (220 * ε) (stfIQF M p) (stfIQ p) := by
  obtain ⟨w, b⟩ := stfSym_within hM hε hε1 (option_cases h)
  unfold stfIQF stfIQ
  simp only
  rw [← w.length]
  generalize stfSymF M p.option = s at *
  generalize cyclicPrefix (1 / 4) (ofdmIfft (stfTable p.option)) = t at *
  -- pairs with the bound on the exact value
  have w1 : List.Forall₂ (fun a b => ‖a - b‖ ≤ 136 * ε ∧ ‖b‖ ≤ 334 / 10) s t := by
    have := List.forall₂_iff_get.1 w
    rw [List.forall₂_iff_get]
    exact ⟨this.1, fun i h1 h2 => ⟨(this.2 i h1 h2).trans (by linarith), b _ (List.getElem_mem h2)⟩⟩
  have w2 : List.Forall₂ (fun a b => ‖a - b‖ ≤ 136 * ε ∧ ‖b‖ ≤ 334 / 10)
      (List.zipWith M.mul s (List.replicate (s.length / 5 * 3) 1 ++ List.replicate (s.length / 5 * 2) (-1)))
      (List.zipWith (· * ·) t (List.replicate (s.length / 5 * 3) 1 ++ List.replicate (s.length / 5 * 2) (-1))) := by
    have hm : ∀ c ∈ (List.replicate (s.length / 5 * 3) (1 : ℂ) ++ List.replicate (s.length / 5 * 2) (-1)), ‖c‖ = 1 := by
      intro c hc
      rcases List.mem_append.1 hc with hc | hc
      · rw [List.eq_of_mem_replicate hc]; simp
      · rw [List.eq_of_mem_replicate hc]; simp
    generalize (List.replicate (s.length / 5 * 3) (1 : ℂ) ++ List.replicate (s.length / 5 * 2) (-1)) = mask at *
    have := List.forall₂_iff_get.1 w
    rw [List.forall₂_iff_get]
    refine ⟨by simp [this.1], fun i h1 h2 => ?_⟩
    simp only [List.length_zipWith] at h1 h2
    have a1 := this.2 i (by omega) (by omega)
    have a2 := b _ (List.getElem_mem (show i < t.length by omega))
    have a3 := hm _ (List.getElem_mem (show i < mask.length by omega))
    simp only [List.get_eq_getElem] at a1
    simp only [List.get_eq_getElem, List.getElem_zipWith]
    refine ⟨?_, by rw [norm_mul, a3, mul_one]; exact a2⟩
    have := mul_within hM hε hε1 (c := mask[i]'(by omega)) a1 a2
    rw [a3] at this
    nlinarith
  have w3 := List.rel_append (List.rel_append (List.rel_append w1 w1) w1) w2
  unfold Within
  rw [List.forall₂_map_left_iff, List.forall₂_map_right_iff]
  refine w3.imp fun a b hab => ?_
  have := mul_within hM hε hε1 (c := (1.25 : ℂ)) hab.1 hab.2
  have hc : ‖(1.25 : ℂ)‖ = 5 / 4 := by
    have : (1.25 : ℂ) = ((5 / 4 : ℝ) : ℂ) := by push_cast; norm_num
    rw [this, Complex.norm_real]; norm_num
  rw [hc] at this
  nlinarith

/-- The LTF as the machine computes it. -/
def ltfIQF (M : FloatOps) (p : OfdmParams) : List ℂ :=
  let s := ofdmIfftF M ((ltfTable p.option).map fun (v : Int) => ((v : Int) : ℂ))
  s.drop (s.length / 2) ++ s ++ s

theorem ltfF_ok {M : FloatOps} {p : OfdmParams} (h : Supported p) : p.ltfF M = .ok (ltfIQF M p) := by
  have hl := ltfTable_length p.option (by have := option_cases h; simp; omega)
  unfold OfdmParams.ltfF subcarriersToIQF ltfIQF
  rw [if_neg (by rw [List.length_map, hl]; simp)]
  simp only [bind, Except.bind, cyclicPrefix]
  rw [if_neg (by norm_num)]
  rfl

theorem ltf_values : ∀ o ∈ [1, 2, 3, 4], ∀ v ∈ ltfTable o, v = 0 ∨ v = 1 ∨ v = -1 := by decide +kernel

theorem ltf_within {M : FloatOps} {ε : ℝ} (hM : Accurate M ε) (hε : 0 ≤ ε) {p : OfdmParams} (h : Supported p) : Within (100 * ε) (ltfIQF M p) (ltfIQ p) := by
  have hmem : p.option ∈ [1, 2, 3, 4] := by have := option_cases h; simp; omega
  have hl := ltfTable_length p.option hmem
  have h128 := fft_le p.option hmem
  have hpos := (fft_facts p.option hmem).2
  have w : Within (100 * ε) (ofdmIfftF M ((ltfTable p.option).map fun (v : Int) => ((v : Int) : ℂ))) (ofdmIfft ((ltfTable p.option).map fun (v : Int) => ((v : Int) : ℂ))) := by
    have w0 : Within 0 ((ltfTable p.option).map fun (v : Int) => ((v : Int) : ℂ)) ((ltfTable p.option).map fun (v : Int) => ((v : Int) : ℂ)) := by
      unfold Within
      rw [List.forall₂_same]
      intro x _
      rw [sub_self, norm_zero]
    refine (ofdmIfft_within hM hε (B := 1) (by norm_num) w0 ?_ ?_).mono ?_
    · intro z hz
      obtain ⟨v, hv, rfl⟩ := List.mem_map.1 hz
      rcases ltf_values p.option hmem v hv with rfl | rfl | rfl <;> simp
    · intro e
      have := congrArg List.length e
      simp [hl] at this
      omega
    · rw [List.length_map, hl]
      have := mul_le_mul_of_nonneg_right (sqrt_fft h128) hε
      linarith
  unfold ltfIQF ltfIQ
  simp only
  rw [w.length]
  exact ((w.drop _).append w).append w

/-! ### The frame -/

theorem ofdmBitsToIQF_ok {M : FloatOps} {c : OfdmCfg (Num M)} {pl : Pilots (Num M)} {L : Nat} (h : GoodMod c pl L) (factor : ℝ) (CP : ℚ) (bits : Bits)
    (hm : bits.length % L = 0) (h1 : bits.length ≠ 1) (st : OfdmState) (hst : st.pilotsColumnIndex < pl.sets.length) (pad : Bool) :
    (ofdmBitsToIQF M c factor CP bits pad).call st =
      (.ok ((streamSymbols c (floatNumbers M factor) pl L st bits).flatMap fun col => cyclicPrefix CP (ofdmIfftF M (col.map Num.val))),
        stateAfter pl st (bits.length / L)) := by
  have e := ofdmSubcarriers_ok h (floatNumbers M factor) bits hm h1 st hst pad
  unfold ofdmBitsToIQF PyM.call
  unfold PyM.call at e
  rw [ExceptT.run_bind]
  show (StateT.bind _ _ st : _) = _
  unfold StateT.bind
  rw [e]
  rfl

def headerSymsF (M : FloatOps) (p : OfdmParams) (len : Nat) : List (List (Num M)) :=
  streamSymbols (p.ofdmCfg (lowestMcs p.option) (Num M)) (floatNumbers M (kModF M (mcsModulation (lowestMcs p.option)))) (optPilots (Num M) p.option)
    (splitN p (lowestMcs p.option)) OfdmState.init (headerCoded p len)

def payloadSymsF (M : FloatOps) (p : OfdmParams) (m : Bits) : List (List (Num M)) :=
  streamSymbols (p.ofdmCfg p.mcs (Num M)) (floatNumbers M (kModF M (mcsModulation p.mcs))) (optPilots (Num M) p.option)
    (splitN p p.mcs) (payloadState p) (payloadCoded p m)

theorem header_modF_ok (M : FloatOps) {p : OfdmParams} (h : Supported p) {n : Nat} (h1 : 1 ≤ n) (h2 : n ≤ 2047) :
    (ofdmBitsToIQF M (p.ofdmCfg (lowestMcs p.option) (Num M)) (kModF M (mcsModulation (lowestMcs p.option))) (1 / 4) (headerCoded p n)).call OfdmState.init =
      (.ok (symbolsIQF M (headerSymsF M p n)), stateAfter (optPilots ℂ p.option) OfdmState.init (headerSymbols p)) := by
  have hl := headerCoded_length h h1 h2
  have g := goodMod h (lowestMcs_le p.option) (Num M)
  rw [ofdmBitsToIQF_ok g _ _ _ (by rw [hl]; simp) _ _ (init_index h)]
  · rw [hl, Nat.mul_div_cancel _ g.pos]; rfl
  · have f := (header_facts p (mem_allSupported h)).1
    have f2 := (header_facts p (mem_allSupported h)).2
    rw [hl]
    unfold headerSymbols
    rw [Nat.div_mul_cancel (Nat.dvd_of_mod_eq_zero f)]
    omega

theorem payload_modF_ok (M : FloatOps) {p : OfdmParams} (h : Supported p) (m : Bits) :
    (ofdmBitsToIQF M (p.ofdmCfg p.mcs (Num M)) (kModF M (mcsModulation p.mcs)) (1 / 4) (payloadCoded p m)).call (payloadState p) =
      (.ok (symbolsIQF M (payloadSymsF M p m)), stateAfter (optPilots ℂ p.option) (payloadState p) (payloadSymbols p m.length)) := by
  have hl := payloadCoded_length h m
  have g := goodMod h (mcs_le h) (Num M)
  rw [ofdmBitsToIQF_ok g _ _ _ (by rw [hl]; simp) _ _ (show (payloadState p).pilotsColumnIndex < _ from stateAfter_index_lt g.cfg.sets _ _)]
  · rw [hl, Nat.mul_div_cancel _ g.pos]; rfl
  · have hl2 := (payload_enc h m).2
    have ho := option_cases h
    obtain ⟨-, -, -, -, -, -, -, f8⟩ := split_facts p.option (by simp; omega) p.mcs (mcs_le h)
    have hp := payloadN_pos h m.length
    unfold payloadCoded
    rw [interleaver_length, hl2]
    have : 12 ≤ payloadN p m.length * p.nCbps := Nat.le_trans f8 (Nat.le_mul_of_pos_left _ hp)
    omega

theorem headerMF_ok (M : FloatOps) {o : OfdmObj} (h : Supported o.params) {n : Nat} (h1 : 1 ≤ n / 8) (h2 : n / 8 ≤ 2047) :
    (ofdmPhrMF M n).call o = (.ok (symbolsIQF M (headerSymsF M o.params (n / 8)),
      stateAfter (optPilots ℂ o.params.option) OfdmState.init (headerSymbols o.params)),
      { o with PHY_header := some (headerBits o.params (n / 8))
               PHY_header_encoded := some (rateHalfOut (rateHalfInit 0) (headerBits o.params (n / 8)))
               ij := some (o.params.intlIJ (lowestMcs o.params.option))
               PHY_header_interleaved := some (headerCoded o.params (n / 8)) }) := by
  have hr := lowest_rate o.params.option (by have := option_cases h; simp; omega)
  unfold ofdmPhrMF ofdmInterleaverM
  simp only [PyM.call_bind, PyM.call_get, PyM.seqR_ok, PyM.call_lift, (phyHeader_ok h h1 h2).1, PyM.call_modify, PyM.call_attr,
    PyM.call_pure, hr]
  rw [show OfdmParams.encoder (headerBits o.params (n / 8)) false = .ok (rateHalfOut (rateHalfInit 0) (headerBits o.params (n / 8))) from rfl]
  simp only [PyM.seqR_ok, PyM.call_bind, PyM.call_get, PyM.call_lift, PyM.call_modify, PyM.call_attr, PyM.call_pure]
  have := header_modF_ok M h h1 h2
  unfold headerCoded at this
  rw [this]
  simp only [PyM.seqR_ok, PyM.call_pure]
  rfl

theorem payloadMF_ok (M : FloatOps) {o : OfdmObj} (h : Supported o.params) (m : Bits) :
    (ofdmPayloadMF M m (stateAfter (optPilots ℂ o.params.option) OfdmState.init (headerSymbols o.params))).call o =
      (.ok (symbolsIQF M (payloadSymsF M o.params m)),
      { o with N_PAD := some (o.params.padding m).2
               payload_pad := some (o.params.padding m).1
               payload_scrambled := some (o.params.payloadScrambled m)
               payload_encoded := some (payloadCode o.params m)
               ij := some (o.params.intlIJ o.params.mcs)
               payload_interleaved := some (payloadCoded o.params m) }) := by
  unfold ofdmPayloadMF ofdmInterleaverM ofdmPaddingM
  simp only [PyM.call_bind, PyM.call_get, PyM.seqR_ok, PyM.call_lift, PyM.call_modify, PyM.call_attr, PyM.call_pure]
  have e := (payload_enc h m).1
  unfold OfdmParams.payloadEncoded OfdmParams.payloadScrambled at e
  simp only at e
  rw [e]
  simp only [PyM.seqR_ok, PyM.call_bind, PyM.call_get, PyM.call_lift, PyM.call_modify, PyM.call_attr, PyM.call_pure]
  have := payload_modF_ok M h m
  unfold payloadCoded at this
  rw [← payloadState_eq, this]
  rfl

/-- The complete frame as the machine computes it. -/
def frameIQF (M : FloatOps) (p : OfdmParams) (m : Bits) : List ℂ :=
  stfIQF M p ++ ltfIQF M p ++ symbolsIQF M (headerSymsF M p (m.length / 8)) ++ symbolsIQF M (payloadSymsF M p m)

/-- The sampling frequency as the machine computes it. -/
def ofdmFsF (p : OfdmParams) : ℚ := float64 (fftSize p.option * (1 + 1 / 4) / float64 (120 / 1000000))

theorem fs_table : ∀ o ∈ [1, 2, 3, 4], |float64 ((fftSize o : ℚ) * (1 + 1 / 4) / float64 (120 / 1000000)) - (fftSize o : ℚ) * (1 + 1 / 4) / (120 / 1000000)| * 10 ^ 9 ≤ 1 := by
  decide +kernel

/-- The computed frequency is within 1 nanohertz of the exact one. -/
theorem fs_close {p : OfdmParams} (h : Supported p) : |ofdmFsF p - ofdmFs p| ≤ 1 / 10 ^ 9 := by
  have := fs_table p.option (by have := option_cases h; simp; omega)
  unfold ofdmFsF ofdmFs
  rw [le_div_iff₀ (by norm_num)]
  exact this

theorem bitsToIQF_ok {M : FloatOps} {ε : ℝ} (hM : Accurate M ε) {o : OfdmObj} (h : Supported o.params) {a : Arg} {m : Bits} (ha : checkBinaryArray a = .ok m)
    (h1 : 1 ≤ m.length / 8) (h2 : m.length / 8 ≤ 2047) :
    ∃ o', (ofdmModBitsToIQF M a).call o = (.ok (frameIQF M o.params m, ofdmFsF o.params), o') ∧ o'.params = o.params := by
  unfold ofdmModBitsToIQF
  simp only [PyM.call_bind, PyM.call_get, PyM.seqR_ok, PyM.call_lift, ha, stfF_ok hM h, ltfF_ok h, headerMF_ok M h h1 h2, PyM.call_modify,
    PyM.call_attr, PyM.call_pure]
  rw [payloadMF_ok M (o := { o with
               PHY_header := some (headerBits o.params (m.length / 8))
               PHY_header_encoded := some (rateHalfOut (rateHalfInit 0) (headerBits o.params (m.length / 8)))
               ij := some (o.params.intlIJ (lowestMcs o.params.option))
               PHY_header_interleaved := some (headerCoded o.params (m.length / 8))
               mod_phy := some (stateAfter (optPilots ℂ o.params.option) OfdmState.init (headerSymbols o.params)) }) h m]
  exact ⟨_, rfl, rfl⟩

theorem phrMF_error (M : FloatOps) {o : OfdmObj} (h : Supported o.params) {n : Nat} (hn : ¬ (1 ≤ n / 8 ∧ n / 8 ≤ 2047)) :
    (ofdmPhrMF M n).call o = (.error .ValueError, o) := by
  have hl := C14.C14_sizes o.params h
  have e : o.params.phyHeader n = .error .ValueError :=
    (C15.C15_header o.params.mcs (n / 8) o.params.scrambler o.params.phrLength (mcs_le h) h.2.2 (by omega)).2 hn
  unfold ofdmPhrMF
  simp only [PyM.call_bind, PyM.call_get, PyM.seqR_ok, PyM.call_lift, e, PyM.seqR_error]

/-- Two results: the same error, or sampling frequencies within 1 nHz and samples within `τ`. -/
def CloseResult (τ : ℝ) (x y : Res (List ℂ × ℚ)) : Prop :=
  match x, y with
  | .ok (iq, fs), .ok (iq', fs') => |fs - fs'| ≤ 1 / 10 ^ 9 ∧ Within τ iq iq'
  | .error e, .error e' => e = e'
  | _, _ => False

theorem stream_lengths {α : Type} [Mul α] [Zero α] {c : OfdmCfg α} {nb : Numbers α} {pl : Pilots α} {L : Nat} (h : GoodMod c pl L) (st : OfdmState) (bits : Bits) :
    ∀ s ∈ streamSymbols c nb pl L st bits, s.length = c.nFFT := by
  intro s hs
  unfold streamSymbols at hs
  rw [List.mem_mapIdx] at hs
  obtain ⟨i, hi, rfl⟩ := hs
  unfold nthSymbol symbolOf
  rw [put_length, put_length, List.length_replicate]

theorem split_small : ∀ o ∈ [1, 2, 3, 4], ∀ MCS ≤ 6, dataTones o * nBpsc MCS / freqSpreading MCS / (mcsModulation MCS).bitsPerSymbol ≤ 200 := by decide +kernel

theorem frame_within {M : FloatOps} {ε : ℝ} (hM : Accurate M ε) (hε : 0 ≤ ε) (hε1 : ε ≤ 1 / 1000) {p : OfdmParams} (h : Supported p) (m : Bits) :
    Within (220 * ε) (frameIQF M p m) (frameIQ p m) := by
  have hmem : p.option ∈ [1, 2, 3, 4] := by have := option_cases h; simp; omega
  have h128 := fft_le p.option hmem
  have hpos := (fft_facts p.option hmem).2
  have h220 : 100 * ε ≤ 220 * ε := by linarith
  refine (((stf_within hM hε hε1 h).append ((ltf_within hM hε h).mono h220)).append ?_).append ?_
  · refine (symbols_within hM hε (stream_rel hM hε hε1 p _ _ (split_small _ hmem _ (lowestMcs_le _)) _ _) fun c hc => ?_).mono h220
    rw [stream_lengths (goodMod h (lowestMcs_le p.option) (Num M)) _ _ c hc]
    exact ⟨hpos, h128⟩
  · refine (symbols_within hM hε (stream_rel hM hε hε1 p _ _ (split_small _ hmem _ (mcs_le h)) _ _) fun c hc => ?_).mono h220
    rw [stream_lengths (goodMod h (mcs_le h) (Num M)) _ _ c hc]
    exact ⟨hpos, h128⟩

theorem bitsToIQF_close {M : FloatOps} {ε : ℝ} (hM : Accurate M ε) (hε : 0 ≤ ε) (hε1 : ε ≤ 1 / 1000) {o : OfdmObj} (h : Supported o.params) (a : Arg) :
    CloseResult (220 * ε) ((ofdmModBitsToIQF M a).call o).1 ((ofdmModBitsToIQ a).call o).1 := by
  rw [(bitsToIQ_result h a).1]
  unfold ofdmResult
  cases ha : checkBinaryArray a with
  | error e =>
    unfold ofdmModBitsToIQF
    simp only [PyM.call_bind, PyM.call_lift, ha, PyM.seqR_error]
    rfl
  | ok m =>
    simp only
    by_cases hn : 1 ≤ m.length / 8 ∧ m.length / 8 ≤ 2047
    · obtain ⟨o', e, hp⟩ := bitsToIQF_ok hM h ha hn.1 hn.2
      rw [e, if_pos hn]
      exact ⟨fs_close h, frame_within hM hε hε1 h m⟩
    · rw [if_neg hn]
      unfold ofdmModBitsToIQF
      simp only [PyM.call_bind, PyM.call_get, PyM.seqR_ok, PyM.call_lift, ha, stfF_ok hM h, ltfF_ok h, phrMF_error M h hn, PyM.seqR_error]
      rfl

theorem bytesToIQF_close {M : FloatOps} {ε : ℝ} (hM : Accurate M ε) (hε : 0 ≤ ε) (hε1 : ε ≤ 1 / 1000) {o : OfdmObj} (h : Supported o.params) (a : Arg) :
    CloseResult (220 * ε) ((ofdmModBytesToIQF M a).call o).1 ((ofdmModBytesToIQ a).call o).1 := by
  unfold ofdmModBytesToIQF ofdmModBytesToIQ
  cases ha : toBinaryArray a with
  | error e => simp only [PyM.call_bind, PyM.call_lift, PyM.seqR_error]; rfl
  | ok m =>
    simp only [PyM.call_bind, PyM.call_lift, PyM.seqR_ok]
    exact bitsToIQF_close hM hε hε1 h _

end OfdmDouble
end
end SunPhy
