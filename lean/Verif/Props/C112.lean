import Verif.Proofs.OfdmDouble
import Verif.Proofs.Dft
import Verif.Props.C100
import Mathlib.Data.Int.Log
/-
C112: the samples of MR-OFDM computed with the arithmetic of a machine.
-/
namespace SunPhy.C112
open SunPhy Spec Complex OfdmParams OfdmDouble
noncomputable section

theorem close_spec {τ : ℝ} {x y : Res (List ℂ × ℚ)} (h : CloseResult τ x y) :
    (∀ e, x = .error e ↔ y = .error e) ∧
    ∀ iq fs, x = .ok (iq, fs) → ∃ iq' fs', y = .ok (iq', fs') ∧ |fs - fs'| ≤ 1 / 10 ^ 9 ∧ iq.length = iq'.length ∧ ∀ n < iq.length, ‖iq.getD n 0 - iq'.getD n 0‖ ≤ τ := by
  unfold CloseResult at h
  split at h
  · obtain ⟨hf, w⟩ := h
    refine ⟨fun e => ⟨fun h => (by cases h), fun h => (by cases h)⟩, fun iq fs he => ?_⟩
    obtain ⟨rfl, rfl⟩ := Prod.mk.inj (Except.ok.inj he)
    exact ⟨_, _, rfl, hf, w.length, fun n hn => w.get hn⟩
  · subst h
    exact ⟨fun e => Iff.rfl, fun iq fs he => (by cases he)⟩
  · exact h.elim

/-- **C112 (bits).**  Let the primitives of the machine have relative error at most `ε ≤ 1/1000` (`Accurate`).  For every supported configuration, every object state and every argument,
`bitsToIQ` raises the same exceptions as with exact arithmetic, and otherwise returns a sampling frequency within 1 nHz of the exact one and as many samples, each within `220·ε` of the exact sample. -/
theorem C112_bits (M : FloatOps) (ε : ℝ) (hM : Accurate M ε) (hε : 0 ≤ ε) (hε1 : ε ≤ 1 / 1000) (o : OfdmObj) (h : Supported o.params) (a : Arg) :
    (∀ e, ((ofdmModBitsToIQF M a).call o).1 = .error e ↔ ((ofdmModBitsToIQ a).call o).1 = .error e) ∧
    ∀ iqF fsF, ((ofdmModBitsToIQF M a).call o).1 = .ok (iqF, fsF) →
      ∃ iq fs, ((ofdmModBitsToIQ a).call o).1 = .ok (iq, fs) ∧ |fsF - fs| ≤ 1 / 10 ^ 9 ∧ iqF.length = iq.length ∧ ∀ n < iqF.length, ‖iqF.getD n 0 - iq.getD n 0‖ ≤ 220 * ε :=
  close_spec (bitsToIQF_close hM hε hε1 h a)

/-- **C112 (octets).**  The same for `bytesToIQ`. -/
theorem C112_octets (M : FloatOps) (ε : ℝ) (hM : Accurate M ε) (hε : 0 ≤ ε) (hε1 : ε ≤ 1 / 1000) (o : OfdmObj) (h : Supported o.params) (a : Arg) :
    (∀ e, ((ofdmModBytesToIQF M a).call o).1 = .error e ↔ ((ofdmModBytesToIQ a).call o).1 = .error e) ∧
    ∀ iqF fsF, ((ofdmModBytesToIQF M a).call o).1 = .ok (iqF, fsF) →
      ∃ iq fs, ((ofdmModBytesToIQ a).call o).1 = .ok (iq, fs) ∧ |fsF - fs| ≤ 1 / 10 ^ 9 ∧ iqF.length = iq.length ∧ ∀ n < iqF.length, ‖iqF.getD n 0 - iq.getD n 0‖ ≤ 220 * ε :=
  close_spec (bytesToIQF_close hM hε hε1 h a)

theorem distSq_le {τ : ℝ} (hτ : 0 ≤ τ) (x y : List ℂ) (h : ∀ n < x.length, n < y.length → ‖x.getD n 0 - y.getD n 0‖ ≤ τ) : distSq x y ≤ x.length * τ ^ 2 := by
  unfold distSq
  have := List.sum_le_card_nsmul (List.zipWith (fun a b => ‖a - b‖ ^ 2) x y) (τ ^ 2) (fun v hv => by
    obtain ⟨n, hn, rfl⟩ := List.getElem_of_mem hv
    rw [List.length_zipWith] at hn
    have := h n (by omega) (by omega)
    rw [getD_lt (by omega), getD_lt (by omega)] at this
    rw [List.getElem_zipWith]
    exact pow_le_pow_left₀ (norm_nonneg _) this 2)
  rw [List.length_zipWith, nsmul_eq_mul] at this
  refine this.trans (mul_le_mul_of_nonneg_right ?_ (by positivity))
  exact_mod_cast Nat.min_le_left _ _

theorem margin_ge (w : Nat) : 1 / 10 ≤ C100.margin w := by unfold C100.margin; split <;> norm_num

/-- **C112 (decoded).**  With relative error at most `1/10000` the receiver of C100, applied to the computed samples, returns exactly the transmitted octets. -/
theorem C112_decoded (M : FloatOps) (ε : ℝ) (hM : Accurate M ε) (hε : 0 ≤ ε) (hε1 : ε ≤ 1 / 10000) (o : OfdmObj) (h : Supported o.params) (a : Arg) (msg : List UInt8)
    (ha : C01.Denotes a msg) (h0 : msg ≠ []) (iqF : List ℂ) (fsF : ℚ) (hr : ((ofdmModBytesToIQF M a).call o).1 = .ok (iqF, fsF)) :
    ∃ b, Rx.receive o.params.option o.params.interleaving iqF = some (o.params.mcs, o.params.scrambler, b) ∧ Rx.octets b = msg := by
  obtain ⟨iq, fs, e1, -, e2, e3⟩ := (C112_octets M ε hM hε (hε1.trans (by norm_num)) o h a).2 iqF fsF hr
  refine C100.C100_octets o h a msg ha h0 iq fs e1 iqF (by omega) fun n _ => ?_
  unfold C100.NoiseBelow
  have hN : Ref.nfft o.params.option ≤ 128 := by
    have ho := option_cases h
    rcases ho with h | h | h | h <;> rw [h] <;> decide
  generalize Ref.nfft o.params.option = N at *
  generalize Rx.symbolStart N n = s at *
  refine lt_of_le_of_lt (distSq_le (τ := 220 * ε) (by positivity) _ _ ?_) (lt_of_lt_of_le ?_ (margin_ge _))
  · intro k h1 h2
    rw [List.length_take, List.length_drop] at h1 h2
    have := e3 (s + k) (by omega)
    rw [getD_lt (by rw [List.length_take, List.length_drop]; omega), getD_lt (by rw [List.length_take, List.length_drop]; omega), List.getElem_take, List.getElem_take,
      List.getElem_drop, List.getElem_drop]
    rwa [getD_lt (by omega), getD_lt (by omega)] at this
  · have hl : (((iqF.drop s).take N).length : ℝ) ≤ 128 := by
      have : ((iqF.drop s).take N).length ≤ 128 := by rw [List.length_take]; omega
      exact_mod_cast this
    have h2 : (220 * ε) ^ 2 ≤ (22 / 1000) ^ 2 := pow_le_pow_left₀ (by positivity) (by linarith) 2
    have := mul_le_mul hl h2 (by positivity) (by norm_num)
    refine lt_of_le_of_lt this (by norm_num)

/-! ### The hypotheses are met: arithmetic with 53 significant bits -/

/-- The nearest number with 53 significant bits. -/
def fl (x : ℝ) : ℝ := if x = 0 then 0 else round (x * 2 ^ (52 - Int.log 2 |x|)) / 2 ^ (52 - Int.log 2 |x|)

theorem fl_err (x : ℝ) : |fl x - x| ≤ 1 / 2 ^ 53 * |x| := by
  unfold fl
  split
  · rename_i h; rw [h]; simp
  rename_i hx
  have hp : 0 < |x| := abs_pos.2 hx
  have hl := Int.zpow_log_le_self (b := 2) (r := |x|) (by norm_num) hp
  push_cast at hl
  set e := Int.log 2 |x| with he
  have h2 : (0 : ℝ) < 2 ^ (52 - e) := by positivity
  have h1 := abs_sub_round (x * 2 ^ (52 - e))
  have e1 : (round (x * 2 ^ (52 - e)) : ℝ) / 2 ^ (52 - e) - x = -(x * 2 ^ (52 - e) - round (x * 2 ^ (52 - e))) / 2 ^ (52 - e) := by
    field_simp
    ring
  rw [e1, abs_div, abs_neg, abs_of_pos h2, div_le_iff₀ h2]
  have e2 : (2 : ℝ) ^ (52 - e) = 2 ^ 52 / 2 ^ e := by rw [zpow_sub₀ (by norm_num)]; norm_cast
  have hpe : (0 : ℝ) < 2 ^ e := by positivity
  have : 1 / 2 ≤ 1 / 2 ^ 53 * |x| * (2 : ℝ) ^ (52 - e) := by
    rw [e2]
    have : 1 / 2 ^ 53 * |x| * (2 ^ 52 / 2 ^ e) = 1 / 2 * (|x| / 2 ^ e) := by ring
    rw [this]
    have : 1 ≤ |x| / 2 ^ e := (one_le_div hpe).2 hl
    linarith
  linarith

/-- Both parts rounded. -/
def flC (z : ℂ) : ℂ := ⟨fl z.re, fl z.im⟩

theorem flC_err (z : ℂ) : ‖flC z - z‖ ≤ 1 / 2 ^ 52 * ‖z‖ := by
  have h1 := fl_err z.re
  have h2 := fl_err z.im
  have h3 := Complex.norm_le_abs_re_add_abs_im (flC z - z)
  have h4 := Complex.abs_re_le_norm z
  have h5 := Complex.abs_im_le_norm z
  simp only [Complex.sub_re, Complex.sub_im, flC] at h3
  unfold flC
  linarith

/-- The product of two complex numbers as it is computed: four rounded products, two rounded sums. -/
def flMul (z w : ℂ) : ℂ := ⟨fl (fl (z.re * w.re) - fl (z.im * w.im)), fl (fl (z.re * w.im) + fl (z.im * w.re))⟩

theorem fl_sum (x y : ℝ) : |fl (fl x + fl y) - (x + y)| ≤ 9 / 4 / 2 ^ 53 * (|x| + |y|) := by
  have h1 := fl_err x
  have h2 := fl_err y
  have h3 := fl_err (fl x + fl y)
  have a1 := abs_add_le (fl x - x) (fl y - y)
  have a2 : |fl x + fl y| ≤ |fl x - x| + |fl y - y| + (|x| + |y|) := by
    have b1 := abs_add_le (fl x + fl y - (x + y)) (x + y)
    rw [sub_add_cancel] at b1
    have b2 := abs_add_le x y
    have b3 : fl x + fl y - (x + y) = (fl x - x) + (fl y - y) := by ring
    rw [b3] at b1
    linarith
  have a3 := abs_sub_le (fl (fl x + fl y)) (fl x + fl y) (x + y)
  have b3 : fl x + fl y - (x + y) = (fl x - x) + (fl y - y) := by ring
  rw [b3] at a3
  generalize fl (fl x + fl y) = s at *
  generalize |fl x - x| = u at *
  generalize |fl y - y| = v at *
  have := abs_nonneg x
  have := abs_nonneg y
  linarith

theorem fl_neg (x : ℝ) : |fl x - x| = |-fl x - -x| := by rw [show -fl x - -x = -(fl x - x) by ring, abs_neg]

theorem fl_diff (x y : ℝ) : |fl (fl x - fl y) - (x - y)| ≤ 9 / 4 / 2 ^ 53 * (|x| + |y|) := by
  have h1 := fl_err x
  have h2 := fl_err y
  have h3 := fl_err (fl x - fl y)
  have b3 : fl x - fl y - (x - y) = (fl x - x) - (fl y - y) := by ring
  have a1 := abs_sub (fl x - x) (fl y - y)
  have a2 : |fl x - fl y| ≤ |fl x - x| + |fl y - y| + (|x| + |y|) := by
    have b1 := abs_add_le (fl x - fl y - (x - y)) (x - y)
    rw [sub_add_cancel] at b1
    have b2 := abs_sub x y
    rw [b3] at b1
    linarith
  have a3 := abs_sub_le (fl (fl x - fl y)) (fl x - fl y) (x - y)
  rw [b3] at a3
  generalize fl (fl x - fl y) = s at *
  generalize |fl x - x| = u at *
  generalize |fl y - y| = v at *
  have := abs_nonneg x
  have := abs_nonneg y
  linarith

theorem cauchy (a b c d : ℝ) : |a * c| + |b * d| ≤ Real.sqrt (a ^ 2 + b ^ 2) * Real.sqrt (c ^ 2 + d ^ 2) := by
  rw [← Real.sqrt_mul (by positivity)]
  apply Real.le_sqrt_of_sq_le
  rw [abs_mul, abs_mul]
  nlinarith [sq_nonneg (|a| * |d| - |b| * |c|), sq_abs a, sq_abs b, sq_abs c, sq_abs d]

theorem norm_parts (z : ℂ) : ‖z‖ = Real.sqrt (z.re ^ 2 + z.im ^ 2) := by rw [Complex.norm_eq_sqrt_sq_add_sq]

theorem flMul_err (z w : ℂ) : ‖flMul z w - z * w‖ ≤ 5 / 2 ^ 53 * (‖z‖ * ‖w‖) := by
  have h3 := Complex.norm_le_abs_re_add_abs_im (flMul z w - z * w)
  simp only [Complex.sub_re, Complex.sub_im, flMul, Complex.mul_re, Complex.mul_im] at h3
  have h1 := fl_diff (z.re * w.re) (z.im * w.im)
  have h2 := fl_sum (z.re * w.im) (z.im * w.re)
  have c1 := cauchy z.re z.im w.re w.im
  have c2 := cauchy z.re z.im w.im w.re
  rw [← norm_parts, ← norm_parts] at c1
  rw [← norm_parts, show w.im ^ 2 + w.re ^ 2 = w.re ^ 2 + w.im ^ 2 by ring, ← norm_parts] at c2
  unfold flMul
  have := mul_nonneg (norm_nonneg z) (norm_nonneg w)
  linarith

/-- Schoolbook complex products, every other result correctly rounded. -/
def double : FloatOps where
  mul := flMul
  div x y := fl (x / y)
  sqrt x := fl (Real.sqrt x)
  rot m := flC (exp (I * 2 * Real.pi * m / 4))
  ifft x := (ifftOrtho x).map flC

theorem norm_le_energy {x : List ℂ} {z : ℂ} (h : z ∈ x) : ‖z‖ ≤ Real.sqrt (energy x) := by
  apply Real.le_sqrt_of_sq_le
  unfold energy
  exact List.single_le_sum (by simp) _ (List.mem_map.2 ⟨z, h, rfl⟩)

theorem double_accurate : Accurate double (5 / 2 ^ 53) where
  mul := flMul_err
  div x y _ := (fl_err _).trans (mul_le_mul_of_nonneg_right (by norm_num) (abs_nonneg _))
  sqrt x _ := (fl_err _).trans (by rw [abs_of_nonneg (Real.sqrt_nonneg x)]; exact mul_le_mul_of_nonneg_right (by norm_num) (Real.sqrt_nonneg _))
  rot m _ := (flC_err _).trans (by rw [OfdmDouble.rot_norm]; norm_num)
  ifft_length x := by simp [double, ifftOrtho]
  ifft x n hn := by
    have hl : n < (ifftOrtho x).length := by simpa [ifftOrtho] using hn
    have hl' : n < ((ifftOrtho x).map flC).length := by simpa using hl
    show ‖((ifftOrtho x).map flC).getD n 0 - _‖ ≤ _
    rw [getD_lt hl', getD_lt hl, List.getElem_map]
    refine (flC_err _).trans ?_
    have h1 := norm_le_energy (List.getElem_mem hl)
    rw [energy_ifftOrtho] at h1
    have h2 := Real.sqrt_nonneg (energy x)
    have h3 := norm_nonneg ((ifftOrtho x)[n])
    linarith

/-- Non-vacuity: such a machine returns samples for every supported configuration, and the receiver decodes them. -/
example (p : OfdmParams) (hp : Supported p) (x y : UInt8) :
    ∃ iqF fs b, ((ofdmModBytesToIQF double (.bytes [x, y])).call { params := p }).1 = .ok (iqF, fs) ∧
      Rx.receive p.option p.interleaving iqF = some (p.mcs, p.scrambler, b) ∧ Rx.octets b = [x, y] := by
  have main := (C112_octets double _ double_accurate (by norm_num) (by norm_num) { params := p } hp (.bytes [x, y])).1
  cases hr : ((ofdmModBytesToIQF double (.bytes [x, y])).call { params := p }).1 with
  | error e =>
    have h1 := (main e).1 hr
    have r := (bytesToIQ_result (o := { params := p }) hp (.bytes [x, y])).1
    obtain ⟨_, -, -, e'⟩ := ofdmBytesResult_octets p (a := .bytes [x, y]) (msg := [x, y]) rfl (by simp)
    rw [if_pos (by simp)] at e'
    rw [h1, e'] at r
    cases r
  | ok r =>
    obtain ⟨iqF, fs⟩ := r
    obtain ⟨b, h1, h2⟩ := C112_decoded double _ double_accurate (by norm_num) (by norm_num) { params := p } hp (.bytes [x, y]) [x, y] rfl (by simp) iqF fs hr
    exact ⟨iqF, fs, b, rfl, h1, h2⟩

example : Supported ⟨6, 3, 1, 2⟩ ∧ Supported ⟨0, 1, 0, 0⟩ := ⟨⟨by decide, by decide, by decide⟩, ⟨by decide, by decide, by decide⟩⟩

end
end SunPhy.C112
