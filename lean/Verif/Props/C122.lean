import Verif.Proofs.OqpskBlind
import Verif.Props.C119
/-
C122 — MR-O-QPSK frames can be received without knowing when they start, how strong the signal is and what phase it has.
-/
namespace SunPhy.C122
open SunPhy Spec Complex C63 OqBlind
noncomputable section

/-- Energy of `x` in symbol interval `i`. -/
def energy (sps : Nat) (x : Nat → ℂ) (i : Nat) : ℝ := ∑ j ∈ Finset.range sps, ‖x (i * sps + j)‖ ^ 2

/-- What is added to `c` times the frame. -/
def noise (c : ℂ) (r iq : List ℂ) (n : Nat) : ℂ := r.getD n 0 - c * iq.getD n 0

/-! ### Correlation and power with noise -/

theorem sq_add_le (u v : ℂ) (t : ℝ) (ht : 0 < t) : ‖u + v‖ ^ 2 ≤ (1 + t) * ‖u‖ ^ 2 + (1 + 1 / t) * ‖v‖ ^ 2 := by
  have h1 := pow_le_pow_left₀ (norm_nonneg _) (norm_add_le u v) 2
  have h2 : 2 * (‖u‖ * ‖v‖) ≤ t * ‖u‖ ^ 2 + 1 / t * ‖v‖ ^ 2 := by
    have : 0 ≤ (t * ‖u‖ - ‖v‖) ^ 2 / t := by positivity
    have e : (t * ‖u‖ - ‖v‖) ^ 2 / t = t * ‖u‖ ^ 2 + 1 / t * ‖v‖ ^ 2 - 2 * (‖u‖ * ‖v‖) := by field_simp; ring
    linarith
  nlinarith

theorem symbol_sq (u v : Bool) : ‖chipValue u + I * chipValue v‖ ^ 2 = 2 := by
  rw [← Complex.normSq_eq_norm_sq]
  cases u <;> cases v <;> simp [chipValue, Complex.normSq_apply] <;> norm_num

/-- Cauchy–Schwarz. -/
theorem noise_sum (m : Nat) (w d : Nat → ℂ) (ε : ℝ) (hw : ∀ k < m, ‖w k‖ ^ 2 ≤ ε) (hd : ∀ k < m, ‖d k‖ ^ 2 = 2) :
    ‖∑ k ∈ Finset.range m, w k * starRingEnd ℂ (d k)‖ ^ 2 ≤ (m * ε) * (2 * m) := by
  have h1 : ‖∑ k ∈ Finset.range m, w k * starRingEnd ℂ (d k)‖ ≤ ∑ k ∈ Finset.range m, ‖w k‖ * ‖d k‖ := by
    refine le_trans (norm_sum_le _ _) (le_of_eq (Finset.sum_congr rfl fun k _ => ?_))
    rw [norm_mul, RCLike.norm_conj]
  have h2 := Finset.sum_mul_sq_le_sq_mul_sq (Finset.range m) (fun k => ‖w k‖) (fun k => ‖d k‖)
  have h3 : ∑ k ∈ Finset.range m, ‖w k‖ ^ 2 ≤ m * ε := by
    refine le_trans (Finset.sum_le_sum (g := fun _ => ε) fun i hi => hw i (Finset.mem_range.1 hi)) ?_
    rw [Finset.sum_const, Finset.card_range, nsmul_eq_mul]
  have h4 : ∑ k ∈ Finset.range m, ‖d k‖ ^ 2 = 2 * m := by
    rw [Finset.sum_congr rfl fun k hk => hd k (Finset.mem_range.1 hk), Finset.sum_const, Finset.card_range, nsmul_eq_mul]
    ring
  rw [h4] at h2
  exact le_trans (pow_le_pow_left₀ (norm_nonneg _) h1 2) (le_trans h2 (mul_le_mul_of_nonneg_right h3 (by positivity)))

theorem symbol_power (A s w : ℂ) (hs : ‖s‖ ^ 2 = 2) (hw : ‖w‖ ^ 2 ≤ ‖A‖ ^ 2 / 16) : 27 / 20 * ‖A‖ ^ 2 ≤ ‖A * s + w‖ ^ 2 ∧ ‖A * s + w‖ ^ 2 ≤ 45 / 16 * ‖A‖ ^ 2 := by
  have e : ‖A * s‖ ^ 2 = 2 * ‖A‖ ^ 2 := by rw [norm_mul, mul_pow, hs]; ring
  constructor
  · have := sq_add_le (A * s + w) (-w) (1 / 4) (by norm_num)
    rw [add_neg_cancel_right, norm_neg, e] at this
    norm_num at this
    linarith
  · have := sq_add_le (A * s) w (1 / 4) (by norm_num)
    rw [e] at this
    norm_num at this
    linarith

/-- Not at a wrong place: the first `K - m` symbols are silent, the others have little in common with the delimiter. -/
theorem not_there (K m : Nat) (hm : m ≤ K) (A : ℂ) (z s w d : Nat → ℂ) (h0 : ∀ k < K - m, z k = 0) (h1 : ∀ k < m, z (K - m + k) = A * s k + w k)
    (hs : ∀ k < m, ‖s k‖ ^ 2 = 2) (hw : ∀ k < m, ‖w k‖ ^ 2 ≤ ‖A‖ ^ 2 / 16) (hd : ∀ k < K, ‖d k‖ ^ 2 = 2)
    (hc : 600 * ‖∑ k ∈ Finset.range m, s k * starRingEnd ℂ (d (K - m + k))‖ ^ 2 + 156 * (m : ℝ) ^ 2 ≤ 360 * K * m) :
    ‖∑ k ∈ Finset.range K, z k * starRingEnd ℂ (d k)‖ ^ 2 ≤ 1 / 3 * (2 * K) * ∑ k ∈ Finset.range K, ‖z k‖ ^ 2 := by
  have split : ∀ {β : Type} [AddCommMonoid β] (f : Nat → β), ∑ k ∈ Finset.range K, f k = ∑ k ∈ Finset.range (K - m), f k + ∑ k ∈ Finset.range m, f (K - m + k) := by
    intro β _ f
    rw [← Finset.sum_range_add, Nat.sub_add_cancel hm]
  have e1 : ∑ k ∈ Finset.range K, z k * starRingEnd ℂ (d k) =
      A * ∑ k ∈ Finset.range m, s k * starRingEnd ℂ (d (K - m + k)) + ∑ k ∈ Finset.range m, w k * starRingEnd ℂ (d (K - m + k)) := by
    rw [split, Finset.sum_eq_zero fun k hk => by rw [h0 k (Finset.mem_range.1 hk), zero_mul], zero_add, Finset.mul_sum, ← Finset.sum_add_distrib]
    refine Finset.sum_congr rfl fun k hk => ?_
    rw [h1 k (Finset.mem_range.1 hk)]; ring
  have e2 : 27 / 20 * ‖A‖ ^ 2 * m ≤ ∑ k ∈ Finset.range K, ‖z k‖ ^ 2 := by
    rw [split, Finset.sum_eq_zero fun k hk => by rw [h0 k (Finset.mem_range.1 hk), norm_zero]; norm_num, zero_add]
    refine le_trans (le_of_eq ?_) (Finset.sum_le_sum (f := fun _ => 27 / 20 * ‖A‖ ^ 2) fun k hk => ?_)
    · rw [Finset.sum_const, Finset.card_range, nsmul_eq_mul]; ring
    · have hk := Finset.mem_range.1 hk
      rw [h1 k hk]
      exact (symbol_power A (s k) (w k) (hs k hk) (hw k hk)).1
  have e3 := noise_sum m w (fun k => d (K - m + k)) (‖A‖ ^ 2 / 16) hw (fun k hk => hd _ (by omega))
  have e4 := sq_add_le (A * ∑ k ∈ Finset.range m, s k * starRingEnd ℂ (d (K - m + k))) (∑ k ∈ Finset.range m, w k * starRingEnd ℂ (d (K - m + k))) (1 / 2) (by norm_num)
  rw [e1]
  rw [norm_mul, mul_pow] at e4
  generalize ‖∑ k ∈ Finset.range m, s k * starRingEnd ℂ (d (K - m + k))‖ ^ 2 = R at *
  generalize ‖∑ k ∈ Finset.range m, w k * starRingEnd ℂ (d (K - m + k))‖ ^ 2 = V at *
  have hA : 0 ≤ ‖A‖ ^ 2 := by positivity
  have hK : (0 : ℝ) ≤ K := by positivity
  have f1 : ‖A‖ ^ 2 * (600 * R + 156 * (m : ℝ) ^ 2) ≤ ‖A‖ ^ 2 * (360 * K * m) := mul_le_mul_of_nonneg_left hc hA
  have f2 : 1 / 3 * (2 * (K : ℝ)) * (27 / 20 * ‖A‖ ^ 2 * m) ≤ 1 / 3 * (2 * K) * ∑ k ∈ Finset.range K, ‖z k‖ ^ 2 := mul_le_mul_of_nonneg_left e2 (by positivity)
  have hm2 : 0 ≤ ‖A‖ ^ 2 * (m : ℝ) ^ 2 := by positivity
  norm_num at e4
  nlinarith

/-- At its place. -/
theorem there (K : Nat) (hK : 0 < K) (A : ℂ) (hA : A ≠ 0) (z w d : Nat → ℂ) (h1 : ∀ k < K, z k = A * d k + w k)
    (hw : ∀ k < K, ‖w k‖ ^ 2 ≤ ‖A‖ ^ 2 / 16) (hd : ∀ k < K, ‖d k‖ ^ 2 = 2) :
    1 / 3 * (2 * K) * ∑ k ∈ Finset.range K, ‖z k‖ ^ 2 < ‖∑ k ∈ Finset.range K, z k * starRingEnd ℂ (d k)‖ ^ 2 ∧
    ‖(∑ k ∈ Finset.range K, z k * starRingEnd ℂ (d k)) - 2 * K * A‖ ^ 2 ≤ (K : ℝ) ^ 2 * ‖A‖ ^ 2 / 8 := by
  have e1 : ∑ k ∈ Finset.range K, z k * starRingEnd ℂ (d k) = 2 * K * A + ∑ k ∈ Finset.range K, w k * starRingEnd ℂ (d k) := by
    have : (2 * K * A : ℂ) = ∑ k ∈ Finset.range K, A * (d k * starRingEnd ℂ (d k)) := by
      have : ∀ k ∈ Finset.range K, A * (d k * starRingEnd ℂ (d k)) = 2 * A := by
        intro k hk
        rw [Complex.mul_conj, Complex.normSq_eq_norm_sq, hd k (Finset.mem_range.1 hk)]
        push_cast; ring
      rw [Finset.sum_congr rfl this, Finset.sum_const, Finset.card_range, nsmul_eq_mul]
      ring
    rw [this, ← Finset.sum_add_distrib]
    refine Finset.sum_congr rfl fun k hk => ?_
    rw [h1 k (Finset.mem_range.1 hk)]; ring
  have e3 := noise_sum K w d (‖A‖ ^ 2 / 16) hw hd
  have hV : ‖∑ k ∈ Finset.range K, w k * starRingEnd ℂ (d k)‖ ^ 2 ≤ (K : ℝ) ^ 2 * ‖A‖ ^ 2 / 8 := le_trans e3 (le_of_eq (by ring))
  have e2 : ∑ k ∈ Finset.range K, ‖z k‖ ^ 2 ≤ 45 / 16 * ‖A‖ ^ 2 * K := by
    refine le_trans (Finset.sum_le_sum (g := fun _ => 45 / 16 * ‖A‖ ^ 2) fun k hk => ?_) (le_of_eq ?_)
    · have hk := Finset.mem_range.1 hk
      rw [h1 k hk]
      exact (symbol_power A (d k) (w k) (hd k hk) (hw k hk)).2
    · rw [Finset.sum_const, Finset.card_range, nsmul_eq_mul]; ring
  have hKR : (0 : ℝ) < K := by exact_mod_cast hK
  refine ⟨?_, by rw [e1, add_sub_cancel_left]; exact hV⟩
  have e4 := sq_add_le (∑ k ∈ Finset.range K, z k * starRingEnd ℂ (d k)) (-∑ k ∈ Finset.range K, w k * starRingEnd ℂ (d k)) (1 / 4) (by norm_num)
  rw [e1, add_neg_cancel_right, norm_neg, ← e1] at e4
  have e5 : ‖(2 * K * A : ℂ)‖ ^ 2 = 4 * (K : ℝ) ^ 2 * ‖A‖ ^ 2 := by
    rw [norm_mul, norm_mul, mul_pow, mul_pow]; simp; norm_num
  rw [e5] at e4
  have f2 : 1 / 3 * (2 * (K : ℝ)) * ∑ k ∈ Finset.range K, ‖z k‖ ^ 2 ≤ 1 / 3 * (2 * K) * (45 / 16 * ‖A‖ ^ 2 * K) := mul_le_mul_of_nonneg_left e2 (by positivity)
  have hp : 0 < (K : ℝ) ^ 2 * ‖A‖ ^ 2 := by positivity
  norm_num at e4
  nlinarith

/-! ### The search -/

/-- Symbol `q` of the SHR. -/
def shrSymbol (b : Band) (q : Nat) : ℂ := sym (fun i => (RefQ.shr b).getD i false) q

/-- What arrives in each interval, when the delimiter is at interval `p`: silence before the frame, `A` times the symbols of the SHR with a little noise from then on. -/
def Heard (b : Band) (sps : Nat) (r : List ℂ) (A : ℂ) (p : Nat) : Prop :=
  ∀ i < p + RxQ.delimiterSymbols b, if i + RxQ.preambleSymbols b < p then RxQ.softSymbol b sps r i = 0
    else ‖RxQ.softSymbol b sps r i - A * shrSymbol b (i + RxQ.preambleSymbols b - p)‖ ^ 2 ≤ ‖A‖ ^ 2 / 16

theorem sizes (b : Band) : (preambleBits b + 16) * shrChipsPerBit b = 2 * (RxQ.preambleSymbols b + RxQ.delimiterSymbols b) ∧
    preambleBits b * shrChipsPerBit b = 2 * RxQ.preambleSymbols b ∧ 16 * shrChipsPerBit b = 2 * RxQ.delimiterSymbols b ∧ 0 < RxQ.delimiterSymbols b ∧
    RxQ.phrStart b = 2 * (RxQ.preambleSymbols b + RxQ.delimiterSymbols b) := by
  cases b <;> decide

theorem shrSymbol_stream (b : Band) (q : Nat) (hq : q < RxQ.preambleSymbols b + RxQ.delimiterSymbols b) :
    shrSymbol b q = sym (fun i => (OqSync.stream b).testBit i) (RxQ.delimiterSymbols b + q) := by
  obtain ⟨h1, h2, h3, -⟩ := sizes b
  unfold shrSymbol sym
  dsimp only
  rw [OqSync.shr_getD b _ (by omega), OqSync.shr_getD b _ (by omega), h3, show 2 * (RxQ.delimiterSymbols b + q) = 2 * RxQ.delimiterSymbols b + 2 * q by ring]
  rfl

theorem delimiterSymbol_sfd (b : Band) (k : Nat) (hk : k < RxQ.delimiterSymbols b) : RxQ.delimiterSymbol b k = sym (fun i => (OqSync.sfd b).testBit i) k := by
  obtain ⟨h1, h2, h3, -⟩ := sizes b
  unfold RxQ.delimiterSymbol sym
  rw [OqSync.delimiter_eq, List.getD_eq_getElem?_getD, List.getD_eq_getElem?_getD, List.getElem?_map, List.getElem?_map, List.getElem?_range (by omega), List.getElem?_range (by omega)]
  rfl

theorem delimiterSymbol_shr (b : Band) (k : Nat) (hk : k < RxQ.delimiterSymbols b) : RxQ.delimiterSymbol b k = shrSymbol b (RxQ.preambleSymbols b + k) := by
  obtain ⟨h1, h2, h3, -⟩ := sizes b
  rw [delimiterSymbol_sfd b k hk, shrSymbol_stream b _ (by omega)]
  unfold sym
  rw [← OqSync.stream_sfd b]
  simp only [Nat.testBit_div_two_pow]
  rw [h2, h3, show 2 * k + (2 * RxQ.delimiterSymbols b + 2 * RxQ.preambleSymbols b) = 2 * (RxQ.delimiterSymbols b + (RxQ.preambleSymbols b + k)) by ring,
    show 2 * k + 1 + (2 * RxQ.delimiterSymbols b + 2 * RxQ.preambleSymbols b) = 2 * (RxQ.delimiterSymbols b + (RxQ.preambleSymbols b + k)) + 1 by ring]

theorem delimiter_sq (b : Band) (k : Nat) : ‖RxQ.delimiterSymbol b k‖ ^ 2 = 2 := symbol_sq _ _

/-- The delimiter is found, and the factor. -/
theorem detect_ok (b : Band) (sps : Nat) (r : List ℂ) (A : ℂ) (hA : A ≠ 0) (p : Nat) (h : Heard b sps r A p) :
    RxQ.detect b sps r = some p ∧ ‖RxQ.correlation b sps r p - 2 * RxQ.delimiterSymbols b * A‖ ^ 2 ≤ (RxQ.delimiterSymbols b : ℝ) ^ 2 * ‖A‖ ^ 2 / 8 := by
  obtain ⟨s1, s2, s3, s4, -⟩ := sizes b
  set K := RxQ.delimiterSymbols b with hK
  set P := RxQ.preambleSymbols b with hP
  have ht := there K s4 A hA (fun k => RxQ.softSymbol b sps r (p + k)) (fun k => RxQ.softSymbol b sps r (p + k) - A * RxQ.delimiterSymbol b k) (RxQ.delimiterSymbol b)
    (fun k _ => by ring) (fun k hk => by
      have := h (p + k) (by omega)
      rw [if_neg (by omega), show p + k + RxQ.preambleSymbols b - p = RxQ.preambleSymbols b + k by omega, ← delimiterSymbol_shr b k hk] at this
      exact this) (fun k _ => delimiter_sq b k)
  refine ⟨?_, ht.2⟩
  have hp : p < r.length := by
    by_contra hge
    have := h p (by omega)
    rw [if_neg (by omega)] at this
    have h0 : RxQ.softSymbol b sps r p = 0 := by
      unfold RxQ.softSymbol
      refine Finset.sum_eq_zero fun j hj => ?_
      have := Nat.le_mul_of_pos_right p (by have := Finset.mem_range.1 hj; omega : 0 < sps)
      rw [List.getD_eq_getElem?_getD, List.getElem?_eq_none (by omega)]
      simp
    rw [h0, zero_sub, norm_neg, norm_mul, mul_pow] at this
    have e : ‖shrSymbol b (p + RxQ.preambleSymbols b - p)‖ ^ 2 = 2 := symbol_sq _ _
    rw [e] at this
    have : 0 < ‖A‖ ^ 2 := by positivity
    linarith
  obtain ⟨n, hn⟩ : ∃ n, r.length = p + 1 + n := ⟨r.length - (p + 1), by omega⟩
  unfold RxQ.detect
  rw [hn, List.find?_eq_some_iff_append]
  refine ⟨by rw [decide_eq_true_eq]; exact ht.1, List.range p, (List.range n).map (fun k => p + 1 + k), ?_, fun i hi => ?_⟩
  · rw [List.range_add, List.range_succ, List.append_assoc]; simp
  have hi := List.mem_range.1 hi
  have hno : ‖RxQ.correlation b sps r i‖ ^ 2 ≤ 1 / 3 * (2 * K) * RxQ.power b sps r i := by
    -- symbols of the window that are not silent
    set t := K + P - min (p - i) (K + P) with htdef
    set m := min t K with hm
    have hlt : t < (preambleBits b + 16) * shrChipsPerBit b / 2 := by omega
    have hs := small_corr b t m hlt hm
    have hmK : m ≤ K := by omega
    refine not_there K m hmK A (fun k => RxQ.softSymbol b sps r (i + k)) (fun k => sym (fun i => (OqSync.stream b).testBit i) (t + (K - m) + k))
      (fun k => RxQ.softSymbol b sps r (i + (K - m + k)) - A * sym (fun i => (OqSync.stream b).testBit i) (t + (K - m) + k)) (RxQ.delimiterSymbol b)
      (fun k hk => ?_) (fun k _ => by ring) (fun k _ => symbol_sq _ _) (fun k hk => ?_) (fun k _ => delimiter_sq b k) ?_
    · have := h (i + k) (by omega)
      rwa [if_pos (by omega)] at this
    · have := h (i + (K - m + k)) (by omega)
      rw [if_neg (by omega), shrSymbol_stream b _ (by omega)] at this
      rw [show t + (K - m) + k = RxQ.delimiterSymbols b + (i + (K - m + k) + RxQ.preambleSymbols b - p) by omega]
      exact this
    · rw [Finset.sum_congr rfl fun k hk => by rw [delimiterSymbol_sfd b (K - m + k) (by have := Finset.mem_range.1 hk; omega)]]
      exact hs
  simpa using hno

/-! ### The frame -/

/-- The frame in an interval. -/
theorem sample_ref (b : Band) (sps : Nat) (c : Bits) (i j : Nat) (hi : i < c.length / 2) (hj : j < sps) :
    (RefQ.samples b sps c).getD (i * sps + j) 0 = sym (fun k => c.getD k false) i * (pulseSample b sps j : ℝ) := by
  have hlt : i * sps + j < c.length / 2 * sps := by
    calc i * sps + j < i * sps + sps := by omega
      _ = (i + 1) * sps := by ring
      _ ≤ c.length / 2 * sps := Nat.mul_le_mul_right _ hi
  unfold RefQ.samples
  rw [List.getD_eq_getElem?_getD, List.getElem?_map, List.getElem?_range (by omega)]
  simp only [Option.map_some, Option.getD_some]
  rw [if_pos hlt, show (i * sps + j) / sps = i by rw [Nat.mul_comm, Nat.mul_add_div (by omega), Nat.div_eq_of_lt hj, Nat.add_zero],
    show (i * sps + j) % sps = j by rw [Nat.mul_comm, Nat.mul_add_mod, Nat.mod_eq_of_lt hj]]
  rfl

theorem norm_symbol_mul (f : Nat → Bool) (k : Nat) (g : ℝ) : ‖sym f k * (g : ℂ)‖ ^ 2 = 2 * g ^ 2 := by
  unfold sym
  rw [norm_mul, mul_pow, symbol_sq, Complex.norm_real, Real.norm_eq_abs, sq_abs]

/-- The energy of the frame in an interval is at most two pulse energies. -/
theorem energy_ref (b : Band) (sps : Nat) (c : Bits) (i : Nat) : energy sps (fun n => (RefQ.samples b sps c).getD n 0) i ≤ 2 * RxQ.pulseEnergy b sps := by
  unfold energy RxQ.pulseEnergy
  rw [Finset.mul_sum]
  refine Finset.sum_le_sum fun j hj => ?_
  have hj := Finset.mem_range.1 hj
  dsimp only
  by_cases hi : i < c.length / 2
  · rw [sample_ref b sps c i j hi hj, norm_symbol_mul]
  · have : (RefQ.samples b sps c).getD (i * sps + j) 0 = 0 := by
      have hge : c.length / 2 * sps ≤ i * sps + j := le_trans (Nat.mul_le_mul_right sps (not_lt.1 hi)) (Nat.le_add_right _ _)
      unfold RefQ.samples
      rw [List.getD_eq_getElem?_getD, List.getElem?_map]
      by_cases hl : i * sps + j < c.length / 2 * sps + sps - 1
      · rw [List.getElem?_range hl]
        simp only [Option.map_some, Option.getD_some]
        rw [if_neg (not_lt.2 hge)]
      · rw [List.getElem?_eq_none (by simpa using hl)]; rfl
    rw [this]
    simp only [norm_zero, ne_eq, OfNat.ofNat_ne_zero, not_false_eq_true, zero_pow]
    positivity

/-- The soft symbol of an interval with `c` times the SHR and noise. -/
theorem soft_close (b : Band) (sps : Nat) (x : Bits) (c : ℂ) (r : List ℂ) (i q : Nat) (hq : q < RxQ.preambleSymbols b + RxQ.delimiterSymbols b) (κ : ℝ)
    (hn : ∑ j ∈ Finset.range sps, ‖r.getD (i * sps + j) 0 - c * (RefQ.samples b sps (RefQ.shr b ++ x)).getD (q * sps + j) 0‖ ^ 2 ≤ κ) :
    ‖RxQ.softSymbol b sps r i - c * RxQ.pulseEnergy b sps * shrSymbol b q‖ ^ 2 ≤ κ * RxQ.pulseEnergy b sps := by
  have hl := C102.shr_length b
  obtain ⟨-, -, -, -, s5⟩ := sizes b
  have e : RxQ.softSymbol b sps r i - c * RxQ.pulseEnergy b sps * shrSymbol b q =
      ∑ j ∈ Finset.range sps, (r.getD (i * sps + j) 0 - c * (RefQ.samples b sps (RefQ.shr b ++ x)).getD (q * sps + j) 0) * (pulseSample b sps j : ℝ) := by
    have : c * RxQ.pulseEnergy b sps * shrSymbol b q = ∑ j ∈ Finset.range sps, c * (RefQ.samples b sps (RefQ.shr b ++ x)).getD (q * sps + j) 0 * (pulseSample b sps j : ℝ) := by
      unfold RxQ.pulseEnergy
      push_cast
      rw [Finset.mul_sum, Finset.sum_mul]
      refine Finset.sum_congr rfl fun j hj => ?_
      rw [sample_ref b sps _ q j (by rw [List.length_append]; omega) (Finset.mem_range.1 hj)]
      have : sym (fun k => (RefQ.shr b ++ x).getD k false) q = shrSymbol b q := by
        unfold shrSymbol sym
        simp only [List.getD_eq_getElem?_getD]
        rw [List.getElem?_append_left (by omega), List.getElem?_append_left (by omega)]
      rw [this]; ring
    rw [this]
    unfold RxQ.softSymbol
    rw [← Finset.sum_sub_distrib]
    exact Finset.sum_congr rfl fun j _ => by ring
  rw [e]
  have h1 : ‖∑ j ∈ Finset.range sps, (r.getD (i * sps + j) 0 - c * (RefQ.samples b sps (RefQ.shr b ++ x)).getD (q * sps + j) 0) * (pulseSample b sps j : ℝ)‖ ≤
      ∑ j ∈ Finset.range sps, ‖r.getD (i * sps + j) 0 - c * (RefQ.samples b sps (RefQ.shr b ++ x)).getD (q * sps + j) 0‖ * |pulseSample b sps j| := by
    refine le_trans (norm_sum_le _ _) (le_of_eq (Finset.sum_congr rfl fun k _ => ?_))
    rw [norm_mul, Complex.norm_real, Real.norm_eq_abs]
  have h2 := Finset.sum_mul_sq_le_sq_mul_sq (Finset.range sps) (fun j => ‖r.getD (i * sps + j) 0 - c * (RefQ.samples b sps (RefQ.shr b ++ x)).getD (q * sps + j) 0‖) (fun j => |pulseSample b sps j|)
  have h3 : ∑ j ∈ Finset.range sps, |pulseSample b sps j| ^ 2 = RxQ.pulseEnergy b sps := Finset.sum_congr rfl fun j _ => sq_abs _
  rw [h3] at h2
  exact le_trans (pow_le_pow_left₀ (norm_nonneg _) h1 2) (le_trans h2 (mul_le_mul_of_nonneg_right hn (Finset.sum_nonneg fun j _ => sq_nonneg _)))

/-- After the division, the noise on each chip is small enough for the receiver of C102. -/
theorem chip_noise (b : Band) (sps : Nat) (x : Bits) (c g : ℂ) (hc : c ≠ 0) (hg : ‖g - c‖ ^ 2 ≤ 1 / 32 * ‖c‖ ^ 2) (r y : List ℂ) (k i : Nat)
    (hy : ∀ j < sps, y.getD (k / 2 * sps + j) 0 = r.getD (i * sps + j) 0 / g)
    (hn : ∑ j ∈ Finset.range sps, ‖r.getD (i * sps + j) 0 - c * (RefQ.samples b sps x).getD (k / 2 * sps + j) 0‖ ^ 2 < 1 / 16 * ‖c‖ ^ 2 * RxQ.pulseEnergy b sps) :
    C102.chipNoise sps y (RefQ.samples b sps x) k < 3 / 8 * RxQ.pulseEnergy b sps := by
  set E := RxQ.pulseEnergy b sps with hEdef
  have hE0 : 0 ≤ E := Finset.sum_nonneg fun j _ => sq_nonneg _
  have hcn : 0 < ‖c‖ ^ 2 := by positivity
  have hgn : 2 / 3 * ‖c‖ ^ 2 ≤ ‖g‖ ^ 2 := by
    have := sq_add_le g (c - g) (1 / 5) (by norm_num)
    rw [add_sub_cancel, norm_sub_rev] at this
    norm_num at this
    linarith
  have hgp : 0 < ‖g‖ ^ 2 := by linarith
  have hg0 : g ≠ 0 := by
    intro e
    rw [e, norm_zero] at hgp
    norm_num at hgp
  set iq := RefQ.samples b sps x with hiq
  have hpart : ∀ (k : Nat) (z : ℂ), RxQ.part k z ^ 2 ≤ ‖z‖ ^ 2 := by
    intro k z
    rw [← Complex.normSq_eq_norm_sq, Complex.normSq_apply]
    unfold RxQ.part
    split <;> nlinarith [sq_nonneg z.re, sq_nonneg z.im]
  have step : C102.chipNoise sps y iq k ≤ (2 * ∑ j ∈ Finset.range sps, ‖r.getD (i * sps + j) 0 - c * iq.getD (k / 2 * sps + j) 0‖ ^ 2 +
      2 * (‖g - c‖ ^ 2 * energy sps (fun n => iq.getD n 0) (k / 2))) / ‖g‖ ^ 2 := by
    unfold C102.chipNoise energy RxQ.sampleOf
    rw [Finset.mul_sum, Finset.mul_sum, Finset.mul_sum, ← Finset.sum_add_distrib, Finset.sum_div]
    refine Finset.sum_le_sum fun j hj => ?_
    have e : y.getD (k / 2 * sps + j) 0 - iq.getD (k / 2 * sps + j) 0 =
        ((r.getD (i * sps + j) 0 - c * iq.getD (k / 2 * sps + j) 0) + (c - g) * iq.getD (k / 2 * sps + j) 0) / g := by
      rw [hy j (Finset.mem_range.1 hj)]
      field_simp
      ring
    rw [e]
    refine le_trans (hpart _ _) ?_
    rw [norm_div, div_pow]
    refine div_le_div_of_nonneg_right ?_ hgp.le
    have := sq_add_le (r.getD (i * sps + j) 0 - c * iq.getD (k / 2 * sps + j) 0) ((c - g) * iq.getD (k / 2 * sps + j) 0) 1 one_pos
    rw [norm_mul, mul_pow, norm_sub_rev c g] at this
    linarith
  refine lt_of_le_of_lt step ?_
  rw [div_lt_iff₀ hgp]
  have h2 := energy_ref b sps x (k / 2)
  rw [← hiq, ← hEdef] at h2
  have h3 : ‖g - c‖ ^ 2 * energy sps (fun n => iq.getD n 0) (k / 2) ≤ (1 / 32 * ‖c‖ ^ 2) * (2 * E) :=
    mul_le_mul hg h2 (Finset.sum_nonneg fun _ _ => by positivity) (by positivity)
  have h4 : 3 / 8 * E * (2 / 3 * ‖c‖ ^ 2) ≤ 3 / 8 * E * ‖g‖ ^ 2 := mul_le_mul_of_nonneg_left hgn (by positivity)
  linarith

/-! ### Reception -/

/-- The factor that the receiver finds. -/
theorem factor_close (b : Band) (sps : Nat) (hE : 0 < RxQ.pulseEnergy b sps) (c : ℂ) (r : List ℂ) (p : Nat)
    (h : ‖RxQ.correlation b sps r p - 2 * RxQ.delimiterSymbols b * (c * RxQ.pulseEnergy b sps)‖ ^ 2 ≤ (RxQ.delimiterSymbols b : ℝ) ^ 2 * ‖c * RxQ.pulseEnergy b sps‖ ^ 2 / 8) :
    ‖RxQ.factor b sps r p - c‖ ^ 2 ≤ 1 / 32 * ‖c‖ ^ 2 := by
  obtain ⟨-, -, -, s4, -⟩ := sizes b
  have hKR : (0 : ℝ) < RxQ.delimiterSymbols b := by exact_mod_cast s4
  have hD : (0 : ℝ) < 2 * RxQ.delimiterSymbols b * RxQ.pulseEnergy b sps := by positivity
  have hDC : ((2 * RxQ.delimiterSymbols b * RxQ.pulseEnergy b sps : ℝ) : ℂ) ≠ 0 := by exact_mod_cast hD.ne'
  have e : RxQ.factor b sps r p - c =
      (RxQ.correlation b sps r p - 2 * RxQ.delimiterSymbols b * (c * RxQ.pulseEnergy b sps)) / ((2 * RxQ.delimiterSymbols b * RxQ.pulseEnergy b sps : ℝ) : ℂ) := by
    unfold RxQ.factor
    rw [eq_div_iff hDC, sub_mul, div_mul_cancel₀ _ hDC]
    push_cast
    ring
  rw [e, norm_div, div_pow, Complex.norm_real, Real.norm_eq_abs, sq_abs, div_le_iff₀ (by positivity)]
  refine le_trans h (le_of_eq ?_)
  rw [norm_mul, mul_pow, Complex.norm_real, Real.norm_eq_abs, sq_abs]
  ring

theorem noise_bound (b : Band) (sps : Nat) (c : ℂ) : 1 / 16 * ‖c‖ ^ 2 * RxQ.pulseEnergy b sps * RxQ.pulseEnergy b sps = ‖c * RxQ.pulseEnergy b sps‖ ^ 2 / 16 := by
  rw [norm_mul, mul_pow, Complex.norm_real, Real.norm_eq_abs, sq_abs]; ring

theorem map_div (r : List ℂ) (g : ℂ) (n : Nat) : (r.map fun z => z / g).getD n 0 = r.getD n 0 / g := by
  rw [List.getD_eq_getElem?_getD, List.getD_eq_getElem?_getD, List.getElem?_map]
  cases r[n]? <;> simp

theorem drop_getD (r : List ℂ) (m n : Nat) : (r.drop m).getD n 0 = r.getD (m + n) 0 := by
  rw [List.getD_eq_getElem?_getD, List.getElem?_drop, List.getD_eq_getElem?_getD]

/-- **C122 (before the frame).**  On every standard configuration with a pulse that is not zero, whatever the object was used for before: the frame starts after `z` silent symbol
intervals, and arrives with any complex factor `c ≠ 0`.  The receiver, which knows neither `z` nor `c`, recovers spreading mode, rate mode, octet count and every message bit that the
frame contains, if the energy of the noise in each symbol interval is below 1/16 of `|c|²` times the pulse energy (1/32 of the signal). -/
theorem C122_early (o : OqpskObj) (h : Standard o.params) (hp : C119.Sampled o.params) (a : Arg) (m : Bits) (ha : checkBinaryArray a = .ok m) (h8 : m.length % 8 = 0)
    (iq : List ℂ) (fs : ℚ) (hok : ((oqpskBitsToIQ a).call o).1 = .ok (iq, fs)) (c : ℂ) (hc : c ≠ 0) (z : Nat) (r : List ℂ)
    (h0 : ∀ n < z * o.params.sps, r.getD n 0 = 0)
    (hn : ∀ i, energy o.params.sps (noise c (r.drop (z * o.params.sps)) iq) i < 1 / 16 * ‖c‖ ^ 2 * RxQ.pulseEnergy o.params.band o.params.sps) :
    RxQ.receiveBlind o.params.band o.params.sps r = some (C119.content o.params m) := by
  have hE := C102.pulseEnergy_pos o.params.band o.params.sps hp
  obtain ⟨x, rfl, -⟩ := C119.frame o h a m ha (m.length / 8) (by omega) iq fs hok
  have key : ∀ y, C102.Close o.params.band o.params.sps (decide (o.params.sm = 1)) o.params.rm.toNat (m.length / 8) y
      (RefQ.samples o.params.band o.params.sps (RefQ.shr o.params.band ++ x)) → RxQ.receive o.params.band o.params.sps y = some (C119.content o.params m) :=
    fun y hy => C102.C102_bits o h a m ha (m.length / 8) (by omega) _ fs hok y hy
  clear hok hp
  generalize C119.content o.params m = result at *
  generalize hsm : decide (o.params.sm = 1) = mdsss at *
  generalize hrm : o.params.rm.toNat = rm at *
  generalize hb : o.params.band = b at *
  generalize hs : o.params.sps = sps at *
  have hn' : ∀ i, ∑ j ∈ Finset.range sps, ‖r.getD ((z + i) * sps + j) 0 - c * (RefQ.samples b sps (RefQ.shr b ++ x)).getD (i * sps + j) 0‖ ^ 2 < 1 / 16 * ‖c‖ ^ 2 * RxQ.pulseEnergy b sps := by
    intro i
    refine lt_of_eq_of_lt (Finset.sum_congr rfl fun j _ => ?_) (hn i)
    unfold noise
    rw [drop_getD, show z * sps + (i * sps + j) = (z + i) * sps + j by ring]
  obtain ⟨hd, hcorr⟩ := detect_ok b sps r (c * RxQ.pulseEnergy b sps) (mul_ne_zero hc (by exact_mod_cast hE.ne')) (z + RxQ.preambleSymbols b) (fun i hi => by
    by_cases hz : i < z
    · rw [if_pos (by omega)]
      unfold RxQ.softSymbol
      refine Finset.sum_eq_zero fun j hj => ?_
      have := Nat.mul_le_mul_right sps (show i + 1 ≤ z by omega)
      rw [Nat.add_mul] at this
      rw [h0 _ (by have := Finset.mem_range.1 hj; omega), zero_mul]
    · rw [if_neg (by omega), ← noise_bound]
      refine soft_close b sps x c r i _ (by omega) _ ?_
      have := hn' (i - z)
      rw [show z + (i - z) = i by omega] at this
      rw [show i + RxQ.preambleSymbols b - (z + RxQ.preambleSymbols b) = i - z by omega]
      exact this.le)
  have hg := factor_close b sps hE c r _ hcorr
  unfold RxQ.receiveBlind
  rw [hd]
  simp only
  rw [if_neg (by omega), show z + RxQ.preambleSymbols b - RxQ.preambleSymbols b = z by omega]
  refine key _ (C102.close_of_chips _ _ _ _ _ _ _ fun k => chip_noise b sps _ c _ hc hg r _ k (z + k / 2) (fun j _ => ?_) (hn' (k / 2)))
  rw [drop_getD, map_div, show z * sps + (k / 2 * sps + j) = (z + k / 2) * sps + j by ring]

/-- **C122 (during the preamble).**  The receiver starts `d` symbol intervals after the frame has started, before the end of the preamble. -/
theorem C122_late (o : OqpskObj) (h : Standard o.params) (hp : C119.Sampled o.params) (a : Arg) (m : Bits) (ha : checkBinaryArray a = .ok m) (h8 : m.length % 8 = 0)
    (iq : List ℂ) (fs : ℚ) (hok : ((oqpskBitsToIQ a).call o).1 = .ok (iq, fs)) (c : ℂ) (hc : c ≠ 0) (d : Nat) (hd : 2 * d ≤ C119.place o.params.band) (r : List ℂ)
    (hn : ∀ i, energy o.params.sps (noise c r (iq.drop (d * o.params.sps))) i < 1 / 16 * ‖c‖ ^ 2 * RxQ.pulseEnergy o.params.band o.params.sps) :
    RxQ.receiveBlind o.params.band o.params.sps r = some (C119.content o.params m) := by
  have hE := C102.pulseEnergy_pos o.params.band o.params.sps hp
  obtain ⟨x, rfl, -⟩ := C119.frame o h a m ha (m.length / 8) (by omega) iq fs hok
  obtain ⟨s1, s2, s3, s4, s5⟩ := sizes o.params.band
  have hdP : d ≤ RxQ.preambleSymbols o.params.band := by
    have : C119.place o.params.band = preambleBits o.params.band * shrChipsPerBit o.params.band := rfl
    omega
  clear hd
  have key : ∀ y, C102.Close o.params.band o.params.sps (decide (o.params.sm = 1)) o.params.rm.toNat (m.length / 8) y
      (RefQ.samples o.params.band o.params.sps (RefQ.shr o.params.band ++ x)) → RxQ.receive o.params.band o.params.sps y = some (C119.content o.params m) :=
    fun y hy => C102.C102_bits o h a m ha (m.length / 8) (by omega) _ fs hok y hy
  clear hok hp
  generalize C119.content o.params m = result at *
  generalize hsm : decide (o.params.sm = 1) = mdsss at *
  generalize hrm : o.params.rm.toNat = rm at *
  generalize hb : o.params.band = b at *
  generalize hs : o.params.sps = sps at *
  have hn' : ∀ i, ∑ j ∈ Finset.range sps, ‖r.getD (i * sps + j) 0 - c * (RefQ.samples b sps (RefQ.shr b ++ x)).getD ((d + i) * sps + j) 0‖ ^ 2 < 1 / 16 * ‖c‖ ^ 2 * RxQ.pulseEnergy b sps := by
    intro i
    refine lt_of_eq_of_lt (Finset.sum_congr rfl fun j _ => ?_) (hn i)
    unfold noise
    rw [drop_getD, show d * sps + (i * sps + j) = (d + i) * sps + j by ring]
  obtain ⟨hdet, hcorr⟩ := detect_ok b sps r (c * RxQ.pulseEnergy b sps) (mul_ne_zero hc (by exact_mod_cast hE.ne')) (RxQ.preambleSymbols b - d) (fun i hi => by
    rw [if_neg (by omega), ← noise_bound]
    refine soft_close b sps x c r i _ (by omega) _ ?_
    rw [show i + RxQ.preambleSymbols b - (RxQ.preambleSymbols b - d) = d + i by omega]
    exact (hn' i).le)
  have hg := factor_close b sps hE c r _ hcorr
  have hrec : ∀ y : List ℂ, (∀ i, d ≤ i → ∀ j < sps, y.getD (i * sps + j) 0 = r.getD ((i - d) * sps + j) 0 / RxQ.factor b sps r (RxQ.preambleSymbols b - d)) →
      RxQ.receive b sps y = some result := by
    intro y hy
    refine key _ (C102.close_from_chips _ _ _ _ _ _ _ fun k hk => chip_noise b sps _ c _ hc hg r y k (k / 2 - d) (fun j hj => hy _ (by omega) j hj) ?_)
    have := hn' (k / 2 - d)
    rwa [show d + (k / 2 - d) = k / 2 by omega] at this
  unfold RxQ.receiveBlind
  rw [hdet]
  simp only
  by_cases hz : d = 0
  · rw [if_neg (by omega)]
    refine hrec _ fun i _ j _ => ?_
    rw [drop_getD, map_div, hz, Nat.sub_zero, Nat.sub_self, Nat.zero_mul, Nat.zero_add, Nat.sub_zero]
  · rw [if_pos (by omega), show RxQ.preambleSymbols b - (RxQ.preambleSymbols b - d) = d by omega]
    refine hrec _ fun i hi j _ => ?_
    have : d * sps ≤ i * sps := Nat.mul_le_mul_right _ hi
    rw [List.getD_eq_getElem?_getD, List.getElem?_append_right (by simp; omega), List.length_replicate, ← List.getD_eq_getElem?_getD, map_div, Nat.sub_mul,
      show i * sps + j - d * sps = i * sps - d * sps + j by omega]

theorem octets_bits (o : OqpskObj) (a : Arg) (msg : List UInt8) (hd : C01.Denotes a msg) (h0 : msg ≠ []) (iq : List ℂ) (fs : ℚ)
    (hok : ((oqpskBytesToIQ a).call o).1 = .ok (iq, fs)) :
    C102.bitsOfOctets msg ≠ [] ∧ (C102.bitsOfOctets msg).length % 8 = 0 ∧ ((oqpskBitsToIQ (bitsArg (C102.bitsOfOctets msg))).call o).1 = .ok (iq, fs) := by
  obtain ⟨m, e, hml, hb⟩ := C01.C01_lsb_first a msg hd h0
  rw [(oqpskBytesToIQ_result a o).1] at hok
  unfold oqpskBytesResult at hok
  rw [e] at hok
  have hp0 := List.length_pos_of_ne_nil h0
  have hm0 : m ≠ [] := by intro e; rw [e, List.length_nil] at hml; omega
  have em : m = C102.bitsOfOctets msg := by
    unfold C102.bitsOfOctets
    refine range_map_ext hml _ fun n hn => ?_
    rw [C59.bits_of a msg hd hp0 m e n (by omega)]
    rfl
  rw [← em]
  exact ⟨hm0, by omega, by rw [(oqpskBitsToIQ_result _ o).1]; exact hok⟩

/-- **C122 (octets).**  The same for octet messages: started before the frame or during the preamble. -/
theorem C122_octets (o : OqpskObj) (h : Standard o.params) (hp : C119.Sampled o.params) (a : Arg) (msg : List UInt8) (hd : C01.Denotes a msg) (h0 : msg ≠ [])
    (iq : List ℂ) (fs : ℚ) (hok : ((oqpskBytesToIQ a).call o).1 = .ok (iq, fs)) (c : ℂ) (hc : c ≠ 0) :
    (∀ z r, (∀ n < z * o.params.sps, r.getD n 0 = 0) →
      (∀ i, energy o.params.sps (noise c (r.drop (z * o.params.sps)) iq) i < 1 / 16 * ‖c‖ ^ 2 * RxQ.pulseEnergy o.params.band o.params.sps) →
      RxQ.receiveBlind o.params.band o.params.sps r = some (C119.content o.params (C102.bitsOfOctets msg))) ∧
    (∀ d r, 2 * d ≤ C119.place o.params.band →
      (∀ i, energy o.params.sps (noise c r (iq.drop (d * o.params.sps))) i < 1 / 16 * ‖c‖ ^ 2 * RxQ.pulseEnergy o.params.band o.params.sps) →
      RxQ.receiveBlind o.params.band o.params.sps r = some (C119.content o.params (C102.bitsOfOctets msg))) := by
  obtain ⟨hne, h8, hb⟩ := octets_bits o a msg hd h0 iq fs hok
  exact ⟨fun z r hz hn => C122_early o h hp _ _ (C03.C03_identity _ hne) h8 iq fs hb c hc z r hz hn,
    fun d r hd hn => C122_late o h hp _ _ (C03.C03_identity _ hne) h8 iq fs hb c hc d hd r hn⟩

theorem noise_self (sps : Nat) (c : ℂ) (iq : List ℂ) (i : Nat) : energy sps (noise c (iq.map fun z => c * z) iq) i = 0 := by
  unfold energy
  refine Finset.sum_eq_zero fun j _ => ?_
  have : noise c (iq.map fun z => c * z) iq (i * sps + j) = 0 := by
    unfold noise
    rw [List.getD_eq_getElem?_getD, List.getD_eq_getElem?_getD, List.getElem?_map]
    cases iq[i * sps + j]? <;> simp
  rw [this, norm_zero]; norm_num

/-- **C122 (clean).**  Without noise: any factor but 0, any start before the end of the preamble. -/
theorem C122_clean (o : OqpskObj) (h : Standard o.params) (hp : C119.Sampled o.params) (a : Arg) (msg : List UInt8) (hd : C01.Denotes a msg) (h0 : msg ≠ [])
    (iq : List ℂ) (fs : ℚ) (hok : ((oqpskBytesToIQ a).call o).1 = .ok (iq, fs)) (c : ℂ) (hc : c ≠ 0) :
    (∀ z, RxQ.receiveBlind o.params.band o.params.sps (List.replicate (z * o.params.sps) 0 ++ iq.map fun s => c * s) = some (C119.content o.params (C102.bitsOfOctets msg))) ∧
    (∀ d, 2 * d ≤ C119.place o.params.band →
      RxQ.receiveBlind o.params.band o.params.sps ((iq.drop (d * o.params.sps)).map fun s => c * s) = some (C119.content o.params (C102.bitsOfOctets msg))) := by
  have hE := C102.pulseEnergy_pos o.params.band o.params.sps hp
  obtain ⟨h1, h2⟩ := C122_octets o h hp a msg hd h0 iq fs hok c hc
  constructor
  · intro z
    refine h1 z _ (fun n hn => ?_) fun i => ?_
    · rw [List.getD_eq_getElem?_getD, List.getElem?_append_left (by simpa using hn), List.getElem?_replicate, if_pos hn]; rfl
    · rw [List.drop_left' (by simp), noise_self]; positivity
  · intro d hd
    refine h2 d _ hd fun i => ?_
    rw [noise_self]; positivity

/-! Non-vacuity: in every band a message of one octet is modulated; its frame is received after a quarter turn, at a thousandth of its strength, after a silence. -/
example : ∀ (b : Band) (x : UInt8), ∃ iq fs, ((oqpskBytesToIQ (.bytes [x])).call { params := ⟨b, 0, 0, 4⟩ }).1 = .ok (iq, fs) ∧
    RxQ.receiveBlind b 4 (List.replicate (7 * 4) 0 ++ iq.map fun z => I / 1000 * z) = some (C119.content ⟨b, 0, 0, 4⟩ (C102.bitsOfOctets [x])) := by
  intro b x
  have hstd : Standard (⟨b, 0, 0, 4⟩ : OqpskParams) := ⟨⟨le_rfl, show (0 : Int) ≤ 3 by decide⟩, Or.inl rfl, show 1 ≤ 4 by decide⟩
  have := C68.C68_bytes { params := ⟨b, 0, 0, 4⟩ } hstd (.bytes [x]) [x] rfl (by simp) (by simp)
  simp only at this
  have h4 : fourBitGroups b (0 : Int).toNat = false := by cases b <;> decide
  rw [if_neg (by rw [h4]; simp)] at this
  refine ⟨_, _, this, ?_⟩
  exact (C122_clean { params := ⟨b, 0, 0, 4⟩ } hstd (by show if _ then _ else _; split <;> simp) (.bytes [x]) [x] rfl (by simp) _ _ this (I / 1000)
    (div_ne_zero I_ne_zero (by norm_num))).1 7

end
end SunPhy.C122
