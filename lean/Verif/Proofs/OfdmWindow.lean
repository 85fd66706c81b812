import Verif.Props.C124
/-
Energy of any `N` consecutive samples of an MR-OFDM frame.
-/
namespace SunPhy.OfdmWindow
open SunPhy Spec Complex
noncomputable section

/-- A window that is no longer than the blocks meets at most two of them. -/
theorem two_blocks (f : Nat → ℝ) (T N : Nat) (E : ℝ) (hE : 0 ≤ E) (hT : N ≤ T) (hT0 : 0 < T) (hb : ∀ i a n, a + n ≤ T → n ≤ N → ∑ k ∈ Finset.range n, f (i * T + (a + k)) ≤ E) (j : Nat) :
    ∑ k ∈ Finset.range N, f (j + k) ≤ 2 * E := by
  have hj : j = j / T * T + j % T := by have := Nat.div_add_mod j T; rw [Nat.mul_comm] at this; exact this.symm
  have hlt := Nat.mod_lt j hT0
  generalize j / T = i at *
  generalize j % T = a at *
  subst hj
  rcases Nat.le_total (a + N) T with h | h
  · have := hb i a N h le_rfl
    refine le_trans (le_of_eq (Finset.sum_congr rfl fun k _ => ?_)) (this.trans (by linarith))
    rw [Nat.add_assoc]
  · obtain ⟨n, hn⟩ : ∃ n, N = (T - a) + n := ⟨N - (T - a), by omega⟩
    rw [hn, Finset.sum_range_add]
    have h1 := hb i a (T - a) (by omega) (by omega)
    have h2 := hb (i + 1) 0 n (by omega) (by omega)
    rw [two_mul]
    refine add_le_add (le_trans (le_of_eq (Finset.sum_congr rfl fun k _ => ?_)) h1) (le_trans (le_of_eq (Finset.sum_congr rfl fun k _ => ?_)) h2)
    · rw [Nat.add_assoc]
    · rw [show i * T + a + (T - a + k) = (i + 1) * T + (0 + k) by rw [Nat.add_mul]; omega]

/-- A period of a periodic function, wherever it starts. -/
theorem period_sum (w : Int → ℝ) (N : Nat) (hp : ∀ τ, w (τ + N) = w τ) (τ : Int) : ∑ k ∈ Finset.range N, w (τ + k) = ∑ k ∈ Finset.range N, w k := by
  have step : ∀ τ : Int, ∑ k ∈ Finset.range N, w (τ + 1 + k) = ∑ k ∈ Finset.range N, w (τ + k) := by
    intro τ
    have h1 := Finset.sum_range_succ (fun k : Nat => w (τ + k)) N
    rw [Finset.sum_range_succ'] at h1
    beta_reduce at h1
    rw [hp τ] at h1
    have e : ∑ k ∈ Finset.range N, w (τ + 1 + k) = ∑ k ∈ Finset.range N, w (τ + ((k + 1 : Nat) : Int)) := Finset.sum_congr rfl fun k _ => by congr 1; push_cast; ring
    rw [e]
    simpa using h1
  induction τ using Int.induction_on with
  | zero => simp
  | succ i ih => rw [step, ih]
  | pred i ih =>
    rw [← ih, ← step]
    exact Finset.sum_congr rfl fun k _ => by congr 1; ring

theorem part_sum (w : Int → ℝ) (h0 : ∀ τ, 0 ≤ w τ) (N n : Nat) (hn : n ≤ N) (hp : ∀ τ, w (τ + N) = w τ) (τ : Int) : ∑ k ∈ Finset.range n, w (τ + k) ≤ ∑ k ∈ Finset.range N, w k := by
  rw [← period_sum w N hp τ]
  exact Finset.sum_le_sum_of_subset_of_nonneg (Finset.range_subset_range.2 hn) fun _ _ _ => h0 _

theorem wave_sum {N : Nat} (h8 : N % 8 = 0) (hN : 0 < N) (X : Int → ℂ) : ∑ k ∈ Finset.range N, ‖Ref.wave N X (k : Int)‖ ^ 2 = energy ((allTones N).map X) := by
  have := C91.wave_window h8 hN X 1
  simp only [norm_one, one_pow, one_mul] at this
  rw [← this, C91.energy_map, Finset.sum_range]
  rw [← List.sum_ofFn]
  congr 1
  apply List.ext_getElem
  · simp
  · intro i _ _; simp

theorem wave_part {N : Nat} (h8 : N % 8 = 0) (hN : 0 < N) (X : Int → ℂ) (n : Nat) (hn : n ≤ N) (τ : Int) : ∑ k ∈ Finset.range n, ‖Ref.wave N X (τ + k)‖ ^ 2 ≤ energy ((allTones N).map X) := by
  rw [← wave_sum h8 hN]
  exact part_sum (fun τ => ‖Ref.wave N X τ‖ ^ 2) (fun _ => sq_nonneg _) N n hn (fun τ => by beta_reduce; rw [C91.wave_period hN]) τ

theorem frame_stf (p : OfdmParams) (m : Bits) (k : Nat) (hk : k < 5 * Ref.nfft p.option) :
    (Ref.frame p m).getD k 0 = 5 / 4 * (if 5 * Ref.nfft p.option - Ref.nfft p.option / 2 ≤ k then -1 else 1) *
      Ref.wave (Ref.nfft p.option) (Ref.stfTone p.option) (((k % (5 * Ref.nfft p.option / 4) : Nat) : Int) - ((Ref.nfft p.option / 4 : Nat) : Int)) := by
  unfold Ref.frame
  rw [List.append_assoc, List.getD_eq_getElem?_getD, List.getElem?_append_left (by simpa [Ref.stf] using hk)]
  unfold Ref.stf
  simp only
  rw [List.getElem?_map, List.getElem?_range hk]
  rfl

theorem frame_end {p : OfdmParams} (hS : Supported p) (m : Bits) (n : Nat)
    (hn : 5 * Ref.nfft p.option + 5 * Ref.nfft p.option / 2 + Ref.symbolCount p m.length * (5 * Ref.nfft p.option / 4) ≤ n) : (Ref.frame p m).getD n 0 = 0 := by
  rw [List.getD_eq_getElem?_getD, List.getElem?_eq_none (by rw [C67.C67_size]; exact hn)]
  rfl

/-- Energy of any part of at most `N` samples of a symbol with its prefix. -/
theorem block_energy {p : OfdmParams} (hS : Supported p) (m : Bits) (i a n : Nat) (ha : a + n ≤ 5 * Ref.nfft p.option / 4) (hn : n ≤ Ref.nfft p.option) :
    ∑ k ∈ Finset.range n, ‖(Ref.frame p m).getD (i * (5 * Ref.nfft p.option / 4) + (a + k)) 0‖ ^ 2 ≤ 9 / 5 * C91.active p.option := by
  obtain ⟨_, ho, _⟩ := C91.mcs_le hS
  obtain ⟨h8, hN⟩ := C91.nfft_facts _ ho
  have hsum : ∀ opt ∈ [1, 2, 3, 4], C91.active opt = C91.pilots opt + C91.datas opt := by decide
  have hsum := hsum _ ho
  have hA : (0 : ℝ) ≤ C91.active p.option := Nat.cast_nonneg _
  have e3 : ∀ c : Prop, [Decidable c] → ‖(if c then (-1 : ℂ) else 1)‖ = 1 := by intro c _; split <;> simp
  rcases (by omega : i < 4 ∨ i = 4 ∨ i = 5 ∨ 6 ≤ i) with hi | hi | hi | hi
  · have hb : i * (5 * Ref.nfft p.option / 4) + 5 * Ref.nfft p.option / 4 ≤ 5 * Ref.nfft p.option := by
      rcases (by omega : i = 0 ∨ i = 1 ∨ i = 2 ∨ i = 3) with rfl | rfl | rfl | rfl <;> omega
    have key : ∀ k ∈ Finset.range n, ‖(Ref.frame p m).getD (i * (5 * Ref.nfft p.option / 4) + (a + k)) 0‖ ^ 2 =
        25 / 16 * ‖Ref.wave (Ref.nfft p.option) (Ref.stfTone p.option) ((a : Int) - ((Ref.nfft p.option / 4 : Nat) : Int) + k)‖ ^ 2 := by
      intro k hk
      have hk := Finset.mem_range.1 hk
      rw [frame_stf p m _ (by omega), norm_mul, norm_mul, e3, mul_one, Nat.mul_comm, Nat.mul_add_mod, Nat.mod_eq_of_lt (by omega), mul_pow,
        show ‖(5 / 4 : ℂ)‖ ^ 2 = 25 / 16 by norm_num]
      congr 4
      push_cast; ring
    rw [Finset.sum_congr rfl key, ← Finset.mul_sum]
    have := wave_part h8 hN (Ref.stfTone p.option) n hn ((a : Int) - ((Ref.nfft p.option / 4 : Nat) : Int))
    rw [C91.stf_energy _ ho] at this
    linarith
  · have key : ∀ k ∈ Finset.range n, ‖(Ref.frame p m).getD (i * (5 * Ref.nfft p.option / 4) + (a + k)) 0‖ ^ 2 =
        ‖Ref.wave (Ref.nfft p.option) (Ref.ltfTone p.option) ((a : Int) - ((Ref.nfft p.option / 2 : Nat) : Int) + k)‖ ^ 2 := by
      intro k hk
      have hk := Finset.mem_range.1 hk
      rw [show i * (5 * Ref.nfft p.option / 4) + (a + k) = 5 * Ref.nfft p.option + (a + k) by rw [hi]; omega, C120.frame_ltf p m _ (by omega)]
      congr 3
      push_cast; ring
    rw [Finset.sum_congr rfl key]
    have := wave_part h8 hN (Ref.ltfTone p.option) n hn ((a : Int) - ((Ref.nfft p.option / 2 : Nat) : Int))
    rw [C91.ltf_energy _ ho] at this
    linarith
  · have key : ∀ k ∈ Finset.range n, ‖(Ref.frame p m).getD (i * (5 * Ref.nfft p.option / 4) + (a + k)) 0‖ ^ 2 =
        ‖Ref.wave (Ref.nfft p.option) (Ref.ltfTone p.option) (((5 * Ref.nfft p.option / 4 + a : Nat) : Int) - ((Ref.nfft p.option / 2 : Nat) : Int) + k)‖ ^ 2 := by
      intro k hk
      have hk := Finset.mem_range.1 hk
      rw [show i * (5 * Ref.nfft p.option / 4) + (a + k) = 5 * Ref.nfft p.option + (5 * Ref.nfft p.option / 4 + a + k) by rw [hi]; omega, C120.frame_ltf p m _ (by omega)]
      congr 3
      push_cast; ring
    rw [Finset.sum_congr rfl key]
    have := wave_part h8 hN (Ref.ltfTone p.option) n hn (((5 * Ref.nfft p.option / 4 + a : Nat) : Int) - ((Ref.nfft p.option / 2 : Nat) : Int))
    rw [C91.ltf_energy _ ho] at this
    linarith
  · obtain ⟨q, rfl⟩ : ∃ q, i = q + 6 := ⟨i - 6, by omega⟩
    have hpos : (q + 6) * (5 * Ref.nfft p.option / 4) = 5 * Ref.nfft p.option + 5 * Ref.nfft p.option / 2 + q * (5 * Ref.nfft p.option / 4) := by
      rw [Nat.add_mul]; omega
    by_cases hq : q < Ref.symbolCount p m.length
    · have key : ∀ k ∈ Finset.range n, ‖(Ref.frame p m).getD ((q + 6) * (5 * Ref.nfft p.option / 4) + (a + k)) 0‖ ^ 2 =
          ‖Ref.wave (Ref.nfft p.option) (Ref.toneValue p m q) ((a : Int) - ((Ref.nfft p.option / 4 : Nat) : Int) + k)‖ ^ 2 := by
        intro k hk
        have hk := Finset.mem_range.1 hk
        rw [hpos, Nat.add_assoc, C120.frame_symbol p m q hq _ (by omega)]
        congr 3
        push_cast; ring
      rw [Finset.sum_congr rfl key]
      refine (wave_part h8 hN (Ref.toneValue p m q) n hn _).trans ((C91.symbol_tones hS m q).2.trans ?_)
      rw [hsum, Nat.cast_add]
      have d0 : (0 : ℝ) ≤ C91.datas p.option := Nat.cast_nonneg _
      have p0 : (0 : ℝ) ≤ C91.pilots p.option := Nat.cast_nonneg _
      unfold C91.hi
      split <;> nlinarith
    · rw [Finset.sum_eq_zero]
      · positivity
      · intro k _
        have := Nat.mul_le_mul_right (5 * Ref.nfft p.option / 4) (not_lt.1 hq)
        rw [frame_end hS m _ (by omega), norm_zero]
        norm_num

/-- Energy of any `N` consecutive samples. -/
theorem window_energy {p : OfdmParams} (hS : Supported p) (m : Bits) (j : Nat) :
    ∑ k ∈ Finset.range (Ref.nfft p.option), ‖(Ref.frame p m).getD (j + k) 0‖ ^ 2 ≤ 18 / 5 * C91.active p.option := by
  obtain ⟨_, ho, _⟩ := C91.mcs_le hS
  obtain ⟨h8, hN⟩ := C91.nfft_facts _ ho
  have hA : (0 : ℝ) ≤ C91.active p.option := Nat.cast_nonneg _
  have := two_blocks (fun n => ‖(Ref.frame p m).getD n 0‖ ^ 2) (5 * Ref.nfft p.option / 4) (Ref.nfft p.option) (9 / 5 * C91.active p.option) (by positivity) (by omega) (by omega)
    (fun i a n h1 h2 => block_energy hS m i a n h1 h2) j
  beta_reduce at this
  linarith

end
end SunPhy.OfdmWindow
