import Verif.Spec.OfdmEqualiser
import Verif.Props.C100
import Verif.Props.C105
/-
C120 — MR-OFDM frames survive multipath: the prefixes are long enough and the training field good enough to remove any channel whose echoes arrive within the prefix.
-/
namespace SunPhy.C120
open SunPhy Spec Complex
noncomputable section

/-! ### Samples of a frame -/

theorem window_getD (x : List ℂ) (a n j : Nat) (h : j < n) : (C91.window x a n).getD j 0 = x.getD (a + j) 0 := by
  unfold C91.window
  rw [List.getD_eq_getElem?_getD, List.getElem?_take_of_lt h, List.getElem?_drop, List.getD_eq_getElem?_getD]

theorem train_length (option : Nat) : (Ref.stf option ++ Ref.ltf option).length = 5 * Ref.nfft option + 5 * Ref.nfft option / 2 := by
  simp [Ref.stf, Ref.ltf]

theorem frame_symbol (p : OfdmParams) (m : Bits) (n : Nat) (hn : n < Ref.symbolCount p m.length) (j : Nat) (hj : j < 5 * Ref.nfft p.option / 4) :
    (Ref.frame p m).getD (5 * Ref.nfft p.option + 5 * Ref.nfft p.option / 2 + (n * (5 * Ref.nfft p.option / 4) + j)) 0 =
      Ref.wave (Ref.nfft p.option) (Ref.toneValue p m n) ((j : Int) - ((Ref.nfft p.option / 4 : Nat) : Int)) := by
  rw [← train_length, ← Nat.add_assoc, ← window_getD _ _ (5 * Ref.nfft p.option / 4) j hj]
  unfold Ref.frame
  rw [C91.window_right, ← Nat.add_zero (n * _), C91.window_block _ (5 * Ref.nfft p.option / 4) _ _ _ _ (fun i => by simp [Ref.symbol]) hn (by omega)]
  unfold Ref.symbol
  simp only
  rw [C91.window_range _ _ _ _ (by omega), List.getD_eq_getElem?_getD, List.getElem?_map, List.getElem?_range hj]
  simp

theorem frame_ltf (p : OfdmParams) (m : Bits) (j : Nat) (hj : j < 5 * Ref.nfft p.option / 2) :
    (Ref.frame p m).getD (5 * Ref.nfft p.option + j) 0 = Ref.wave (Ref.nfft p.option) (Ref.ltfTone p.option) ((j : Int) - ((Ref.nfft p.option / 2 : Nat) : Int)) := by
  have hl : (Ref.stf p.option).length = 5 * Ref.nfft p.option := by simp [Ref.stf]
  unfold Ref.frame
  rw [List.append_assoc, List.getD_eq_getElem?_getD, List.getElem?_append_right (by omega), hl, Nat.add_sub_cancel_left,
    List.getElem?_append_left (by simpa [Ref.ltf] using hj)]
  unfold Ref.ltf
  simp only
  rw [List.getElem?_map, List.getElem?_range hj]
  rfl

/-! ### The channel on a periodic signal -/

theorem wave_delay (N : Nat) (h : List ℂ) (X : Int → ℂ) (k : Int) :
    ∑ l ∈ Finset.range h.length, h.getD l 0 * Ref.wave N X (k - l) = Ref.wave N (fun t => Rx.response N h t * X t) k := by
  unfold Ref.wave Rx.response
  simp only [mul_div_assoc', Finset.mul_sum, ← Finset.sum_div]
  congr 1
  rw [Finset.sum_comm]
  refine Finset.sum_congr rfl fun i _ => ?_
  rw [Finset.sum_mul, Finset.sum_mul]
  refine Finset.sum_congr rfl fun l _ => ?_
  rw [show (2 * (Real.pi : ℂ) * I * (((i : Int) - ((N / 2 : Nat) : Int) : Int) : ℂ) * ((k - (l : Int) : Int) : ℂ) / N) =
    2 * (Real.pi : ℂ) * I * (((i : Int) - ((N / 2 : Nat) : Int) : Int) : ℂ) * (k : ℂ) / N +
      -(2 * (Real.pi : ℂ) * I * (((i : Int) - ((N / 2 : Nat) : Int) : Int) : ℂ) * (l : ℂ) / N) by push_cast; ring, Complex.exp_add]
  ring

theorem through_wave (N : Nat) (h x : List ℂ) (X : Int → ℂ) (s k : Nat) (hs : N / 4 ≤ s) (hh : h.length ≤ N / 4 + 1)
    (hx : ∀ l ≤ N / 4, x.getD (s + k - l) 0 = Ref.wave N X ((k : Int) - l)) : Rx.through h x (s + k) = Ref.wave N (fun t => Rx.response N h t * X t) k := by
  rw [← wave_delay]
  unfold Rx.through
  refine Finset.sum_congr rfl fun l hl => ?_
  have hl := Finset.mem_range.1 hl
  rw [if_pos (by omega), hx l (by omega)]

/-! ### Tones -/

/-- Tone `t` of `N` samples. -/
abbrev tone (N : Nat) (y : List ℂ) (t : Int) : ℂ := (fftshift (dftOrtho y)).getD (t + ((N / 2 : Nat) : Int)).toNat 0

theorem tone_wave {N : Nat} (he : N % 2 = 0) (hN : 0 < N) (X : Int → ℂ) (t : Int) (ht : t ∈ allTones N) :
    tone N ((List.range N).map fun (k : Nat) => Ref.wave N X (k : Int)) t = X t := by
  unfold tone
  rw [← plain_wave he hN, dft_ofdmIfft]
  unfold allTones at ht ⊢
  obtain ⟨i, hi, rfl⟩ := List.mem_map.1 ht
  have hi := List.mem_range.1 hi
  rw [List.getD_eq_getElem?_getD, show ((i : Int) - ((N / 2 : Nat) : Int) + ((N / 2 : Nat) : Int)).toNat = i by omega, List.getElem?_map, List.getElem?_map, List.getElem?_range hi]
  rfl

/-- A window of the received signal, where the channel delivers `wave N Y`. -/
theorem tone_received {N : Nat} (he : N % 2 = 0) (hN : 0 < N) (h iq r : List ℂ) (s : Nat) (hr : s + N ≤ r.length) (Y : Int → ℂ)
    (hY : ∀ k < N, Rx.through h iq (s + k) = Ref.wave N Y (k : Int)) (t : Int) (ht : t ∈ allTones N) :
    ‖tone N ((r.drop s).take N) t - Y t‖ ^ 2 ≤ Rx.disturbance h iq r s N := by
  have hl : ((r.drop s).take N).length = N := by simp; omega
  rw [← tone_wave he hN Y t ht]
  refine le_trans (C100.shift_noise _ _ (by rw [hl]; simp) _) (le_of_eq ?_)
  rw [C100.distSq_sum (N := N) _ _ hl (by simp)]
  unfold Rx.disturbance
  refine Finset.sum_congr rfl fun k hk => ?_
  have hk := Finset.mem_range.1 hk
  rw [hY k hk]
  congr 3
  · exact window_getD r s N k hk
  · rw [List.getD_eq_getElem?_getD, List.getElem?_map, List.getElem?_range hk]; rfl

theorem start_eq {N : Nat} (h8 : N % 8 = 0) (n : Nat) : Rx.symbolStart N n = 5 * N + 5 * N / 2 + (n * (5 * N / 4) + N / 4) := by unfold Rx.symbolStart; omega

theorem symbol_through {p : OfdmParams} (h8 : Ref.nfft p.option % 8 = 0) (m : Bits) (h : List ℂ) (hh : h.length ≤ Ref.nfft p.option / 4 + 1) (n : Nat)
    (hn : n < Ref.symbolCount p m.length) (k : Nat) (hk : k < Ref.nfft p.option) :
    Rx.through h (Ref.frame p m) (Rx.symbolStart (Ref.nfft p.option) n + k) =
      Ref.wave (Ref.nfft p.option) (fun t => Rx.response (Ref.nfft p.option) h t * Ref.toneValue p m n t) (k : Int) := by
  rw [start_eq h8]
  refine through_wave _ h _ _ _ k (by omega) hh fun l hl => ?_
  rw [show 5 * Ref.nfft p.option + 5 * Ref.nfft p.option / 2 + (n * (5 * Ref.nfft p.option / 4) + Ref.nfft p.option / 4) + k - l =
    5 * Ref.nfft p.option + 5 * Ref.nfft p.option / 2 + (n * (5 * Ref.nfft p.option / 4) + (Ref.nfft p.option / 4 + k - l)) by omega,
    frame_symbol p m n hn _ (by omega)]
  congr 1
  omega

theorem training_through {p : OfdmParams} (h8 : Ref.nfft p.option % 8 = 0) (m : Bits) (h : List ℂ) (hh : h.length ≤ Ref.nfft p.option / 4 + 1) (k : Nat) (hk : k < Ref.nfft p.option) :
    Rx.through h (Ref.frame p m) (Rx.trainingStart (Ref.nfft p.option) + k) =
      Ref.wave (Ref.nfft p.option) (fun t => Rx.response (Ref.nfft p.option) h t * Ref.ltfTone p.option t) (k : Int) := by
  unfold Rx.trainingStart
  refine through_wave _ h _ _ _ k (by omega) hh fun l hl => ?_
  rw [show 5 * Ref.nfft p.option + Ref.nfft p.option / 2 + k - l = 5 * Ref.nfft p.option + (Ref.nfft p.option / 2 + k - l) by omega, frame_ltf p m _ (by omega)]
  congr 1
  omega

/-! ### Equalisation -/

theorem ltf_norm (option : Nat) (t : Int) (ht : Rx.Active option t) : ‖Ref.ltfTone option t‖ = 1 := by
  unfold Ref.ltfTone
  rw [if_neg ht.1]
  split <;> simp

theorem tone_unused (p : OfdmParams) (m : Bits) (n : Nat) (t : Int) (ht : t ∈ allTones (Ref.nfft p.option)) (h : ¬ Rx.Active p.option t) : Ref.toneValue p m n t = 0 := by
  unfold Ref.toneValue
  simp only
  rw [if_pos]
  by_contra hc
  exact h ⟨hc, ht⟩

theorem point_bound (w : Nat) (hw : w = 1 ∨ w = 2 ∨ w = 4) (b : Nat → Bool) : ‖Ref.point w b‖ ≤ if w = 4 then 27 / 20 else 1 := by
  rcases hw with rfl | rfl | rfl
  · rw [C91.point_low 1 (Or.inl rfl)]; norm_num
  · rw [C91.point_low 2 (Or.inr rfl)]; norm_num
  · have := (C91.point_high b).2
    rw [if_pos rfl]
    by_contra hc
    push Not at hc
    nlinarith [norm_nonneg (Ref.point 4 b)]

/-- Largest amplitude of a tone, by bits per tone. -/
def amplitude (w : Nat) : ℝ := if w = 4 then 27 / 20 else 1

/-- Signal to noise ratio that suffices, by bits per tone. -/
def ratio (w : Nat) : ℝ := if w = 4 then 9 else 4

theorem tone_bound {p : OfdmParams} (h : Supported p) (m : Bits) (n : Nat) (t : Int) : ‖Ref.toneValue p m n t‖ ≤ amplitude (bitsOf (C91.schemeOf p n)) := by
  have h1 : ∀ w, (1 : ℝ) ≤ amplitude w := by intro w; unfold amplitude; split <;> norm_num
  obtain ⟨hw, -⟩ := C97.cfg_facts p (mem_allSupported h)
  obtain ⟨hw', -⟩ := C98.hdr_facts p (mem_allSupported h)
  have hv : ∀ M stream k d, (bitsOf M = 1 ∨ bitsOf M = 2 ∨ bitsOf M = 4) → ‖Ref.dataValue p.option M stream k d‖ ≤ amplitude (bitsOf M) := by
    intro M stream k d hM
    unfold Ref.dataValue
    simp only
    rw [norm_mul, C91.turn_norm, mul_one]
    exact point_bound _ hM _
  unfold Ref.toneValue
  simp only
  split
  · rw [norm_zero]; linarith [h1 (bitsOf (C91.schemeOf p n))]
  split
  · rw [C91.sign_norm]; exact h1 _
  split
  · rename_i hn
    unfold C91.schemeOf
    rw [if_pos hn]
    exact hv _ _ _ _ (by rcases hw' with e | e; exact Or.inl e; exact Or.inr (Or.inl e))
  · rename_i hn
    unfold C91.schemeOf
    rw [if_neg hn]
    exact hv _ _ _ _ hw

/-- The error of a quotient. -/
theorem quotient (A B H L X : ℂ) (ε a κ : ℝ) (hL : ‖L‖ = 1) (hA : ‖A - H * X‖ ≤ ε) (hB : ‖B - H * L‖ ≤ ε) (hX : ‖X‖ ≤ a) (hκ : 1 < κ) (hH : κ * ε ≤ ‖H‖) (h0 : H ≠ 0) :
    ‖A / (B / L) - X‖ ≤ (1 + a) / (κ - 1) := by
  have hL0 : L ≠ 0 := by intro e; rw [e, norm_zero] at hL; norm_num at hL
  have hε : 0 ≤ ε := le_trans (norm_nonneg _) hA
  have ha : 0 ≤ a := le_trans (norm_nonneg _) hX
  have hHp : 0 < ‖H‖ := norm_pos_iff.2 h0
  have e1 : ‖B / L - H‖ ≤ ε := by
    rw [show B / L - H = (B - H * L) / L by field_simp, norm_div, hL, div_one]; exact hB
  set G := B / L with hG
  have e2 : ‖H‖ - ε ≤ ‖G‖ := by
    have : ‖H‖ ≤ ‖G‖ + ‖G - H‖ := by
      calc ‖H‖ = ‖G - (G - H)‖ := by congr 1; ring
        _ ≤ _ := norm_sub_le _ _
    linarith
  have hεH : ε ≤ ‖H‖ / κ := by rw [le_div_iff₀ (by linarith)]; linarith
  have hGp : 0 < ‖G‖ := by
    have : ‖H‖ / κ < ‖H‖ := div_lt_self hHp hκ
    linarith
  have hG0 : G ≠ 0 := norm_pos_iff.1 hGp
  rw [show A / G - X = (A - G * X) / G by field_simp, norm_div, div_le_div_iff₀ hGp (by linarith)]
  have e3 : ‖A - G * X‖ ≤ ε + ε * a := by
    calc ‖A - G * X‖ = ‖(A - H * X) - (G - H) * X‖ := by congr 1; ring
      _ ≤ ‖A - H * X‖ + ‖(G - H) * X‖ := norm_sub_le _ _
      _ ≤ ε + ε * a := by
        rw [norm_mul]
        exact add_le_add hA (mul_le_mul e1 hX (norm_nonneg _) hε)
  have e4 : ε * (κ - 1) ≤ ‖G‖ := by linarith [mul_comm ε κ]
  calc ‖A - G * X‖ * (κ - 1) ≤ (ε + ε * a) * (κ - 1) := mul_le_mul_of_nonneg_right e3 (by linarith)
    _ = (1 + a) * (ε * (κ - 1)) := by ring
    _ ≤ (1 + a) * ‖G‖ := mul_le_mul_of_nonneg_left e4 (by linarith)

theorem margin_ok (w : Nat) (hw : w = 1 ∨ w = 2 ∨ w = 4) : ((1 + amplitude w) / (ratio w - 1)) ^ 2 < C100.margin w := by
  rcases hw with rfl | rfl | rfl <;> norm_num [amplitude, ratio, C100.margin]

/-- The channel and the noise are harmless: echoes within the prefix, no active tone erased, noise energy at most `ε²` in the first long training symbol and in every
symbol, `ε` below a quarter (16-QAM: a ninth) of the gain of every active tone. -/
structure Harmless (p : OfdmParams) (len : Nat) (h iq r : List ℂ) (ε : ℝ) : Prop where
  size : iq.length ≤ r.length
  prefixed : h.length ≤ Ref.nfft p.option / 4 + 1
  nonneg : 0 ≤ ε
  training : Rx.disturbance h iq r (Rx.trainingStart (Ref.nfft p.option)) (Ref.nfft p.option) ≤ ε ^ 2
  symbols : ∀ n < Ref.symbolCount p len, Rx.disturbance h iq r (Rx.symbolStart (Ref.nfft p.option) n) (Ref.nfft p.option) ≤ ε ^ 2
  gain : ∀ t, Rx.Active p.option t → Rx.response (Ref.nfft p.option) h t ≠ 0 ∧ ratio (bitsOf p.mcs) * ε ≤ ‖Rx.response (Ref.nfft p.option) h t‖

theorem equalised_useful {p : OfdmParams} (h8 : Ref.nfft p.option % 8 = 0) (hN : 0 < Ref.nfft p.option) (r : List ℂ) (n : Nat)
    (hr : Rx.symbolStart (Ref.nfft p.option) n + Ref.nfft p.option ≤ r.length) :
    ∃ Y : Int → ℂ, Rx.useful p.option (Rx.equalise p.option r) n = (List.range (Ref.nfft p.option)).map (fun (k : Nat) => Ref.wave (Ref.nfft p.option) Y (k : Int)) ∧
      (∀ t, Rx.Active p.option t → Y t = Rx.toneValue p.option r n t / Rx.estimate p.option r t) ∧ ∀ t, ¬ Rx.Active p.option t → Y t = 0 := by
  classical
  refine ⟨fun t => if Rx.Active p.option t then Rx.toneValue p.option r n t / Rx.estimate p.option r t else 0, ?_, fun t ht => if_pos ht, fun t ht => if_neg ht⟩
  change C91.window _ _ _ = _
  unfold Rx.equalise
  simp only
  rw [C91.window_range _ _ _ _ hr]
  apply List.map_congr_left
  intro k hk
  have hk := List.mem_range.1 hk
  have e : Rx.symbolStart (Ref.nfft p.option) n + k = 15 * Ref.nfft p.option / 2 + (n * (5 * Ref.nfft p.option / 4) + (Ref.nfft p.option / 4 + k)) := by
    unfold Rx.symbolStart; omega
  have hn : (Rx.symbolStart (Ref.nfft p.option) n + k - 15 * Ref.nfft p.option / 2) / (5 * Ref.nfft p.option / 4) = n := by
    rw [e, Nat.add_sub_cancel_left, Nat.mul_comm n, Nat.mul_add_div (by omega), Nat.div_eq_of_lt (a := Ref.nfft p.option / 4 + k) (by omega), Nat.add_zero]
  rw [if_pos (by omega), hn]
  congr 1
  push_cast; ring

theorem equalised_tones {p : OfdmParams} (hS : Supported p) (m : Bits) (h r : List ℂ) (ε : ℝ) (hh : Harmless p m.length h (Ref.frame p m) r ε) :
    C100.Tones p m (Rx.equalise p.option r) := by
  obtain ⟨_, ho, _⟩ := C91.mcs_le hS
  obtain ⟨h8, hN⟩ := C91.nfft_facts _ ho
  intro n hn t ht
  have hlen : ∀ s, s + Ref.nfft p.option ≤ (Ref.frame p m).length → s + Ref.nfft p.option ≤ r.length := fun s hs => le_trans hs hh.size
  have hul := C100.useful_length hS m _ le_rfl n hn
  have hsym : Rx.symbolStart (Ref.nfft p.option) n + Ref.nfft p.option ≤ (Ref.frame p m).length := by
    unfold Rx.useful at hul
    rw [List.length_take, List.length_drop] at hul
    omega
  have htr : Rx.trainingStart (Ref.nfft p.option) + Ref.nfft p.option ≤ (Ref.frame p m).length := by
    unfold Rx.trainingStart
    unfold Rx.symbolStart at hsym
    omega
  obtain ⟨Y, eY, hY1, hY0⟩ := equalised_useful h8 hN r n (hlen _ hsym)
  have eT : Rx.toneValue p.option (Rx.equalise p.option r) n t = Y t := by
    unfold Rx.toneValue
    rw [eY]
    exact tone_wave (by omega) hN Y t ht
  have hw : bitsOf (C91.schemeOf p n) = 1 ∨ bitsOf (C91.schemeOf p n) = 2 ∨ bitsOf (C91.schemeOf p n) = 4 := by
    obtain ⟨hw, -⟩ := C97.cfg_facts p (mem_allSupported hS)
    obtain ⟨hw', -⟩ := C98.hdr_facts p (mem_allSupported hS)
    unfold C91.schemeOf
    split
    · rcases hw' with e | e
      · exact Or.inl e
      · exact Or.inr (Or.inl e)
    · exact hw
  rw [eT]
  by_cases ha : Rx.Active p.option t
  · rw [hY1 t ha]
    obtain ⟨g0, g1⟩ := hh.gain t ha
    have hA := tone_received (by omega) hN h (Ref.frame p m) r _ (hlen _ hsym) _ (fun k hk => symbol_through h8 m h hh.prefixed n hn k hk) t ht
    have hB := tone_received (by omega) hN h (Ref.frame p m) r _ (hlen _ htr) _ (fun k hk => training_through h8 m h hh.prefixed k hk) t ht
    have hA' := abs_le_of_sq_le_sq (le_trans hA (hh.symbols n hn)) hh.nonneg
    have hB' := abs_le_of_sq_le_sq (le_trans hB hh.training) hh.nonneg
    have hr2 : ratio (bitsOf (C91.schemeOf p n)) * ε ≤ ‖Rx.response (Ref.nfft p.option) h t‖ := by
      refine le_trans (mul_le_mul_of_nonneg_right ?_ hh.nonneg) g1
      unfold C91.schemeOf
      split
      · obtain ⟨hw', -⟩ := C98.hdr_facts p (mem_allSupported hS)
        unfold ratio
        rw [if_neg (show ¬ bitsOf (Ref.headerMcs p.option) = 4 by omega)]
        split <;> norm_num
      · exact le_rfl
    have q := quotient (Rx.toneValue p.option r n t) _ (Rx.response (Ref.nfft p.option) h t) (Ref.ltfTone p.option t) (Ref.toneValue p m n t) ε
      (amplitude (bitsOf (C91.schemeOf p n))) (ratio (bitsOf (C91.schemeOf p n))) (ltf_norm _ _ ha) ((le_abs_self _).trans hA') ((le_abs_self _).trans hB') (tone_bound hS m n t)
      (by unfold ratio; split <;> norm_num) hr2 g0
    refine lt_of_le_of_lt (pow_le_pow_left₀ (norm_nonneg _) q 2) (margin_ok _ hw)
  · rw [hY0 t ha, tone_unused p m n t ht ha, sub_zero, norm_zero]
    have := C100.margin_pos (bitsOf (C91.schemeOf p n))
    simpa using this

/-- **C120 (bits).**  Whatever the channel, if its echoes arrive within a quarter of a symbol, it erases no tone in use and the noise is small enough against the gain of
every tone, the equalising receiver, which knows only option and interleaving, recovers MCS, scrambler and the complete octets of the message from the frame that
`bitsToIQ` returned. -/
theorem C120_bits (o : OfdmObj) (hS : Supported o.params) (a : Arg) (m : Bits) (ha : checkBinaryArray a = .ok m) (iq : List ℂ) (fs : ℚ)
    (hok : ((ofdmModBitsToIQ a).call o).1 = .ok (iq, fs)) (h r : List ℂ) (ε : ℝ) (hh : Harmless o.params m.length h iq r ε) :
    Rx.receiveEqualised o.params.option o.params.interleaving r = some (o.params.mcs, o.params.scrambler, m.take (8 * (m.length / 8))) := by
  have k := (C15.C15_bitsToIQ o hS a m ha).1.1 ⟨_, hok⟩
  obtain ⟨_, e, -⟩ := C67.C67_reference o hS a m ha k.1 k.2
  rw [e] at hok
  have r1 := congrArg Prod.fst (Except.ok.inj hok)
  simp only at r1
  subst r1
  exact C100.receive_tones hS m k.2 _ (equalised_tones hS m h r ε hh)

/-- **C120 (octets).**  The same for octet messages. -/
theorem C120_octets (o : OfdmObj) (hS : Supported o.params) (a : Arg) (msg : List UInt8) (ha : C01.Denotes a msg) (h0 : msg ≠ []) (iq : List ℂ) (fs : ℚ)
    (hok : ((ofdmModBytesToIQ a).call o).1 = .ok (iq, fs)) (h r : List ℂ) (ε : ℝ) (hh : Harmless o.params (8 * msg.length) h iq r ε) :
    ∃ b, Rx.receiveEqualised o.params.option o.params.interleaving r = some (o.params.mcs, o.params.scrambler, b) ∧ Rx.octets b = msg := by
  obtain ⟨b, hb, hbl, l2, rfl⟩ := C100.bytes_frame o a msg iq fs hS ha h0 hok
  refine ⟨b, ?_, C100.octets_ok a msg ha h0 b hb⟩
  rw [← hbl] at hh
  have := C100.receive_tones hS b (by omega) _ (equalised_tones hS b h r ε hh)
  rw [List.take_of_length_le (show b.length ≤ 8 * (b.length / 8) by omega)] at this
  exact this

theorem symbol_end {p : OfdmParams} (hS : Supported p) (m : Bits) (n : Nat) (hn : n < Ref.symbolCount p m.length) :
    Rx.symbolStart (Ref.nfft p.option) n + Ref.nfft p.option ≤ (Ref.frame p m).length ∧ Rx.trainingStart (Ref.nfft p.option) + Ref.nfft p.option ≤ (Ref.frame p m).length := by
  obtain ⟨_, ho, _⟩ := C91.mcs_le hS
  obtain ⟨h8, hN⟩ := C91.nfft_facts _ ho
  have hul := C100.useful_length hS m _ le_rfl n hn
  have hsym : Rx.symbolStart (Ref.nfft p.option) n + Ref.nfft p.option ≤ (Ref.frame p m).length := by
    unfold Rx.useful at hul
    rw [List.length_take, List.length_drop] at hul
    omega
  refine ⟨hsym, ?_⟩
  unfold Rx.trainingStart
  unfold Rx.symbolStart at hsym
  omega

/-- **C120 (without noise).**  Then any channel that erases no tone in use will do. -/
theorem C120_clean (o : OfdmObj) (hS : Supported o.params) (a : Arg) (msg : List UInt8) (ha : C01.Denotes a msg) (h0 : msg ≠ []) (iq : List ℂ) (fs : ℚ)
    (hok : ((ofdmModBytesToIQ a).call o).1 = .ok (iq, fs)) (h r : List ℂ) (hh : h.length ≤ Ref.nfft o.params.option / 4 + 1)
    (hg : ∀ t, Rx.Active o.params.option t → Rx.response (Ref.nfft o.params.option) h t ≠ 0)
    (hl : iq.length ≤ r.length) (hr : ∀ i < iq.length, r.getD i 0 = Rx.through h iq i) :
    ∃ b, Rx.receiveEqualised o.params.option o.params.interleaving r = some (o.params.mcs, o.params.scrambler, b) ∧ Rx.octets b = msg := by
  refine C120_octets o hS a msg ha h0 iq fs hok h r 0 ?_
  obtain ⟨b, hb, hbl, l2, rfl⟩ := C100.bytes_frame o a msg iq fs hS ha h0 hok
  have hz : ∀ s, s + Ref.nfft o.params.option ≤ (Ref.frame o.params b).length → Rx.disturbance h (Ref.frame o.params b) r s (Ref.nfft o.params.option) ≤ 0 ^ 2 := by
    intro s hs
    unfold Rx.disturbance
    rw [Finset.sum_eq_zero]
    · norm_num
    · intro k hk
      have hk := Finset.mem_range.1 hk
      rw [hr _ (by omega), sub_self]; simp
  rw [← hbl]
  have hcnt : 0 < Ref.symbolCount o.params b.length := by
    have key : ∀ p ∈ allSupported, 0 < Ref.headerCount p := by decide +kernel
    have := key _ (mem_allSupported hS)
    unfold Ref.symbolCount
    omega
  exact ⟨hl, hh, le_rfl, hz _ (symbol_end hS b 0 hcnt).2, fun n hn => hz _ (symbol_end hS b n hn).1, fun t ht => ⟨hg t ht, by rw [mul_zero]; exact norm_nonneg _⟩⟩

theorem echo_response (N d : Nat) (c : ℂ) (t : Int) : Rx.response N (List.replicate d 0 ++ [c]) t = c * exp (-(2 * Real.pi * I * t * d / N)) := by
  unfold Rx.response
  rw [List.length_append, List.length_replicate, List.length_singleton, Finset.sum_range_succ, Finset.sum_eq_zero, zero_add]
  · rw [List.getD_eq_getElem?_getD, List.getElem?_append_right (by simp)]; simp
  · intro l hl
    have hl := Finset.mem_range.1 hl
    rw [List.getD_eq_getElem?_getD, List.getElem?_append_left (by simpa using hl), List.getElem?_replicate, if_pos hl]; simp

theorem echo_through (d : Nat) (c : ℂ) (x : List ℂ) (i : Nat) : Rx.through (List.replicate d 0 ++ [c]) x i = if d ≤ i then c * x.getD (i - d) 0 else 0 := by
  unfold Rx.through
  rw [List.length_append, List.length_replicate, List.length_singleton, Finset.sum_range_succ, Finset.sum_eq_zero, zero_add]
  · rw [List.getD_eq_getElem?_getD, List.getElem?_append_right (by simp)]; simp
  · intro l hl
    have hl := Finset.mem_range.1 hl
    rw [List.getD_eq_getElem?_getD, List.getElem?_append_left (by simpa using hl), List.getElem?_replicate, if_pos hl]; simp

/-- **C120 (gain, phase and timing).**  A receiver that starts up to a quarter symbol too early, with unknown gain and phase. -/
theorem C120_shift (o : OfdmObj) (hS : Supported o.params) (a : Arg) (msg : List UInt8) (ha : C01.Denotes a msg) (h0 : msg ≠ []) (iq : List ℂ) (fs : ℚ)
    (hok : ((ofdmModBytesToIQ a).call o).1 = .ok (iq, fs)) (c : ℂ) (hc : c ≠ 0) (d : Nat) (hd : d ≤ Ref.nfft o.params.option / 4) :
    ∃ b, Rx.receiveEqualised o.params.option o.params.interleaving (List.replicate d 0 ++ iq.map (c * ·)) = some (o.params.mcs, o.params.scrambler, b) ∧ Rx.octets b = msg := by
  refine C120_clean o hS a msg ha h0 iq fs hok (List.replicate d 0 ++ [c]) _ (by simp; omega) (fun t _ => ?_) (by simp) fun i _ => ?_
  · rw [echo_response]; exact mul_ne_zero hc (exp_ne_zero _)
  · rw [echo_through, List.getD_eq_getElem?_getD]
    by_cases hi : d ≤ i
    · rw [if_pos hi, List.getElem?_append_right (by simpa using hi), List.length_replicate, List.getElem?_map, List.getD_eq_getElem?_getD]
      cases iq[i - d]? <;> simp
    · rw [if_neg hi, List.getElem?_append_left (by simp; omega), List.getElem?_replicate, if_pos (by omega)]; rfl

/-! Non-vacuity: frames exist (C100); a direct path with an echo of half its amplitude, one prefix later, erases no tone. -/
example (N : Nat) (t : Int) : Rx.response N (1 :: List.replicate 31 0 ++ [1 / 2]) t ≠ 0 := by
  have e : Rx.response N (1 :: List.replicate 31 0 ++ [1 / 2]) t = 1 + 1 / 2 * exp (-(2 * Real.pi * I * t * (32 : Nat) / N)) := by
    unfold Rx.response
    have hl33 : ((1 : ℂ) :: List.replicate 31 0 ++ [1 / 2]).length = 33 := by simp
    rw [hl33, Finset.sum_range_succ, Finset.sum_range_succ', Finset.sum_eq_zero]
    · simp [List.getD]
    · intro l hl
      have hl := Finset.mem_range.1 hl
      rw [show ((1 : ℂ) :: List.replicate 31 0 ++ [1 / 2]) = [1] ++ (List.replicate 31 0 ++ [1 / 2]) from rfl, List.getD_eq_getElem?_getD,
        List.getElem?_append_right (by simp), List.getElem?_append_left (by simpa using hl), List.getElem?_replicate]
      simp [hl]
  rw [e]
  intro hc
  have h1 : ‖(1 : ℂ)‖ = ‖(1 / 2 : ℂ) * exp (-(2 * Real.pi * I * t * (32 : Nat) / N))‖ := by
    rw [← norm_neg ((1 / 2 : ℂ) * _)]
    congr 1
    linear_combination hc
  have hre : (-(2 * (Real.pi : ℂ) * I * t * (32 : Nat) / N)).re = 0 := by
    rw [show (-(2 * (Real.pi : ℂ) * I * t * (32 : Nat) / N)) = ((-(2 * Real.pi * t * 32 / N) : ℝ) : ℂ) * I by push_cast; ring]
    simp
  rw [norm_mul, Complex.norm_exp, hre, Real.exp_zero] at h1
  norm_num at h1
example : Rx.Active 4 3 ∧ ¬ Rx.Active 4 0 ∧ Ref.nfft 1 / 4 = 32 := by
  refine ⟨⟨by decide, by decide⟩, fun h => h.1 (Or.inr rfl), rfl⟩

end
end SunPhy.C120
