import Verif.Proofs.OqpskFrame
import Verif.Proofs.ModLemmas
import Verif.Spec.OqpskPulse
/-
The MR-O-QPSK waveform of a chip sequence.
-/
namespace SunPhy
open Spec Complex

theorem everyNth_getD (l : Bits) (h : l.length % 2 = 0) : ∀ m, (everyNth 2 0 l)[m]? = l[2 * m]? ∧ (everyNth 2 1 l)[m]? = l[2 * m + 1]? := by
  refine blockInduction (n := 2) (P := fun l => ∀ m, (everyNth 2 0 l)[m]? = l[2 * m]? ∧ (everyNth 2 1 l)[m]? = l[2 * m + 1]?) (by decide) ?_ ?_ l h
  · intro m; simp [everyNth_nil]
  · intro b l hb _ ih m
    match b, hb with
    | [x, y], hb =>
      rw [everyNth_block hb (by decide), everyNth_block hb (by decide)]
      cases m with
      | zero => simp
      | succ m =>
        rw [show 2 * (m + 1) = 2 * m + 1 + 1 by omega]
        simpa using ih m

/-- Complex value of a chip pair. -/
noncomputable def pairValue (chips : Bits) (m : Nat) : ℂ :=
  chipValue (chips.getD (2 * m) false) + I * chipValue (chips.getD (2 * m + 1) false)

theorem bpsk_cast (b : Bool) : ((bpsk b : ℤ) : ℂ) = chipValue b := by cases b <;> simp [bpsk, chipValue]

theorem oqpskMap_eq (chips : Bits) (h : chips.length % 2 = 0) : oqpskMap chips = .ok ((List.range (chips.length / 2)).map (pairValue chips)) := by
  unfold oqpskMap bcast
  have l0 := everyNth_length (k := 2) (off := 0) (by decide) chips h
  have l1 := everyNth_length (k := 2) (off := 1) (by decide) chips h
  rw [if_pos (by rw [l0, l1])]
  congr 1
  apply List.ext_getElem
  · simp [l0, l1]
  · intro m h1 h2
    simp only [List.getElem_zipWith, List.getElem_map, List.getElem_range]
    obtain ⟨e0, e1⟩ := everyNth_getD chips h m
    simp only [List.length_map, List.length_range] at h2
    rw [List.getElem?_eq_getElem (by omega), List.getElem?_eq_getElem (by omega)] at e0 e1
    rw [Option.some.inj e0, Option.some.inj e1, bpsk_cast, bpsk_cast]
    unfold pairValue
    rw [List.getD_eq_getElem?_getD, List.getD_eq_getElem?_getD, List.getElem?_eq_getElem (by omega), List.getElem?_eq_getElem (by omega)]
    rfl

theorem oqpskUpsample_eq (chips : Bits) (h : chips.length % 2 = 0) (sps : Nat) (hs : 1 ≤ sps) :
    oqpskUpsample chips sps = .ok ((List.range (chips.length / 2 * sps)).map fun i => if i % sps = 0 then pairValue chips (i / sps) else 0) := by
  unfold oqpskUpsample
  rw [oqpskMap_eq chips h]
  simp only [bind, Except.bind, pure, Except.pure]
  rw [if_neg (by omega)]
  have ht : chips.length * sps / 2 = chips.length / 2 * sps := by
    obtain ⟨k, hk⟩ := Nat.dvd_of_mod_eq_zero h
    rw [hk, Nat.mul_assoc, Nat.mul_div_cancel_left _ (by decide), Nat.mul_div_cancel_left _ (by decide)]
  have hc : ceilDiv (chips.length / 2 * sps) sps = chips.length / 2 := by
    unfold ceilDiv
    rw [show chips.length / 2 * sps + sps - 1 = (sps - 1) + chips.length / 2 * sps by omega, Nat.add_mul_div_right _ _ (by omega),
      Nat.div_eq_of_lt (by omega), Nat.zero_add]
  simp only [List.length_map, List.length_range, ht, hc, ne_eq, not_true_eq_false, false_and, if_false]
  congr 1
  apply List.map_congr_left
  intro i hi
  have hi := List.mem_range.1 hi
  have hq : i / sps < chips.length / 2 := Nat.div_lt_of_lt_mul (by rw [Nat.mul_comm]; exact hi)
  split
  · rw [List.getD_eq_getElem?_getD, List.getD_eq_getElem?_getD, List.getElem?_map, List.getElem?_map, List.getElem?_range hq]
    split
    · rename_i h1
      rw [show i / sps = 0 from Nat.lt_one_iff.1 (h1 ▸ hq), List.getElem?_range (by omega)]; rfl
    · rfl
  · rfl

theorem pulse_eq (b : Band) (r : Nat) (hr : 1 ≤ r) (sps j : Nat) (hj : j < sps) :
    (oqpskPulse b (1 / (r : ℝ)) sps)[j]? = some (pulseSample b sps j) := by
  have hr0 : (r : ℝ) ≠ 0 := by exact_mod_cast (show r ≠ 0 by omega)
  have hrp : (0 : ℝ) < r := by exact_mod_cast hr
  have hs0 : (sps : ℝ) ≠ 0 := by exact_mod_cast (show sps ≠ 0 by omega)
  unfold oqpskPulse oqpskPulseTimes
  rw [List.getElem?_map, List.getElem?_map, List.getElem?_range hj]
  simp only [Option.map_some, Option.some.injEq]
  unfold pulseSample
  generalize hu : (-2 + 4 * (j : ℝ) / sps) = u
  have ht : (-2 * (1 / (r : ℝ)) + (j : ℝ) * (4 * (1 / (r : ℝ)) / sps)) = u / r := by rw [← hu]; field_simp
  rw [ht]
  have hhs : halfSine (u / r) (1 / r) = halfSinePulse u := by
    unfold halfSine halfSinePulse
    have c1 : (0 ≤ u / (r : ℝ)) ↔ 0 ≤ u := by rw [le_div_iff₀ hrp, zero_mul]
    have c2 : (u / (r : ℝ) ≤ 2 * (1 / r)) ↔ u ≤ 2 := by
      rw [show 2 * (1 / (r : ℝ)) = 2 / r by ring, div_le_div_iff_of_pos_right hrp]
    simp only [c1, c2]
    congr 2
    field_simp
  have hrc : raisedCosine (u / r) (1 / r) = raisedCosinePulse u := by
    unfold raisedCosine raisedCosinePulse
    have c1 : (u / (r : ℝ) = 0) ↔ u = 0 := by simp [hr0]
    simp only [c1]
    have e1 : Real.pi * (u / r) / (1 / r) = Real.pi * u := by field_simp
    have e2 : 4 / 5 * Real.pi * (u / r) / (1 / r) = 4 / 5 * Real.pi * u := by field_simp
    have e3 : 4 * (4 / 5) ^ 2 * (u / r) ^ 2 / (1 / (r : ℝ)) ^ 2 = (8 / 5 * u) ^ 2 := by field_simp; norm_num; ring
    rw [e1, e2, e3]
    split
    · rfl
    · rw [mul_div_assoc]
  cases b <;> simp only [oqpskPulseShape, bandPulse] <;> first | exact hhs | exact hrc

theorem pulse_length (b : Band) (Tc : ℝ) (sps : Nat) : (oqpskPulse b Tc sps).length = sps := by simp [oqpskPulse, oqpskPulseTimes]

/-- The waveform of `K` chip pairs. -/
theorem convolve_eq (f : Nat → ℂ) (K sps : Nat) (hs : 1 ≤ sps) (hK : 1 ≤ K) (pulse : List ℝ) (hp : pulse.length = sps) :
    ∃ out, convolveC ((List.range (K * sps)).map fun i => if i % sps = 0 then f (i / sps) else 0) pulse = .ok out ∧
      out.length = K * sps + sps - 1 ∧
      (∀ m j, m < K → j < sps → out[sps * m + j]? = some (f m * ((pulse.getD j 0 : ℝ) : ℂ))) ∧
      ∀ n, K * sps ≤ n → n < K * sps + sps - 1 → out[n]? = some 0 := by
  have hKs : 1 ≤ K * sps := Nat.mul_pos hK hs
  unfold convolveC
  rw [if_neg (by
    rintro (h | h)
    · have := congrArg List.length h; simp at this; omega
    · rw [h] at hp; simp at hp; omega)]
  refine ⟨_, rfl, by simp [hp], ?_, ?_⟩
  · intro m j hm hj
    have h1 : sps * m + sps ≤ K * sps := by
      have := Nat.mul_le_mul_right sps (show m + 1 ≤ K from hm)
      rw [Nat.add_mul, Nat.mul_comm m] at this; omega
    rw [List.getElem?_map, List.getElem?_range (by simp [hp]; omega), Option.map_some]
    congr 1
    rw [Finset.sum_eq_single (sps * m)]
    · rw [if_pos (by omega), show sps * m + j - sps * m = j by omega]
      congr 1
      rw [List.getD_eq_getElem?_getD, List.getElem?_map, List.getElem?_range (by omega)]
      simp [Nat.mul_div_cancel_left m (show 0 < sps by omega)]
    · intro k hk hne
      simp only [Finset.mem_range, List.length_map, List.length_range] at hk
      rw [List.getD_eq_getElem?_getD, List.getElem?_map, List.getElem?_range hk]
      simp only [Option.map_some, Option.getD_some]
      by_cases hmod : k % sps = 0
      · obtain ⟨q, rfl⟩ := Nat.dvd_of_mod_eq_zero hmod
        by_cases hle : sps * q ≤ sps * m + j
        · have hq : q < m := by
            rcases Nat.lt_trichotomy q m with h | h | h
            · exact h
            · exact absurd (by rw [h]) hne
            · have := Nat.mul_le_mul_left sps (show m + 1 ≤ q from h)
              rw [Nat.mul_add] at this; omega
          have h2 := Nat.mul_le_mul_left sps (show q + 1 ≤ m from hq)
          rw [Nat.mul_add] at h2
          rw [if_pos hle, List.getD_eq_getElem?_getD, List.getElem?_eq_none (l := pulse) (by omega)]; simp
        · rw [if_neg hle]; simp
      · simp [hmod]
    · intro h
      simp only [Finset.mem_range, List.length_map, List.length_range, not_lt] at h
      omega
  · intro n h1 h2
    rw [List.getElem?_map, List.getElem?_range (by simp [hp]; omega), Option.map_some]
    congr 1
    apply Finset.sum_eq_zero
    intro k hk
    simp only [Finset.mem_range, List.length_map, List.length_range] at hk
    rw [List.getD_eq_getElem?_getD, List.getElem?_map, List.getElem?_range hk]
    simp only [Option.map_some, Option.getD_some]
    by_cases hmod : k % sps = 0
    · obtain ⟨q, rfl⟩ := Nat.dvd_of_mod_eq_zero hmod
      have hq : q < K := by
        by_contra h
        have := Nat.mul_le_mul_left sps (show K ≤ q by omega)
        rw [Nat.mul_comm sps K] at this; omega
      have h3 := Nat.mul_le_mul_left sps (show q + 1 ≤ K from hq)
      rw [Nat.mul_add, Nat.mul_comm sps K] at h3
      rw [List.getD_eq_getElem?_getD (l := pulse), List.getElem?_eq_none (l := pulse) (by omega)]; simp
    · simp [hmod]

end SunPhy
