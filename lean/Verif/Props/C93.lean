import Verif.Model.SubcarriersFull
import Verif.Props.C91
import Verif.Props.C27
/-
C93 — `subcarriersToIQ` on arrays of symbols, and what its samples are.
-/
namespace SunPhy.C93
open SunPhy Spec Complex
noncomputable section

/-- **C93 (accepted arguments).**  1-D arrays and 2-D arrays with `N_FFT` rows are accepted; other sizes and numbers of dimensions raise
`ValueError`, objects that are not arrays `AttributeError`. -/
theorem C93_accepts (N : Nat) (CP : ℚ) (a : SubArg) :
    ((∃ out, subcarriersToIQFull N CP a = .ok out) ↔ (∃ l, a = .arr1 l ∧ l.length = N) ∨ ∃ cols, a = .arr2 N cols) ∧
    (subcarriersToIQFull N CP a = .error .AttributeError ↔ a = .notArray) ∧
    (subcarriersToIQFull N CP a = .error .ValueError ↔
      (∃ l, a = .arr1 l ∧ l.length ≠ N) ∨ (∃ r cols, a = .arr2 r cols ∧ r ≠ N) ∨ a = .arrOther) := by
  cases a with
  | arr1 l =>
    by_cases h : l.length = N
    · simp [subcarriersToIQFull, bind, Except.bind, h]
    · simp [subcarriersToIQFull, bind, Except.bind, h]
  | arr2 r cols =>
    by_cases h : r = N
    · simp [subcarriersToIQFull, bind, Except.bind, h]
    · simp [subcarriersToIQFull, bind, Except.bind, h]
  | arrOther => simp [subcarriersToIQFull, bind, Except.bind]
  | notArray => simp [subcarriersToIQFull, bind, Except.bind]

/-- **C93 (column by column).**  The result of a 2-D argument has the same number of columns, column `j` being what the column alone gives; a
1-D argument gives one column. -/
theorem C93_columns (N : Nat) (CP : ℚ) (cols : List (List ℂ)) (hc : ∀ c ∈ cols, c.length = N) :
    ∃ out, subcarriersToIQFull N CP (.arr2 N cols) = .ok out ∧ out.length = cols.length ∧
      ∀ (j : Nat) (c : List ℂ), cols[j]? = some c → ∃ y, out[j]? = some y ∧ subcarriersToIQFull N CP (.arr1 c) = .ok [y] := by
  refine ⟨cols.map fun col => cyclicPrefix CP (ofdmIfft col), by simp [subcarriersToIQFull, bind, Except.bind], by simp, fun j c hj => ?_⟩
  refine ⟨_, by rw [List.getElem?_map, hj]; rfl, ?_⟩
  have := hc c (List.mem_of_getElem? hj)
  simp [subcarriersToIQFull, bind, Except.bind, this]

theorem tones_of (N : Nat) (x : List ℂ) (hx : x.length = N) :
    (allTones N).map (fun t => x.getD (t + ((N / 2 : Nat) : Int)).toNat 0) = x := by
  unfold allTones
  rw [List.map_map]
  symm
  refine range_map_ext hx _ fun i hi => ?_
  simp only [Function.comp]
  rw [show (((i : Int) - ((N / 2 : Nat) : Int) + ((N / 2 : Nat) : Int))).toNat = i by omega, List.getD_eq_getElem?_getD,
    List.getElem?_eq_getElem (by omega)]
  rfl

/-- **C93 (samples).**  For an even `N_FFT` and `P = int(N_FFT*CP)` with `1 ≤ N_FFT*CP`, `CP ≤ 1`: sample `k` of the symbol is the sum over the
tones `t = -N/2 … N/2-1` of `x[t + N/2] e^(2πi t (k-P)/N) / √N`: the useful part starts at sample `P`. -/
theorem C93_samples (N : Nat) (CP : ℚ) (he : N % 2 = 0) (hN : 0 < N) (h1 : 1 ≤ (N : ℚ) * CP) (h2 : CP ≤ 1) (x : List ℂ) (hx : x.length = N) :
    subcarriersToIQFull N CP (.arr1 x) = .ok [(List.range (⌊(N : ℚ) * CP⌋₊ + N)).map fun (k : Nat) =>
      (∑ i ∈ Finset.range N, x.getD i 0 *
        exp (2 * Real.pi * I * (((i : Int) - ((N / 2 : Nat) : Int) : Int) : ℂ) * (((k : Int) - ((⌊(N : ℚ) * CP⌋₊ : Nat) : Int) : Int) : ℂ) / N)) /
        (Real.sqrt N : ℂ)] := by
  let X : Int → ℂ := fun t => x.getD (t + ((N / 2 : Nat) : Int)).toNat 0
  have hX : (allTones N).map X = x := tones_of N x hx
  have hw := plain_wave he hN X
  rw [hX] at hw
  have hl : (ofdmIfft x).length = N := by rw [hw]; simp
  obtain ⟨hp, e⟩ := C27.prefix_eq CP (ofdmIfft x) (by rw [hl]; exact h1) h2
  rw [hl] at hp e
  have wx : ∀ τ : Int, Ref.wave N X τ = (∑ i ∈ Finset.range N, x.getD i 0 *
        exp (2 * Real.pi * I * (((i : Int) - ((N / 2 : Nat) : Int) : Int) : ℂ) * (τ : ℂ) / N)) / (Real.sqrt N : ℂ) := by
    intro τ
    unfold Ref.wave
    congr 1
    apply Finset.sum_congr rfl
    intro i _
    simp only [X]
    rw [show (((i : Int) - ((N / 2 : Nat) : Int) + ((N / 2 : Nat) : Int))).toNat = i by omega]
  simp only [subcarriersToIQFull, bind, Except.bind, hx]
  simp only [← wx]
  rw [if_neg (by simp)]
  simp only [List.map_cons, List.map_nil]
  rw [e]
  generalize ⌊(N : ℚ) * CP⌋₊ = P at *
  congr 2
  refine range_map_ext (by simp [hl]; omega) _ fun k hk => ?_
  by_cases hkp : k < P
  · rw [List.getElem?_append_left (by simp [hl]; omega), List.getElem?_drop, hw, List.getElem?_map, List.getElem?_range (by omega), Option.map_some,
      ← C91.wave_period hN _ ((k : Int) - P)]
    congr 2
    push_cast
    omega
  · rw [List.getElem?_append_right (by simp [hl]; omega), hw, List.getElem?_map, List.getElem?_range (by simp; omega), Option.map_some]
    congr 2
    simp
    omega

/-- **C93 (bits and subcarriers).**  The signal `bitsToIQ` returns is that of `subcarriersToIQ` for the matrix of its symbols, column after
column. -/
theorem C93_bits (c : OfdmCfg ℂ) (factor : ℝ) (CP : ℚ) (bits : Bits) (pad : Bool) (st st' : OfdmState) (iq : List ℂ)
    (h : (ofdmBitsToIQ c factor CP bits pad).call st = (.ok iq, st')) :
    ∃ cols out, (∀ x ∈ cols, x.length = c.nFFT) ∧ (ofdmSubcarriers c (complexNumbers factor) bits pad).call st = (.ok cols, st') ∧
      subcarriersToIQFull c.nFFT CP (.arr2 c.nFFT cols) = .ok out ∧ iq = out.flatten := by
  unfold ofdmBitsToIQ at h
  rw [PyM.call_bind] at h
  cases e : (ofdmSubcarriers c (complexNumbers factor) bits pad).call st with
  | mk r s =>
    rw [e] at h
    cases r with
    | error x => cases h
    | ok cols =>
      have h' : (Except.ok (cols.flatMap fun col => cyclicPrefix CP (ofdmIfft col)), s) = ((.ok iq, st') : Res (List ℂ) × OfdmState) := h
      injection h' with h1 h2
      injection h1 with h1
      subst h2
      refine ⟨cols, cols.map fun col => cyclicPrefix CP (ofdmIfft col), ?_, rfl, by simp [subcarriersToIQFull, bind, Except.bind], ?_⟩
      · exact C27.subcarriers_length e
      · rw [← h1, List.flatMap_def]

/-! Non-vacuity. -/
example : ∃ out, subcarriersToIQFull 4 (1 / 4) (.arr2 4 [[1, 2, 3, 4], [0, 0, I, 0]]) = .ok out ∧ out.length = 2 :=
  let ⟨out, h, hl, _⟩ := C93_columns 4 (1 / 4) [[1, 2, 3, 4], [0, 0, I, 0]] (by simp)
  ⟨out, h, hl⟩
example : (8 : Nat) % 2 = 0 ∧ 1 ≤ ((8 : Nat) : ℚ) * (1 / 4) ∧ (1 / 4 : ℚ) ≤ 1 := by norm_num

end
end SunPhy.C93
