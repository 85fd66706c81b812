import Verif.Props.C27
import Verif.Proofs.Dft
/-
C29 — structure of the MR-OFDM training fields.
-/
namespace SunPhy.C29
open SunPhy Spec Complex

/-! ### The inverse DFT as a function of an unbounded sample index -/

/-- Sample `n` of the inverse DFT of `z`, for any `n`. -/
noncomputable def samp (z : List ℂ) (n : Nat) : ℂ :=
  (∑ k ∈ Finset.range z.length, z.getD k 0 * exp (2 * Real.pi * I * k * n / z.length)) / (Real.sqrt z.length : ℂ)

theorem ifft_samp (z : List ℂ) : ifftOrtho z = (List.range z.length).map (samp z) := rfl

/-- If only multiples of `g` carry energy, the samples repeat after `P` samples, where `g * P = N`. -/
theorem samp_period (z : List ℂ) {g P : Nat} (hg : g * P = z.length) (hs : ∀ k < z.length, z.getD k 0 ≠ 0 → g ∣ k) (n : Nat) :
    samp z (n + P) = samp z n := by
  unfold samp
  congr 1
  apply Finset.sum_congr rfl
  intro k hk
  by_cases h0 : z.getD k 0 = 0
  · rw [h0, zero_mul, zero_mul]
  · obtain ⟨j, rfl⟩ := hs k (Finset.mem_range.1 hk) h0
    congr 1
    have hN : (z.length : ℂ) ≠ 0 := by
      have := Finset.mem_range.1 hk
      exact_mod_cast (by omega : z.length ≠ 0)
    have hgP : (z.length : ℂ) = g * P := by exact_mod_cast hg.symm
    rw [show 2 * (Real.pi : ℂ) * I * ((g * j : Nat) : ℂ) * ((n + P : Nat) : ℂ) / z.length =
      2 * Real.pi * I * ((g * j : Nat) : ℂ) * (n : ℂ) / z.length + (j : ℕ) * (2 * Real.pi * I) by
        rw [hgP] at hN ⊢
        have hgz : (g : ℂ) ≠ 0 := left_ne_zero_of_mul hN
        have hPz : (P : ℂ) ≠ 0 := right_ne_zero_of_mul hN
        push_cast
        field_simp, exp_add, exp_nat_mul_two_pi_mul_I, mul_one]

theorem samp_N (z : List ℂ) (n : Nat) : samp z (n + z.length) = samp z n :=
  samp_period z (g := 1) (Nat.one_mul _) (fun k _ _ => Nat.one_dvd k) n

/-- A quarter-prefixed symbol read as one run of the periodic signal. -/
theorem prefixed_samp (x : List ℂ) (h4 : x.length % 4 = 0) (hp : 0 < x.length) :
    cyclicPrefix (1 / 4) (ofdmIfft x) =
      (List.range (5 * (x.length / 4))).map fun n => samp (ifftshift x) (n + 3 * (x.length / 4)) := by
  have hz : (ifftshift x).length = x.length := by simp [ifftshift]
  obtain ⟨k, hk⟩ := Nat.dvd_of_mod_eq_zero h4
  have hl := ofdmIfft_length x
  have hf : ⌊(x.length : ℚ) * (1 / 4)⌋₊ = k := by
    rw [hk]; push_cast
    rw [show (4 : ℚ) * k * (1 / 4) = k by ring]
    exact Nat.floor_natCast k
  obtain ⟨-, e⟩ := C27.prefix_eq (1 / 4) (ofdmIfft x) (by
    rw [hl, hk]; push_cast
    have : (1 : ℚ) ≤ k := by exact_mod_cast (by omega : 1 ≤ k)
    linarith) (by norm_num)
  rw [e, hl, hf]
  unfold ofdmIfft
  rw [ifft_samp, hz]
  apply List.ext_getElem?
  intro i
  by_cases hi : i < k
  · rw [List.getElem?_append_left (by simp; omega), List.getElem?_drop, List.getElem?_map, List.getElem?_map,
      List.getElem?_range (by omega), List.getElem?_range (by omega)]
    simp only [Option.map_some, Option.some.injEq]
    congr 1; omega
  · rw [List.getElem?_append_right (by simp; omega)]
    simp only [List.length_drop, List.length_map, List.length_range, List.getElem?_map]
    rw [show i - (x.length - (x.length - k)) = i - k by omega]
    by_cases h2 : i < 5 * (x.length / 4)
    · rw [List.getElem?_range (by omega), List.getElem?_range h2]
      simp only [Option.map_some, Option.some.injEq]
      rw [show i + 3 * (x.length / 4) = (i - k) + (ifftshift x).length by omega, samp_N]
    · rw [List.getElem?_eq_none (by simp; omega), List.getElem?_eq_none (by simp; omega)]
      rfl

/-! ### The STF -/

/-- Spacing of the STF tones and number of samples after which the STF repeats, per option. -/
def stfSpacing (opt : Nat) : Nat := match opt with | 1 => 8 | 2 => 4 | 3 => 4 | _ => 2
def stfPeriod (opt : Nat) : Nat := match opt with | 1 => 16 | 2 => 16 | 3 => 8 | _ => 8

theorem stf_support : ∀ o ∈ [1, 2, 3, 4], stfSpacing o * stfPeriod o = fftSize o ∧ ∀ k < fftSize o,
    (((((k + fftSize o / 2) % fftSize o : Nat) : Int) - (fftSize o : Int) / 2) ∈ stfPlus o ∨
     ((((k + fftSize o / 2) % fftSize o : Nat) : Int) - (fftSize o : Int) / 2) ∈ stfMinus o) → stfSpacing o ∣ k := by
  decide +kernel

theorem stfTable_getD {o i : Nat} (h : i < fftSize o) : (stfTable o).getD i 0 =
    (let tone : Int := (i : Int) - (fftSize o : Int) / 2
    if tone ∈ stfPlus o then ((Real.sqrt (stfPower o : ℝ) : ℝ) : ℂ)
    else if tone ∈ stfMinus o then ((-Real.sqrt (stfPower o : ℝ) : ℝ) : ℂ)
    else 0) := by
  unfold stfTable
  rw [List.getD_eq_getElem?_getD, List.getElem?_map, List.getElem?_range h]
  rfl

theorem ifftshift_getD (x : List ℂ) {i : Nat} (h : i < x.length) : (ifftshift x).getD i 0 = x.getD ((i + x.length / 2) % x.length) 0 := by
  unfold ifftshift
  rw [List.getD_eq_getElem?_getD, List.getElem?_map, List.getElem?_range h]
  rfl

theorem stf_symbol_periodic {o : Nat} (ho : o ∈ [1, 2, 3, 4]) (n : Nat) :
    samp (ifftshift (stfTable o)) (n + stfPeriod o) = samp (ifftshift (stfTable o)) n := by
  obtain ⟨h1, h2⟩ := stf_support o ho
  obtain ⟨-, fp⟩ := fft_facts o ho
  have hl : (ifftshift (stfTable o)).length = fftSize o := by simp [ifftshift, stfTable]
  apply samp_period _ (g := stfSpacing o)
  · rw [hl, h1]
  · rw [hl]
    intro k hk hne
    rw [ifftshift_getD _ (by rw [stfTable_length]; exact hk), stfTable_length, stfTable_getD (Nat.mod_lt _ fp)] at hne
    apply h2 k hk
    by_contra hc
    simp only [not_or] at hc
    apply hne
    simp only
    rw [if_neg hc.1, if_neg hc.2]

/-- Multiplying by a mask of ones and minus ones negates the tail. -/
theorem zipWith_mask (s : List ℂ) (a b : Nat) (h : s.length = a + b) :
    List.zipWith (· * ·) s (List.replicate a 1 ++ List.replicate b (-1)) = s.take a ++ (s.drop a).map (- ·) := by
  conv_lhs => rw [← List.take_append_drop a s]
  rw [List.zipWith_append (by simp; omega)]
  congr 1
  · apply List.ext_getElem?
    intro i
    rw [List.getElem?_zipWith, List.getElem?_replicate]
    by_cases hi : i < a
    · rw [if_pos hi, List.getElem?_eq_getElem (by simp; omega)]; simp
    · rw [if_neg hi, List.getElem?_eq_none (by simp; omega)]
  · apply List.ext_getElem?
    intro i
    rw [List.getElem?_zipWith, List.getElem?_replicate, List.getElem?_map]
    by_cases hi : i < b
    · rw [if_pos hi, List.getElem?_eq_getElem (by simp; omega)]; simp
    · rw [if_neg hi, List.getElem?_eq_none (by simp; omega)]; rfl

/-! ### The LTF -/

/-- The LTF tone values, DC in the centre. -/
noncomputable def ltfTones (opt : Nat) : List ℂ := (ltfTable opt).map fun (v : Int) => ((v : Int) : ℂ)

/-- **C29.**  For each option there are one STF symbol `s` and one LTF symbol `b` such that every frame of every MR-OFDM modulator with that
option (any MCS, interleaving, scrambler, any previous use) and every message starts with `s, s, s`, `s` with its last `N/2` samples negated, the
second half of `b`, `b`, `b`.  `s` has `5N/4` samples and repeats every 16 (options 1, 2) or 8 (options 3, 4) samples; `b` has `N` samples. -/
theorem C29_training (opt : Nat) (hopt : opt ∈ [1, 2, 3, 4]) :
    ∃ s b : List ℂ, s.length = 5 * fftSize opt / 4 ∧ b.length = fftSize opt ∧
      (∀ n, n + stfPeriod opt < s.length → s[n + stfPeriod opt]? = s[n]?) ∧
      ∀ (o : OfdmObj) (a : Arg) (iq : List ℂ) (fs : ℚ) (o' : OfdmObj), Supported o.params → o.params.option = opt →
        (∃ m, checkBinaryArray a = .ok m ∧ 1 ≤ m.length / 8 ∧ m.length / 8 ≤ 2047) →
        (ofdmModBitsToIQ a).call o = (.ok (iq, fs), o') →
        ∃ rest, iq = s ++ s ++ s ++ (s.take (3 * fftSize opt / 4) ++ (s.drop (3 * fftSize opt / 4)).map (- ·)) ++
          (b.drop (fftSize opt / 2) ++ b ++ b) ++ rest := by
  obtain ⟨f1, f2⟩ := fft_facts opt hopt
  have hltf := ltfTable_length opt hopt
  let s0 := cyclicPrefix (1 / 4) (ofdmIfft (stfTable opt))
  have hs0 : s0 = (List.range (5 * (fftSize opt / 4))).map fun n => samp (ifftshift (stfTable opt)) (n + 3 * (fftSize opt / 4)) := by
    have := prefixed_samp (stfTable opt) (by rw [stfTable_length]; omega) (by rw [stfTable_length]; omega)
    rw [stfTable_length] at this
    exact this
  have hl0 : s0.length = 5 * (fftSize opt / 4) := by rw [hs0]; simp
  refine ⟨s0.map (· * (1.25 : ℂ)), ofdmIfft (ltfTones opt), ?_, ?_, ?_, ?_⟩
  · rw [List.length_map, hl0]; omega
  · rw [ofdmIfft_length]; unfold ltfTones; rw [List.length_map, hltf]
  · intro n hn
    rw [List.length_map, hl0] at hn
    rw [List.getElem?_map, List.getElem?_map, hs0, List.getElem?_map, List.getElem?_map, List.getElem?_range hn, List.getElem?_range (by omega)]
    simp only [Option.map_some]
    rw [show n + stfPeriod opt + 3 * (fftSize opt / 4) = n + 3 * (fftSize opt / 4) + stfPeriod opt by omega, stf_symbol_periodic hopt]
  · rintro o a iq fs o' hS rfl ⟨m, ha, h1, h2⟩ he
    obtain ⟨o2, e, -⟩ := bitsToIQ_ok hS ha h1 h2
    rw [e] at he
    rw [Prod.mk.injEq] at he
    have he := he.1
    injection he with he
    rw [Prod.mk.injEq] at he
    refine ⟨symbolsIQ (headerSyms o.params (m.length / 8)) ++ symbolsIQ (payloadSyms o.params m), ?_⟩
    rw [← he.1]
    have e1 : stfIQ o.params = (s0 ++ s0 ++ s0 ++ List.zipWith (· * ·) s0
      (List.replicate (s0.length / 5 * 3) 1 ++ List.replicate (s0.length / 5 * 2) (-1))).map (· * (1.25 : ℂ)) := rfl
    have e2 : ltfIQ o.params = (ofdmIfft (ltfTones o.params.option)).drop (fftSize o.params.option / 2) ++
        ofdmIfft (ltfTones o.params.option) ++ ofdmIfft (ltfTones o.params.option) := by
      unfold ltfIQ ltfTones
      simp only [ofdmIfft_length, List.length_map, hltf]
    unfold frameIQ
    rw [e1, e2, zipWith_mask _ _ _ (by omega)]
    have h3 : s0.length / 5 * 3 = 3 * fftSize o.params.option / 4 := by omega
    rw [h3]
    simp only [List.map_append, List.map_map, List.map_take, List.map_drop, List.append_assoc]
    congr 6
    apply List.map_congr_left
    intro x _
    simp

theorem ltf_values : ∀ o ∈ [1, 2, 3, 4], ∀ i < fftSize o, (ltfTable o).getD i 0 =
    if i < (fftSize o - activeTones o) / 2 ∨ i = fftSize o / 2 ∨ fftSize o - ((fftSize o - activeTones o) / 2 - 1) ≤ i then 0
    else if (ltfTable o).getD i 0 = 1 then 1 else -1 := by
  decide +kernel

/-- **C29 (LTF tones).**  In every frame the LTF symbol carries `±1` on each active tone and nothing on DC and the guard tones: the unitary DFT
of the `N` samples starting at the middle of the LTF (index `5N + N/2`). -/
theorem C29_ltf_tones (o : OfdmObj) (a : Arg) (m : Bits) (iq : List ℂ) (fs : ℚ) (o' : OfdmObj) (hS : Supported o.params)
    (ha : checkBinaryArray a = .ok m) (h1 : 1 ≤ m.length / 8) (h2 : m.length / 8 ≤ 2047)
    (he : (ofdmModBitsToIQ a).call o = (.ok (iq, fs), o')) (i : Nat) (hi : i < fftSize o.params.option) :
    let N := fftSize o.params.option
    let guardLeft := (N - activeTones o.params.option) / 2
    let tone := (fftshift (dftOrtho ((iq.drop (5 * N + N / 2)).take N))).getD i 0
    if i < guardLeft ∨ i = N / 2 ∨ N - (guardLeft - 1) ≤ i then tone = 0 else tone = 1 ∨ tone = -1 := by
  intro N guardLeft tone
  have hopt : o.params.option ∈ [1, 2, 3, 4] := by have := option_cases hS; simp; omega
  obtain ⟨f1, f2⟩ := fft_facts o.params.option hopt
  have hltf := ltfTable_length o.params.option hopt
  have ht : (iq.drop (5 * N + N / 2)).take N = ofdmIfft (ltfTones o.params.option) := by
    obtain ⟨o2, e, -⟩ := bitsToIQ_ok hS ha h1 h2
    rw [e, Prod.mk.injEq] at he
    have he := he.1
    injection he with he
    rw [Prod.mk.injEq] at he
    rw [← he.1]
    have hst : (stfIQ o.params).length = 5 * N := by
      unfold stfIQ
      simp only [List.length_append, List.length_map, List.length_zipWith, List.length_replicate]
      rw [cyclicPrefix_length_quarter _ (by rw [ofdmIfft_length, stfTable_length]; omega) (by rw [ofdmIfft_length, stfTable_length]; omega),
        ofdmIfft_length, stfTable_length]
      omega
    have hb : (ofdmIfft (ltfTones o.params.option)).length = N := by rw [ofdmIfft_length]; unfold ltfTones; rw [List.length_map, hltf]
    have e2 : ltfIQ o.params = (ofdmIfft (ltfTones o.params.option)).drop (N / 2) ++
        ofdmIfft (ltfTones o.params.option) ++ ofdmIfft (ltfTones o.params.option) := by
      unfold ltfIQ ltfTones
      simp only [ofdmIfft_length, List.length_map, hltf]
      rfl
    unfold frameIQ
    rw [e2]
    simp only [List.append_assoc]
    rw [← List.append_assoc, List.drop_left' (by simp [hst, hb]; omega), List.take_left' hb]
  have htone : tone = (((ltfTable o.params.option).getD i 0 : Int) : ℂ) := by
    show (fftshift (dftOrtho ((iq.drop (5 * N + N / 2)).take N))).getD i 0 = _
    rw [ht, dft_ofdmIfft]
    unfold ltfTones
    rw [List.getD_eq_getElem?_getD, List.getD_eq_getElem?_getD, List.getElem?_map, List.getElem?_eq_getElem (by rw [hltf]; exact hi)]
    rfl
  have hv := ltf_values o.params.option hopt i hi
  split
  · rename_i hc
    rw [if_pos hc] at hv
    rw [htone, hv]; simp
  · rename_i hc
    rw [if_neg hc] at hv
    split at hv
    · left; rw [htone, hv]; simp
    · right; rw [htone, hv]; simp

/-- Non-vacuity: a supported configuration and an acceptable message. -/
example : Supported ⟨2, 3, 1, 2⟩ ∧ ∃ m, checkBinaryArray (bitsArg (List.replicate 24 true)) = .ok m ∧ 1 ≤ m.length / 8 ∧ m.length / 8 ≤ 2047 :=
  ⟨by unfold Supported; decide, List.replicate 24 true, by decide +kernel, by decide, by decide⟩

end SunPhy.C29
