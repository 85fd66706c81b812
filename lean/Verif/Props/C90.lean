import Verif.Props.C24
import Mathlib.Data.Nat.Periodic
/-
C90 — the pilots of an MR-OFDM frame visit the band evenly: in every window of one cycle of symbols, each pilot tone is used equally often.
-/
namespace SunPhy.C90
open SunPhy Spec OfdmParams

/-- Length of a cycle of pilot positions. -/
def cycle : Nat → Nat | 1 => 13 | 2 => 7 | 3 => 7 | _ => 4

/-- How often tone `t` is a pilot in one cycle: options 1 and 2 use every fourth tone up to 50 and 26, four times and twice; options 3 and 4 use
every odd tone up to 13 and 7 once. -/
def visits : Nat → Int → Nat
  | 1, t => if t % 4 = 2 ∧ -50 ≤ t ∧ t ≤ 50 then 4 else 0
  | 2, t => if t % 4 = 2 ∧ -26 ≤ t ∧ t ≤ 26 then 2 else 0
  | 3, t => if t % 2 = 1 ∧ -13 ≤ t ∧ t ≤ 13 then 1 else 0
  | _, t => if t % 2 = 1 ∧ -7 ≤ t ∧ t ≤ 7 then 1 else 0

theorem table_small : ∀ opt ∈ [1, 2, 3, 4], (pilotsIndices opt).length = cycle opt ∧ ∀ k : Fin 101,
    (List.range (cycle opt)).countP (fun n => decide (((k : Nat) : Int) - 50 ∈ (pilotsIndices opt).getD n [])) = visits opt (((k : Nat) : Int) - 50) := by
  decide +kernel

theorem table_bound : ∀ opt ∈ [1, 2, 3, 4], ∀ n < 13, ∀ t ∈ (pilotsIndices opt).getD n [], -50 ≤ t ∧ t ≤ 50 := by decide +kernel

theorem table (opt : Nat) (h : opt ∈ [1, 2, 3, 4]) (t : Int) :
    (List.range (cycle opt)).countP (fun n => decide (t ∈ (pilotsIndices opt).getD n [])) = visits opt t := by
  by_cases ht : -50 ≤ t ∧ t ≤ 50
  · have := (table_small opt h).2 ⟨(t + 50).toNat, by omega⟩
    simp only at this
    rwa [show ((t + 50).toNat : Int) - 50 = t by omega] at this
  · have hc : cycle opt ≤ 13 := by simp at h; rcases h with rfl | rfl | rfl | rfl <;> decide
    have hv : visits opt t = 0 := by
      simp at h; rcases h with rfl | rfl | rfl | rfl <;> simp only [visits] <;> rw [if_neg] <;> omega
    rw [hv, List.countP_eq_zero]
    intro n hn
    have hn := List.mem_range.1 hn
    simp only [decide_eq_true_eq]
    exact fun hm => ht (table_bound opt h n (by omega) t hm)

/-- **C90 (even coverage).**  For every option, every starting symbol `s` and every tone `t`: among the `cycle` symbols from `s` on, exactly
`visits` have a pilot at `t` (symbol `n` uses set `n mod cycle`). -/
theorem C90_window (opt : Nat) (h : opt ∈ [1, 2, 3, 4]) (s : Nat) (t : Int) :
    ((Finset.Ico s (s + cycle opt)).filter fun n => t ∈ (pilotsIndices opt).getD (n % (pilotsIndices opt).length) []).card = visits opt t := by
  rw [(table_small opt h).1, Nat.filter_Ico_card_eq_of_periodic, ← table opt h, Nat.count_eq_card_filter_range]
  · rw [List.countP_eq_length_filter]
    simp only [Finset.card_def, Finset.filter_val, Finset.range_val]
    rw [← Multiset.coe_range, Multiset.filter_coe, Multiset.coe_card]
    congr 1
    apply List.filter_congr
    intro n hn
    rw [Nat.mod_eq_of_lt (List.mem_range.1 hn)]
  · intro n
    show (t ∈ _) = (t ∈ _)
    rw [Nat.add_mod_right]

/-- **C90 (frame).**  The frame of every acceptable message, on every object: training fields, then OFDM symbols whose pilot tones `ps n` cover
the band evenly from any symbol on. -/
theorem C90_frame (o : OfdmObj) (h : Supported o.params) (a : Arg) (m : Bits) (ha : checkBinaryArray a = .ok m)
    (h1 : 1 ≤ m.length / 8) (h2 : m.length / 8 ≤ 2047) :
    ∃ (iq : List ℂ) (fs : ℚ) (o' : OfdmObj) (training : List ℂ) (symbols : List (List ℂ)) (ps : Nat → List Int),
      (ofdmModBitsToIQ a).call o = (.ok (iq, fs), o') ∧
      iq = training ++ symbols.flatMap (fun col => cyclicPrefix (1 / 4) (ofdmIfft col)) ∧
      training.length = 5 * fftSize o.params.option + 5 * fftSize o.params.option / 2 ∧
      (∀ (n : Nat) (symbol : List ℂ), symbols[n]? = some symbol → ∃ pv datas,
        IsSymbol (fftSize o.params.option) o.params.guard (o.params.guard - 1) (ps n) pv datas symbol) ∧
      ∀ (s : Nat) (t : Int), ((Finset.Ico s (s + cycle o.params.option)).filter fun n => t ∈ ps n).card = visits o.params.option t := by
  obtain ⟨iq, fs, o', tr, syms, e1, e2, e3, e4⟩ := C24.C24_frame o h a m ha h1 h2
  refine ⟨iq, fs, o', tr, syms, fun n => (pilotsIndices o.params.option).getD (n % (pilotsIndices o.params.option).length) [], e1, e2, e3, ?_, ?_⟩
  · intro n symbol hs
    obtain ⟨ps, pv, datas, hp, -, hi⟩ := e4 n symbol hs
    refine ⟨pv, datas, ?_⟩
    simp only
    rw [List.getD_eq_getElem?_getD, hp]
    exact hi
  · exact C90_window o.params.option (by have := option_cases h; simp; omega)

/-! Non-vacuity: the tone -50 of option 1 is a pilot four times. -/
example : visits 1 (-50) = 4 ∧ visits 4 0 = 0 ∧ visits 3 13 = 1 := by decide

end SunPhy.C90
