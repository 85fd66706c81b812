import Verif.Props.C42
/-
C43 — phase continuity of MR-FSK signals.  The full statement (no phase jump at any symbol boundary, for every admissible modulation index) is
false of the code: it evaluates `exp(2πi f t)` with the absolute time instead of accumulating the phase.  Proved: exactly which boundaries are
continuous, that integer modulation indices are always fine, and that for 2FSK no other index is.
-/
namespace SunPhy.C43
open SunPhy Complex C42

/-- Frequency of symbol `k` of the transmitted bits. -/
def freq (p : FskParams) (bits : Bits) (k : Nat) : ℚ := frequency p.modulation (p.modIndex * p.symbolRate / 2) (symbolBits p.modulation bits k)

/-- No phase jump at the beginning of symbol `n`: its first sample continues the rotation of the previous symbol by one sampling period. -/
def ContinuousAt (iq : List ℂ) (p : FskParams) (bits : Bits) (fs : ℚ) (n : Nat) : Prop :=
  iq.getD (20 * n) 0 = iq.getD (20 * n - 1) 0 * exp (2 * Real.pi * I * ((freq p bits (n - 1) / fs : ℚ) : ℂ))

/-- **C43 (exact condition).**  The phase is continuous at the beginning of symbol `n` iff the frequency step, in units of the symbol rate, times
`n` is an integer. -/
theorem C43_boundary_iff (o : FskObj) (hr : 1 ≤ o.params.symbolRate) (a : Arg) (iq : List ℂ) (fs : ℚ) (bits : Bits)
    (h : ((fskBitsToIQ id a).call o).1 = .ok (iq, fs)) (hb : ((fskBinary a).call o).1 = .ok bits) (n : Nat) (hn : 1 ≤ n)
    (hk : n < bits.length / bitsPerSymbol o.params.modulation) :
    ContinuousAt iq o.params bits fs n ↔ ∃ z : ℤ, (freq o.params bits n - freq o.params bits (n - 1)) / o.params.symbolRate * n = z := by
  obtain ⟨bits', hb', -, hfs, -, -, hs⟩ := C42_waveform o hr a iq fs h
  rw [hb] at hb'
  obtain rfl := Except.ok.inj hb'
  have e0 := hs n 0 hk (by decide)
  have e1 := hs (n - 1) 19 (by omega) (by decide)
  rw [Nat.add_zero] at e0
  rw [show 20 * (n - 1) + 19 = 20 * n - 1 by omega] at e1
  unfold ContinuousAt
  rw [List.getD_eq_getElem?_getD, List.getD_eq_getElem?_getD, e0, e1, Option.getD_some, Option.getD_some, ← exp_add]
  change exp (2 * Real.pi * I * (freq o.params bits n : ℚ) * _ / _) = exp (2 * Real.pi * I * (freq o.params bits (n - 1) : ℚ) * _ / _ + _) ↔ _
  generalize freq o.params bits n = f
  generalize freq o.params bits (n - 1) = g
  have hR : (o.params.symbolRate : ℂ) ≠ 0 := by exact_mod_cast (show o.params.symbolRate ≠ 0 by omega)
  have hRq : (o.params.symbolRate : ℚ) ≠ 0 := by exact_mod_cast (show o.params.symbolRate ≠ 0 by omega)
  rw [exp_eq_exp_iff_exists_int]
  have hpi : (2 * Real.pi * I : ℂ) ≠ 0 := by
    have : (Real.pi : ℂ) ≠ 0 := by exact_mod_cast Real.pi_ne_zero
    simp [this]
  have key : ∀ z : ℤ, (2 * Real.pi * I * (f : ℂ) * ((20 * n : ℕ) : ℂ) / ((20 * o.params.symbolRate : ℕ) : ℂ) =
      2 * Real.pi * I * (g : ℂ) * ((20 * n - 1 : ℕ) : ℂ) / ((20 * o.params.symbolRate : ℕ) : ℂ) + 2 * Real.pi * I * ((g / fs : ℚ) : ℂ) +
        z * (2 * Real.pi * I)) ↔ (f - g) / o.params.symbolRate * n = z := by
    intro z
    have hc : (((f - g) / o.params.symbolRate * n : ℚ) = z) ↔ (((f - g) / o.params.symbolRate * n : ℂ) = z) := by
      constructor
      · intro h; exact_mod_cast congrArg (fun x : ℚ => (x : ℂ)) h
      · intro h
        have : (((f - g) / o.params.symbolRate * n : ℚ) : ℂ) = ((z : ℚ) : ℂ) := by push_cast; exact h
        exact_mod_cast this
    rw [hc, hfs, Nat.cast_sub (by omega : 1 ≤ 20 * n)]
    push_cast
    constructor
    · intro h
      have h' : (2 * Real.pi * I : ℂ) * ((f - g) / o.params.symbolRate * n) = (2 * Real.pi * I : ℂ) * z := by
        linear_combination h - (2 * Real.pi * I * g * (20 * n) / (20 * o.params.symbolRate) -
          (2 * Real.pi * I * g * (20 * n - 1) / (20 * o.params.symbolRate) + 2 * Real.pi * I * (g / (20 * o.params.symbolRate)))) +
          ((2 * Real.pi * I : ℂ) * ((f - g) / o.params.symbolRate * n) - (2 * Real.pi * I * f * (20 * n) / (20 * o.params.symbolRate) -
            2 * Real.pi * I * g * (20 * n) / (20 * o.params.symbolRate)))
      exact mul_left_cancel₀ hpi h'
    · intro h
      rw [← h]
      field_simp
      ring
  constructor
  · rintro ⟨z, hz⟩; exact ⟨z, (key z).1 hz⟩
  · rintro ⟨z, hz⟩; exact ⟨z, (key z).2 hz⟩

theorem freq_odd (m : FskMod) (fd : ℚ) (b : Bits) : ∃ d : ℤ, frequency m fd b = (2 * d + 1 : ℤ) * fd := by
  cases m with
  | FSK2 =>
    unfold frequency; simp only
    split
    · exact ⟨0, by simp⟩
    · exact ⟨-1, by push_cast; ring⟩
  | FSK4 =>
    unfold frequency; simp only
    split <;> split
    · exact ⟨1, by push_cast; ring⟩
    · exact ⟨0, by push_cast; ring⟩
    · exact ⟨-2, by push_cast; ring⟩
    · exact ⟨-1, by push_cast; ring⟩

/-- **C43 (partial: integer indices).**  With an integer modulation index (1 or 2) no frame has a phase jump.  Missing from the full statement: the
other indices, for which it is false (`C43_2fsk_iff`, `C43_4fsk_necessary`). -/
theorem C43_integer_index_partial (o : FskObj) (hr : 1 ≤ o.params.symbolRate) (z : ℤ) (hz : o.params.modIndex = z) (a : Arg) (iq : List ℂ) (fs : ℚ)
    (bits : Bits) (h : ((fskBitsToIQ id a).call o).1 = .ok (iq, fs)) (hb : ((fskBinary a).call o).1 = .ok bits) (n : Nat) (hn : 1 ≤ n)
    (hk : n < bits.length / bitsPerSymbol o.params.modulation) : ContinuousAt iq o.params bits fs n := by
  rw [C43_boundary_iff o hr a iq fs bits h hb n hn hk]
  obtain ⟨d, hd⟩ := freq_odd o.params.modulation (o.params.modIndex * o.params.symbolRate / 2) (symbolBits o.params.modulation bits n)
  obtain ⟨d', hd'⟩ := freq_odd o.params.modulation (o.params.modIndex * o.params.symbolRate / 2) (symbolBits o.params.modulation bits (n - 1))
  have hR : (o.params.symbolRate : ℚ) ≠ 0 := by exact_mod_cast (show o.params.symbolRate ≠ 0 by omega)
  refine ⟨(d - d') * z * n, ?_⟩
  unfold freq
  rw [hd, hd', hz]
  push_cast
  field_simp
  ring

/-- The first two symbols of every frame are the beginning of the preamble. -/
theorem first_symbols (o : FskObj) (a : Arg) (bits : Bits) (hp : 4 ≤ o.params.preambleLength) (hb : ((fskBinary a).call o).1 = .ok bits) :
    freq o.params bits 1 - freq o.params bits 0 =
      (match o.params.modulation with | .FSK2 => 1 | .FSK4 => 3) * (o.params.modIndex * o.params.symbolRate) ∧
    1 < bits.length / bitsPerSymbol o.params.modulation := by
  obtain ⟨h1, -⟩ := C34.C34_shr o a bits hb
  have hu : 4 ≤ o.params.preambleLength * C34.preambleUnit o.params.modulation := by
    have : 1 ≤ C34.preambleUnit o.params.modulation := by cases o.params.modulation <;> decide
    nlinarith
  have g0 := h1 0 (by omega)
  have g1 := h1 1 (by omega)
  have g2 := h1 2 (by omega)
  have g3 := h1 3 (by omega)
  match bits, g0, g1, g2, g3 with
  | [], g0, _, _, _ => simp at g0
  | [_], _, g1, _, _ => simp at g1
  | [_, _], _, _, g2, _ => simp at g2
  | [_, _, _], _, _, _, g3 => simp at g3
  | b0 :: b1 :: b2 :: b3 :: r, g0, g1, g2, g3 =>
    simp only [List.getElem?_cons_zero, List.getElem?_cons_succ, Option.some.injEq] at g0 g1 g2 g3
    unfold freq symbolBits
    cases hm : o.params.modulation with
    | FSK2 =>
      rw [hm] at g0 g1
      simp [C34.preambleBit] at g0 g1
      subst g0 g1
      simp [bitsPerSymbol, frequency]
    | FSK4 =>
      rw [hm] at g0 g1 g2 g3
      simp [C34.preambleBit] at g0 g1 g2 g3
      subst g0 g1 g2 g3
      refine ⟨?_, by simp [bitsPerSymbol]; omega⟩
      simp [bitsPerSymbol, frequency]
      ring

/-- **C43 (2FSK: exactly the integer indices).**  A 2FSK frame, whatever the message, is free of phase jumps iff the modulation index is an integer:
for every other index the jump is already at the first boundary of the preamble. -/
theorem C43_2fsk_iff (o : FskObj) (hm : o.params.modulation = .FSK2) (hr : 1 ≤ o.params.symbolRate) (hp : 4 ≤ o.params.preambleLength) (a : Arg)
    (iq : List ℂ) (fs : ℚ) (bits : Bits) (h : ((fskBitsToIQ id a).call o).1 = .ok (iq, fs)) (hb : ((fskBinary a).call o).1 = .ok bits) :
    (∀ n, 1 ≤ n → n < bits.length → ContinuousAt iq o.params bits fs n) ↔ ∃ z : ℤ, o.params.modIndex = z := by
  have hbl : bits.length / bitsPerSymbol o.params.modulation = bits.length := by rw [hm]; simp [bitsPerSymbol]
  constructor
  · intro hc
    obtain ⟨hd, hl⟩ := first_symbols o a bits hp hb
    obtain ⟨z, hz⟩ := (C43_boundary_iff o hr a iq fs bits h hb 1 le_rfl hl).1 (hc 1 le_rfl (by omega))
    refine ⟨z, ?_⟩
    rw [← hz, show 1 - 1 = 0 from rfl, hd, hm]
    have hR : (o.params.symbolRate : ℚ) ≠ 0 := by exact_mod_cast (show o.params.symbolRate ≠ 0 by omega)
    field_simp
    simp
  · rintro ⟨z, hz⟩ n hn hnl
    exact C43_integer_index_partial o hr z hz a iq fs bits h hb n hn (by omega)

/-- **C43 (4FSK).**  A 4FSK frame without phase jumps needs a modulation index that is a multiple of 1/3. -/
theorem C43_4fsk_necessary (o : FskObj) (hm : o.params.modulation = .FSK4) (hr : 1 ≤ o.params.symbolRate) (hp : 4 ≤ o.params.preambleLength) (a : Arg)
    (iq : List ℂ) (fs : ℚ) (bits : Bits) (h : ((fskBitsToIQ id a).call o).1 = .ok (iq, fs)) (hb : ((fskBinary a).call o).1 = .ok bits)
    (hc : ∀ n, 1 ≤ n → n < bits.length / 2 → ContinuousAt iq o.params bits fs n) : ∃ z : ℤ, 3 * o.params.modIndex = z := by
  obtain ⟨hd, hl⟩ := first_symbols o a bits hp hb
  obtain ⟨z, hz⟩ := (C43_boundary_iff o hr a iq fs bits h hb 1 le_rfl hl).1 (hc 1 le_rfl (by rw [hm] at hl; exact hl))
  refine ⟨z, ?_⟩
  rw [← hz, show 1 - 1 = 0 from rfl, hd, hm]
  have hR : (o.params.symbolRate : ℚ) ≠ 0 := by exact_mod_cast (show o.params.symbolRate ≠ 0 by omega)
  field_simp
  simp

/-- **C43 (4FSK: exactly the integer indices).**  Every Python `int` and every finite `float` is a fraction whose denominator is a power of two.  For such an index a 4FSK frame, whatever the
message, is free of phase jumps iff the modulation index is an integer. -/
theorem C43_4fsk_iff (o : FskObj) (hm : o.params.modulation = .FSK4) (hr : 1 ≤ o.params.symbolRate) (hp : 4 ≤ o.params.preambleLength)
    (hf : ∃ (c : ℤ) (k : ℕ), o.params.modIndex = c / 2 ^ k) (a : Arg)
    (iq : List ℂ) (fs : ℚ) (bits : Bits) (h : ((fskBitsToIQ id a).call o).1 = .ok (iq, fs)) (hb : ((fskBinary a).call o).1 = .ok bits) :
    (∀ n, 1 ≤ n → n < bits.length / 2 → ContinuousAt iq o.params bits fs n) ↔ ∃ z : ℤ, o.params.modIndex = z := by
  constructor
  · intro hc
    obtain ⟨z, hz⟩ := C43_4fsk_necessary o hm hr hp a iq fs bits h hb hc
    obtain ⟨c, k, hck⟩ := hf
    have h2 : ((2 : ℚ) ^ k) ≠ 0 := by positivity
    have e : (3 : ℤ) * c = z * 2 ^ k := by
      have : (3 : ℚ) * c = z * 2 ^ k := by
        rw [← hz, hck]; field_simp
      exact_mod_cast this
    have hcop : IsCoprime (3 : ℤ) (2 ^ k) := IsCoprime.pow_right ⟨1, -1, by norm_num⟩
    obtain ⟨d, hd⟩ := hcop.dvd_of_dvd_mul_right (Dvd.intro c e)
    refine ⟨d, ?_⟩
    rw [hd] at hz
    push_cast at hz
    linarith
  · rintro ⟨z, hz⟩ n hn hnl
    exact C43_integer_index_partial o hr z hz a iq fs bits h hb n hn (by rw [hm]; exact hnl)

/-- The hypotheses are met by 2FSK with index 1 (continuous) and by 4FSK with index 1/2 (not continuous: `3/2` is not an integer). -/
example : (∃ (o : FskObj) (bits : Bits) (iq : List ℂ) (fs : ℚ), o.params.modulation = .FSK2 ∧ o.params.modIndex = 1 ∧
      ((fskBitsToIQ id (bitsArg [true, false, false, true, true, true, false, true])).call o).1 = .ok (iq, fs) ∧
      (∀ n, 1 ≤ n → n < bits.length → ContinuousAt iq o.params bits fs n)) ∧
    (∃ (o : FskObj) (bits : Bits) (iq : List ℂ) (fs : ℚ), o.params.modulation = .FSK4 ∧ o.params.modIndex = 1 / 2 ∧
      ((fskBitsToIQ id (bitsArg [true, false, false, true, true, true, false, true])).call o).1 = .ok (iq, fs) ∧
      ¬ ∀ n, 1 ≤ n → n < bits.length / 2 → ContinuousAt iq o.params bits fs n) := by
  obtain ⟨bits, iq, fs, h, hb, -, hp, hr, -, -⟩ := witness ⟨50000, 1, 0, .FSK2, false, 0, 0, true, false, 4⟩ (by simp)
  obtain ⟨bits', iq', fs', h', hb', -, hp', hr', -, -⟩ := witness ⟨200000, 1 / 2, 1, .FSK4, true, 1, 0, true, true, 8⟩ (by simp)
  refine ⟨⟨_, bits, iq, fs, rfl, rfl, h, (C43_2fsk_iff { params := _ } rfl hr hp _ iq fs bits h hb).2 ⟨1, by norm_num⟩⟩, ⟨_, bits', iq', fs', rfl, rfl, h', fun hc => ?_⟩⟩
  obtain ⟨z, hz⟩ := C43_4fsk_necessary { params := _ } rfl hr' hp' _ iq' fs' bits' h' hb' hc
  have h2 : (3 : ℚ) = ((2 * z : ℤ) : ℚ) := by push_cast; rw [← hz]; norm_num
  have h3 : (3 : ℤ) = 2 * z := by exact_mod_cast h2
  omega

end SunPhy.C43
