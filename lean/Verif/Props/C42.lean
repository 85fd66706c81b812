import Verif.Proofs.FskSignal
import Verif.Props.C41
import Mathlib.Analysis.SpecialFunctions.Complex.Arg
/-
C42 — MR-FSK modulation in exact arithmetic: deviations, envelope, samples per symbol, demodulation.
-/
namespace SunPhy.C42
open SunPhy Complex

/-- Bits per symbol of the modulation. -/
def bitsPerSymbol : FskMod → Nat
  | .FSK2 => 1
  | .FSK4 => 2

/-- Frequency of a symbol, `fd = h * rate / 2` being the inner deviation: 2FSK 0/1 ↦ -fd/+fd; 4FSK 01, 00, 10, 11 ↦ -3fd, -fd, +fd, +3fd
(first bit: sign, second bit: outer frequency). -/
def frequency (m : FskMod) (fd : ℚ) (sym : Bits) : ℚ :=
  match m with
  | .FSK2 => if sym.getD 0 false then fd else -fd
  | .FSK4 => (if sym.getD 0 false then 1 else -1) * (if sym.getD 1 false then 3 else 1) * fd

/-- The bits of symbol `k`. -/
def symbolBits (m : FskMod) (bits : Bits) (k : Nat) : Bits := (bits.drop (k * bitsPerSymbol m)).take (bitsPerSymbol m)

theorem bps_eq (m : FskMod) : fskStepBits m = bitsPerSymbol m := by cases m <;> rfl

theorem frequency_eq (m : FskMod) (fd : ℚ) (b : Bits) (h : b.length = bitsPerSymbol m) : ((fskDev m b : Int) : ℚ) * fd = frequency m fd b := by
  cases m with
  | FSK2 =>
    match b, h with
    | [x], _ => cases x <;> simp [frequency, fskDev, fskDeviation]
  | FSK4 =>
    match b, h with
    | [x, y], _ => cases x <;> cases y <;> simp [frequency, fskDev, fskDeviation]

theorem symbol_length {m : FskMod} {bits : Bits} {k : Nat} (hk : k < bits.length / bitsPerSymbol m) : (symbolBits m bits k).length = bitsPerSymbol m := by
  unfold symbolBits
  rw [List.length_take, List.length_drop]
  have : (k + 1) * bitsPerSymbol m ≤ bits.length := le_trans (Nat.mul_le_mul_right _ hk) (Nat.div_mul_le_self _ _)
  rw [Nat.add_mul, Nat.one_mul] at this
  omega

theorem devs_get {p : FskParams} {bits : Bits} {k : Nat} (hk : k < bits.length / bitsPerSymbol p.modulation) :
    (fskDevs p bits).getD k 0 = fskDev p.modulation (symbolBits p.modulation bits k) := by
  unfold fskDevs chunks symbolBits
  rw [bps_eq, List.getD_eq_getElem?_getD, List.getElem?_map, List.getElem?_map, List.getElem?_range hk]
  rfl

/-- The samples of a transmitted bit sequence, by symbol. -/
theorem samples_get (p : FskParams) (hr : 1 ≤ p.symbolRate) (bits : Bits) (k j : Nat) (hk : k < bits.length / bitsPerSymbol p.modulation) (hj : j < 20) :
    (fskSamples p (fskDevs p bits) 20)[20 * k + j]? =
      some (exp (2 * Real.pi * I * (frequency p.modulation (p.modIndex * p.symbolRate / 2) (symbolBits p.modulation bits k) : ℚ) *
        ((20 * k + j : ℕ) : ℂ) / (20 * p.symbolRate : ℕ))) := by
  unfold fskSamples
  have hi : 20 * k + j < 20 * (fskDevs p bits).length := by rw [fskDevs_length, bps_eq]; omega
  rw [List.getElem?_map, List.getElem?_range hi, Option.map_some, show (20 * k + j) / 20 = k by omega, devs_get hk,
    show (p.symbolRate * p.modIndex / 2 : ℚ) = p.modIndex * p.symbolRate / 2 by ring, frequency_eq _ _ _ (symbol_length hk)]
  congr 2
  push_cast
  have : (p.symbolRate : ℂ) ≠ 0 := by exact_mod_cast (show p.symbolRate ≠ 0 by omega)
  field_simp

theorem signal_parts {o : FskObj} {a : Arg} {iq : List ℂ} {fs : ℚ} (hr : 1 ≤ o.params.symbolRate) (h : ((fskBitsToIQ id a).call o).1 = .ok (iq, fs)) :
    ∃ bits, ((fskBinary a).call o).1 = .ok bits ∧ bits.length % bitsPerSymbol o.params.modulation = 0 ∧
      iq = fskSamples o.params (fskDevs o.params bits) 20 ∧ fs = 20 * o.params.symbolRate := by
  rw [(fskBitsToIQ_result id a o).1] at h
  rw [(fskBinary_result a o).1]
  unfold fskResult at h
  cases hc : checkBinaryArray a with
  | error e => rw [hc] at h; cases h
  | ok m =>
    rw [hc] at h
    simp only at h
    cases hb : fskBits o.params m with
    | error e => rw [hb] at h; cases h
    | ok b =>
      rw [hb] at h
      simp only at h
      refine ⟨b, hb, ?_⟩
      by_cases hm : b.length % fskStepBits o.params.modulation = 0
      swap
      · rw [fskModulator_odd _ _ _ _ hm] at h; cases h
      rw [fskModulator_ok id o.params b 20 (by decide) hm (fskArange_exact (by omega) (by decide) _)] at h
      have := Except.ok.inj h
      rw [Prod.mk.injEq] at this
      rw [bps_eq] at hm
      refine ⟨hm, this.1.symm, ?_⟩
      rw [← this.2, fskDt_exact]
      simp only [id, one_div, inv_inv]
      push_cast
      ring

/-- **C42 (waveform).**  Each symbol of the transmitted bits takes 20 samples at the sampling frequency `20 * symbolRate`; sample `i` of symbol
`k` is the complex exponential of the symbol's frequency at time `i / fs`, and has modulus 1. -/
theorem C42_waveform (o : FskObj) (hr : 1 ≤ o.params.symbolRate) (a : Arg) (iq : List ℂ) (fs : ℚ)
    (h : ((fskBitsToIQ id a).call o).1 = .ok (iq, fs)) :
    ∃ bits : Bits, ((fskBinary a).call o).1 = .ok bits ∧ bits.length % bitsPerSymbol o.params.modulation = 0 ∧
      fs = 20 * o.params.symbolRate ∧ iq.length = 20 * (bits.length / bitsPerSymbol o.params.modulation) ∧
      (∀ z ∈ iq, ‖z‖ = 1) ∧
      ∀ k j, k < bits.length / bitsPerSymbol o.params.modulation → j < 20 →
        iq[20 * k + j]? = some (exp (2 * Real.pi * I *
          (frequency o.params.modulation (o.params.modIndex * o.params.symbolRate / 2) (symbolBits o.params.modulation bits k) : ℚ) *
          ((20 * k + j : ℕ) : ℂ) / (20 * o.params.symbolRate : ℕ))) := by
  obtain ⟨bits, hb, hm, hiq, hfs⟩ := signal_parts hr h
  refine ⟨bits, hb, hm, hfs, ?_, ?_, ?_⟩
  · rw [hiq]; unfold fskSamples; rw [List.length_map, List.length_range, fskDevs_length, bps_eq]
  · intro z hz
    rw [hiq] at hz
    unfold fskSamples at hz
    obtain ⟨i, -, rfl⟩ := List.mem_map.1 hz
    rw [show ∀ x y : ℚ, (2 * Real.pi * x * I * y : ℂ) = ((2 * Real.pi * x * y : ℝ) : ℂ) * I by intro x y; push_cast; ring,
      Complex.norm_exp_ofReal_mul_I]
  · intro k j hk hj
    rw [hiq]
    exact samples_get o.params hr bits k j hk hj

theorem frequency_bound (m : FskMod) {fd : ℚ} (h : 0 ≤ fd) (b : Bits) : |frequency m fd b| ≤ 3 * fd := by
  cases m with
  | FSK2 => unfold frequency; simp only; split <;> (rw [abs_le]; constructor <;> linarith)
  | FSK4 => unfold frequency; simp only; split <;> split <;> (rw [abs_le]; constructor <;> linarith)

/-- **C42 (demodulation).**  The phase step between the first two samples of a symbol is `2π f / fs` with `f` the symbol's frequency, so the
symbol can be read from the samples. -/
theorem C42_demodulation (o : FskObj) (hr : 1 ≤ o.params.symbolRate) (h1 : 1 / 4 ≤ o.params.modIndex) (h2 : o.params.modIndex ≤ 5 / 2)
    (a : Arg) (iq : List ℂ) (fs : ℚ) (bits : Bits) (h : ((fskBitsToIQ id a).call o).1 = .ok (iq, fs)) (hb : ((fskBinary a).call o).1 = .ok bits)
    (k : Nat) (hk : k < bits.length / bitsPerSymbol o.params.modulation) :
    arg (iq.getD (20 * k + 1) 0 / iq.getD (20 * k) 0) =
      2 * Real.pi * (frequency o.params.modulation (o.params.modIndex * o.params.symbolRate / 2) (symbolBits o.params.modulation bits k) / fs : ℚ) := by
  obtain ⟨bits', hb', -, hfs, -, -, hs⟩ := C42_waveform o hr a iq fs h
  rw [hb] at hb'
  obtain rfl := Except.ok.inj hb'
  have e0 := hs k 0 hk (by decide)
  have e1 := hs k 1 hk (by decide)
  rw [Nat.add_zero] at e0
  rw [List.getD_eq_getElem?_getD, List.getD_eq_getElem?_getD, e0, e1, Option.getD_some, Option.getD_some, ← exp_sub]
  have hfd : 0 ≤ o.params.modIndex * o.params.symbolRate / 2 := by
    have : (0 : ℚ) ≤ o.params.modIndex := by linarith
    positivity
  have hbd := frequency_bound o.params.modulation hfd (symbolBits o.params.modulation bits k)
  generalize frequency o.params.modulation (o.params.modIndex * o.params.symbolRate / 2) (symbolBits o.params.modulation bits k) = f at hbd ⊢
  have hR : (0 : ℚ) < o.params.symbolRate := by exact_mod_cast (by omega : 0 < o.params.symbolRate)
  have hx : |f / fs| ≤ 3 / 16 := by
    rw [hfs, abs_div, abs_of_pos (by positivity : (0 : ℚ) < 20 * o.params.symbolRate), div_le_iff₀ (by positivity)]
    calc |f| ≤ _ := hbd
      _ ≤ 3 * (5 / 2 * o.params.symbolRate / 2) := by gcongr
      _ = _ := by ring
  have harg : 2 * Real.pi * I * (f : ℂ) * ((20 * k + 1 : ℕ) : ℂ) / ((20 * o.params.symbolRate : ℕ) : ℂ) -
      2 * Real.pi * I * (f : ℂ) * ((20 * k : ℕ) : ℂ) / ((20 * o.params.symbolRate : ℕ) : ℂ) = ((2 * Real.pi * ((f / fs : ℚ) : ℝ) : ℝ) : ℂ) * I := by
    rw [hfs]
    push_cast
    have : (o.params.symbolRate : ℂ) ≠ 0 := by exact_mod_cast (show o.params.symbolRate ≠ 0 by omega)
    field_simp
    ring
  rw [harg]
  have hxr : |((f / fs : ℚ) : ℝ)| ≤ 3 / 16 := by
    have := (Rat.cast_le (K := ℝ)).2 hx
    rw [Rat.cast_abs] at this
    push_cast at this ⊢
    exact this
  have hpi := Real.pi_pos
  rw [abs_le] at hxr
  rw [Complex.arg_exp_mul_I, toIocMod_eq_self]
  constructor
  · nlinarith
  · nlinarith

theorem frequency_inj (m : FskMod) {fd : ℚ} (hfd : 0 < fd) {b b' : Bits} (h : b.length = bitsPerSymbol m) (h' : b'.length = bitsPerSymbol m)
    (e : frequency m fd b = frequency m fd b') : b = b' := by
  cases m with
  | FSK2 =>
    match b, b', h, h' with
    | [x], [y], _, _ => cases x <;> cases y <;> simp [frequency] at e ⊢ <;> linarith
  | FSK4 =>
    match b, b', h, h' with
    | [x, x'], [y, y'], _, _ => cases x <;> cases x' <;> cases y <;> cases y' <;> simp [frequency] at e ⊢ <;> linarith

theorem bits_of_symbols {m : FskMod} {b b' : Bits} (h : b.length % bitsPerSymbol m = 0) (h' : b'.length % bitsPerSymbol m = 0)
    (hl : b.length / bitsPerSymbol m = b'.length / bitsPerSymbol m)
    (hs : ∀ k, k < b.length / bitsPerSymbol m → symbolBits m b k = symbolBits m b' k) : b = b' := by
  have hp : 0 < bitsPerSymbol m := by cases m <;> decide
  rw [← chunks_flatten hp b h, ← chunks_flatten hp b' h']
  congr 1
  unfold chunks
  rw [← hl]
  apply List.map_congr_left
  intro k hk
  exact hs k (List.mem_range.1 hk)

/-- The hypotheses are met: 2FSK with index 1 and 4FSK with index 1/2, FEC, interleaving and whitening, an octet message. -/
theorem witness : ∀ p ∈ [(⟨50000, 1, 0, .FSK2, false, 0, 0, true, false, 4⟩ : FskParams), ⟨200000, 1 / 2, 1, .FSK4, true, 1, 0, true, true, 8⟩],
    ∃ (bits : Bits) (iq : List ℂ) (fs : ℚ), ((fskBitsToIQ id (bitsArg [true, false, false, true, true, true, false, true])).call { params := p }).1 = .ok (iq, fs) ∧
      ((fskBinary (bitsArg [true, false, false, true, true, true, false, true])).call { params := p }).1 = .ok bits ∧
      72 ≤ bits.length / bitsPerSymbol p.modulation ∧ 4 ≤ p.preambleLength ∧ 1 ≤ p.symbolRate ∧ 1 / 4 ≤ p.modIndex ∧ p.modIndex ≤ 5 / 2 := by
  intro p hp
  have ha : checkBinaryArray (bitsArg [true, false, false, true, true, true, false, true]) = .ok [true, false, false, true, true, true, false, true] := by
    decide +kernel
  have hb : ∃ b, fskBits p [true, false, false, true, true, true, false, true] = .ok b ∧ b.length % fskStepBits p.modulation = 0 ∧
      72 ≤ b.length / bitsPerSymbol p.modulation := by
    have hd : (match fskBits p [true, false, false, true, true, true, false, true] with
        | .ok b => decide (b.length % fskStepBits p.modulation = 0 ∧ 72 ≤ b.length / bitsPerSymbol p.modulation)
        | .error _ => false) = true := by
      rcases List.mem_cons.1 hp with rfl | hp
      · decide +kernel
      · rw [List.mem_singleton] at hp; subst hp; decide +kernel
    cases e : fskBits p [true, false, false, true, true, true, false, true] with
    | error _ => rw [e] at hd; cases hd
    | ok b => rw [e] at hd; exact ⟨b, rfl, of_decide_eq_true hd⟩
  have hq : 4 ≤ p.preambleLength ∧ 1 ≤ p.symbolRate ∧ 1 / 4 ≤ p.modIndex ∧ p.modIndex ≤ 5 / 2 := by
    rcases List.mem_cons.1 hp with rfl | hp
    · refine ⟨?_, ?_, ?_, ?_⟩ <;> norm_num
    · rw [List.mem_singleton] at hp; subst hp
      refine ⟨?_, ?_, ?_, ?_⟩ <;> norm_num
  obtain ⟨b, hb, hm, hl⟩ := hb
  have hmod := fskModulator_ok id p b 20 (by decide) hm (fskArange_exact (by have := hq.2.1; omega) (by decide) _)
  have e2 : ((fskBinary (bitsArg [true, false, false, true, true, true, false, true])).call { params := p }).1 = .ok b := by
    rw [(fskBinary_result _ _).1, ha]; exact hb
  have e1 : ((fskBitsToIQ id (bitsArg [true, false, false, true, true, true, false, true])).call { params := p }).1 = fskModulator id p b 20 := by
    rw [(fskBitsToIQ_result _ _ _).1]
    unfold fskResult
    rw [ha]
    simp only
    rw [hb]
  rw [hmod] at e1
  exact ⟨b, _, _, e1, e2, hl, hq⟩
example := witness ⟨50000, 1, 0, .FSK2, false, 0, 0, true, false, 4⟩ (by simp)

/-- **C42 (symbols recovered).**  Two calls on modulators with the same (admissible) parameters that give the same samples transmitted the same
bits; for octet messages the messages are the same. -/
theorem C42_injective (o o' : FskObj) (hp : o'.params = o.params) (hr : 1 ≤ o.params.symbolRate) (h1 : 1 / 4 ≤ o.params.modIndex)
    (h2 : o.params.modIndex ≤ 5 / 2) (a a' : Arg) (iq : List ℂ) (fs fs' : ℚ) (h : ((fskBitsToIQ id a).call o).1 = .ok (iq, fs))
    (h' : ((fskBitsToIQ id a').call o').1 = .ok (iq, fs')) :
    ∃ bits, ((fskBinary a).call o).1 = .ok bits ∧ ((fskBinary a').call o').1 = .ok bits := by
  have hr' : 1 ≤ o'.params.symbolRate := by rw [hp]; exact hr
  obtain ⟨bits, hb, hm, hfs, hlen, -, -⟩ := C42_waveform o hr a iq fs h
  obtain ⟨bits', hb', hm', hfs', hlen', -, -⟩ := C42_waveform o' hr' a' iq fs' h'
  refine ⟨bits, hb, ?_⟩
  rw [hb']
  congr 1
  rw [hp] at hm' hlen' hfs'
  symm
  have hl : bits.length / bitsPerSymbol o.params.modulation = bits'.length / bitsPerSymbol o.params.modulation := by omega
  refine bits_of_symbols hm hm' hl fun k hk => ?_
  have d := C42_demodulation o hr h1 h2 a iq fs bits h hb k hk
  have d' := C42_demodulation o' hr' (by rw [hp]; exact h1) (by rw [hp]; exact h2) a' iq fs' bits' h' hb' k (by rw [hp]; omega)
  rw [d, hp, hfs, hfs'] at d'
  have hpi : (2 * Real.pi) ≠ 0 := by positivity
  have := mul_left_cancel₀ hpi d'
  have := Rat.cast_injective this
  have hR : (20 * (o.params.symbolRate : ℚ)) ≠ 0 := by
    have : (o.params.symbolRate : ℚ) ≠ 0 := by exact_mod_cast (show o.params.symbolRate ≠ 0 by omega)
    positivity
  have := (div_left_inj' hR).1 this
  have hfd : 0 < o.params.modIndex * o.params.symbolRate / 2 := by
    have : (0 : ℚ) < o.params.modIndex := by linarith
    have : (0 : ℚ) < o.params.symbolRate := by exact_mod_cast (show 0 < o.params.symbolRate by omega)
    positivity
  exact frequency_inj _ hfd (symbol_length hk) (symbol_length (by omega)) ‹_›

/-- **C42 (messages).**  Different octet messages give different signals. -/
theorem C42_messages (o o' : FskObj) (hp : o'.params = o.params) (hr : 1 ≤ o.params.symbolRate) (h1 : 1 / 4 ≤ o.params.modIndex)
    (h2 : o.params.modIndex ≤ 5 / 2) (a a' : Arg) (msg msg' : List UInt8) (hd : C01.Denotes a msg) (hd' : C01.Denotes a' msg') (hne : msg ≠ [])
    (hne' : msg' ≠ []) (iq : List ℂ) (fs fs' : ℚ) (h : ((fskBytesToIQ id a).call o).1 = .ok (iq, fs))
    (h' : ((fskBytesToIQ id a').call o').1 = .ok (iq, fs')) : msg = msg' := by
  have key : ∀ (o : FskObj) (a : Arg) (msg : List UInt8) (fs : ℚ), C01.Denotes a msg → msg ≠ [] → ((fskBytesToIQ id a).call o).1 = .ok (iq, fs) →
      ∃ m : Bits, toBinaryArray a = .ok m ∧ ((fskBitsToIQ id (bitsArg m)).call o).1 = .ok (iq, fs) := by
    intro o a msg fs hd hne h
    obtain ⟨m, e, -⟩ := C01.C01_lsb_first a msg hd hne
    rw [(fskBytesToIQ_result id a o).1] at h
    unfold fskBytesResult at h
    rw [e] at h
    exact ⟨m, e, by rw [(fskBitsToIQ_result id _ o).1]; exact h⟩
  obtain ⟨m, e, g⟩ := key o a msg fs hd hne h
  obtain ⟨m', e', g'⟩ := key o' a' msg' fs' hd' hne' h'
  obtain ⟨bits, b1, b2⟩ := C42_injective o o' hp hr h1 h2 _ _ iq fs fs' g g'
  exact C41.C41_injective o o' hp a a' msg msg' hd hd' hne hne' m m' bits e e' b1 b2

end SunPhy.C42
