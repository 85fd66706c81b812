import Verif.Props.C18
import Verif.Props.C21
/-
C28 — size, duration and sampling rate of MR-OFDM frames.
-/
namespace SunPhy.C28
open SunPhy Spec

/-- Number of payload symbols: the least number of blocks of `bits_per_symbol()` bits holding the message and six tail bits, each block
sent `spreading` times. -/
def payloadCount (p : OfdmParams) (len : Nat) : Nat := spreadOf p.mcs * ((len + 6 + (C21.bitsPerSymbol p - 1)) / C21.bitsPerSymbol p)

/-- Number of header symbols (C18): the table value, times 3/2 for MCS 4 and 6. -/
def headerCount (p : OfdmParams) : Nat := if p.mcs = 4 ∨ p.mcs = 6 then 3 * C18.tableValue p / 2 else C18.tableValue p

theorem fft_table : ∀ p ∈ allSupported, spreadOf p.mcs = freqSpreading p.mcs ∧ C18.tableValue p % 2 = (if p.mcs = 4 ∨ p.mcs = 6 then 0 else C18.tableValue p % 2) := by
  decide +kernel

theorem counts {p : OfdmParams} (h : Supported p) (len : Nat) : headerSymbols p = headerCount p ∧ payloadSymbols p len = payloadCount p len := by
  have h1 := C18.header_count p (mem_allSupported h)
  obtain ⟨h2, h3⟩ := fft_table p (mem_allSupported h)
  have h4 := C21.C21_bits_per_symbol p h
  have h5 := (rate_facts p (mem_allSupported h)).2.2
  constructor
  · unfold headerCount
    split at h1
    · rename_i hc; rw [if_pos hc] at h3 ⊢; omega
    · rename_i hc; rw [if_neg hc]; omega
  · unfold payloadSymbols payloadCount payloadN ceilDiv
    rw [h2, ← h4, Nat.mul_comm, show len + 6 + p.nDbps - 1 = len + 6 + (p.nDbps - 1) by omega]

/-- **C28.**  The frame of every acceptable message has `5N + 5N/2` training samples and `5N/4` samples for every header and payload symbol,
and the returned sampling frequency `f` satisfies `f * 120 µs = 5N/4`: each symbol lasts 120 µs. -/
theorem C28_size (o : OfdmObj) (h : Supported o.params) (a : Arg) (m : Bits) (ha : checkBinaryArray a = .ok m)
    (h1 : 1 ≤ m.length / 8) (h2 : m.length / 8 ≤ 2047) :
    ∃ iq fs o', (ofdmModBitsToIQ a).call o = (.ok (iq, fs), o') ∧
      iq.length = 5 * fftSize o.params.option + 5 * fftSize o.params.option / 2 +
        5 * fftSize o.params.option / 4 * (headerCount o.params + payloadCount o.params m.length) ∧
      fs * (120 / 1000000) = 5 * fftSize o.params.option / 4 := by
  obtain ⟨o', e, -⟩ := bitsToIQ_ok h ha h1 h2
  refine ⟨_, _, o', e, ?_, ?_⟩
  · obtain ⟨f1, f2⟩ := fft_facts o.params.option (by have := option_cases h; simp; omega)
    have hl := ltfTable_length o.params.option (by have := option_cases h; simp; omega)
    obtain ⟨c1, c2⟩ := counts h m.length
    unfold frameIQ stfIQ ltfIQ
    simp only [List.length_append, List.length_map, List.length_drop, List.length_zipWith, List.length_replicate]
    have g1 := goodMod h (lowestMcs_le o.params.option) ℂ
    have g2 := goodMod h (mcs_le h) ℂ
    unfold headerSyms payloadSyms
    rw [symbolsIQ_length (N := fftSize o.params.option) (by omega) f2 _ fun c hc => streamSymbols_size g1 _ _ _ hc,
      symbolsIQ_length (N := fftSize o.params.option) (by omega) f2 _ fun c hc => streamSymbols_size g2 _ _ _ hc,
      streamSymbols_length, streamSymbols_length, headerCoded_length h h1 h2, payloadCoded_length h, Nat.mul_div_cancel _ g1.pos,
      Nat.mul_div_cancel _ g2.pos, c1, c2,
      cyclicPrefix_length_quarter _ (by rw [ofdmIfft_length, stfTable_length]; omega) (by rw [ofdmIfft_length, stfTable_length]; omega),
      ofdmIfft_length, stfTable_length, ofdmIfft_length, List.length_map, hl]
    have : 5 * fftSize o.params.option / 4 = 5 * (fftSize o.params.option / 4) := by omega
    rw [this, Nat.mul_add, Nat.mul_comm (headerCount o.params), Nat.mul_comm (payloadCount o.params m.length)]
    omega
  · unfold ofdmFs
    ring

/-- **C28 (duration).**  The frame lasts exactly `6 + header + payload` symbol periods of 120 µs. -/
theorem C28_duration (o : OfdmObj) (h : Supported o.params) (a : Arg) (m : Bits) (ha : checkBinaryArray a = .ok m)
    (h1 : 1 ≤ m.length / 8) (h2 : m.length / 8 ≤ 2047) :
    ∃ iq fs o', (ofdmModBitsToIQ a).call o = (.ok (iq, fs), o') ∧ 0 < fs ∧
      (iq.length : ℚ) / fs = (120 / 1000000) * (6 + headerCount o.params + payloadCount o.params m.length) := by
  obtain ⟨iq, fs, o', e, hl, hf⟩ := C28_size o h a m ha h1 h2
  obtain ⟨f1, f2⟩ := fft_facts o.params.option (by have := option_cases h; simp; omega)
  refine ⟨iq, fs, o', e, ?_, ?_⟩
  · have : (0 : ℚ) < fftSize o.params.option := by exact_mod_cast f2
    have h3 : 0 < fs * (120 / 1000000) := by rw [hf]; positivity
    by_contra hn
    linarith
  · have hN : (0 : ℚ) < fftSize o.params.option := by exact_mod_cast f2
    have hfs : fs = 5 * fftSize o.params.option / 4 / (120 / 1000000) := by rw [← hf]; field_simp
    obtain ⟨k, hk⟩ := Nat.dvd_of_mod_eq_zero f1
    rw [hl, hfs]
    have e1 : 5 * fftSize o.params.option + 5 * fftSize o.params.option / 2 +
        5 * fftSize o.params.option / 4 * (headerCount o.params + payloadCount o.params m.length) =
        10 * k * (6 + headerCount o.params + payloadCount o.params m.length) := by
      rw [hk, show 5 * (8 * k) / 4 = 10 * k by omega, show 5 * (8 * k) / 2 = 20 * k by omega, Nat.mul_add, Nat.mul_add, Nat.mul_add]
      omega
    rw [e1]
    rw [hk] at hN ⊢
    push_cast at hN ⊢
    have : (k : ℚ) ≠ 0 := by intro h0; rw [h0] at hN; norm_num at hN
    field_simp
    ring

/-- A 20-octet message with MCS 3 on option 2. -/
example : headerCount ⟨3, 2, 0, 0⟩ = 6 ∧ payloadCount ⟨3, 2, 0, 0⟩ 160 = 4 := by decide +kernel
example : Supported ⟨3, 2, 0, 0⟩ := by unfold Supported; decide

end SunPhy.C28
