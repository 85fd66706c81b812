import Verif.Proofs.OfdmFrame
import Verif.Spec.OfdmInterleaver
/-
C21 — MR-OFDM payload padding is minimal and fills whole symbols.
-/
namespace SunPhy.C21
open SunPhy Spec OfdmParams

/-- **C21 (padding).**  The padded payload is the message followed by zeros; its size is the least multiple of
`bits_per_symbol()` that leaves room for the six tail bits. -/
theorem C21_padding (p : OfdmParams) (h : Supported p) (m : Bits) :
    ∃ k, (p.padding m).1 = m ++ List.replicate (k * p.nDbps - m.length) false ∧ (p.padding m).1.length = k * p.nDbps ∧
      m.length + 6 ≤ k * p.nDbps ∧ (∀ k', m.length + 6 ≤ k' * p.nDbps → k ≤ k') ∧
      (p.padding m).2 + 6 + m.length = k * p.nDbps := by
  have hf := (rate_facts p (mem_allSupported h)).2.2
  obtain ⟨c1, c2⟩ := ceilDiv_spec (a := m.length + 6) (b := p.nDbps) (by omega)
  obtain ⟨l1, l2⟩ := padding_length h m
  refine ⟨payloadN p m.length, ?_, l1, c1, ?_, ?_⟩
  · unfold OfdmParams.padding
    simp only [List.append_assoc, List.append_cancel_left_eq]
    rw [List.replicate_append_replicate]
    congr 1
    unfold payloadN at *
    omega
  · intro k' hk'
    by_contra hlt
    have : (k' + 1) * p.nDbps ≤ payloadN p m.length * p.nDbps := Nat.mul_le_mul_right _ (by omega)
    rw [Nat.add_mul, Nat.one_mul] at this
    unfold payloadN at *
    omega
  · unfold payloadN at *; omega

/-- The number of data bits carried by one OFDM symbol for each MCS and option (before spreading). -/
def bitsPerSymbol (p : OfdmParams) : Nat :=
  tonesOf p.option * bitsOf p.mcs * (if p.mcs = 4 ∨ p.mcs = 6 then 3 else 2) / 4

/-- **C21 (symbol size).**  `bits_per_symbol()` is data tones × bits per tone × code rate. -/
theorem C21_bits_per_symbol (p : OfdmParams) (h : Supported p) : p.nDbps = bitsPerSymbol p := by
  have : ∀ p ∈ allSupported, p.nDbps = bitsPerSymbol p := by decide +kernel
  exact this p (mem_allSupported h)

/-- **C21 (whole symbols).**  The coded and interleaved payload of every message exists and fills exactly
`spreading × (padded size / bits_per_symbol)` OFDM symbols of the modulator used for it. -/
theorem C21_symbols (p : OfdmParams) (h : Supported p) (m : Bits) :
    ∃ (y : Bits) (L : Nat), p.payloadInterleaved m = .ok y ∧ (p.ofdmCfg p.mcs ℂ).splitLength = (L : Int) ∧ 0 < L ∧
      y.length = spreadOf p.mcs * ((p.padding m).1.length / p.nDbps) * L := by
  have g := goodMod h (mcs_le h) ℂ
  have hf := (rate_facts p (mem_allSupported h)).2.2
  refine ⟨payloadCoded p m, splitN p p.mcs, ?_, g.split, g.pos, ?_⟩
  · unfold OfdmParams.payloadInterleaved
    rw [(payload_enc h m).1]; rfl
  · rw [payloadCoded_length h m, (padding_length h m).1, Nat.mul_div_cancel _ (by omega)]
    unfold payloadSymbols
    rw [Nat.mul_comm (payloadN _ _)]
    congr 2

example : Supported ⟨4, 4, 0, 0⟩ ∧ (OfdmParams.padding ⟨4, 4, 0, 0⟩ (List.replicate 8 true)).1.length = 18 ∧
    (OfdmParams.padding ⟨4, 4, 0, 0⟩ (List.replicate 16 true)).1.length = 36 := ⟨⟨by decide, by decide, by decide⟩, by decide, by decide⟩

end SunPhy.C21
