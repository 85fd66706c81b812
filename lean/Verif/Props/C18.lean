import Verif.Proofs.OfdmFrame
/-
C18 — number of OFDM symbols of the MR-OFDM header.
-/
namespace SunPhy.C18
open SunPhy Spec

/-- The predetermined number of header symbols: first index `phyOFDMInterleaving`, second the OFDM option 1..4. -/
def predetermined : List (List Nat) := [[3, 6, 6, 6], [4, 8, 6, 6]]

def tableValue (p : OfdmParams) : Nat := (predetermined.getD p.interleaving []).getD (p.option - 1) 0

/-- Samples of `k` OFDM symbols with their prefix of a quarter symbol. -/
def symbolSamples (p : OfdmParams) (k : Nat) : Nat := k * (fftSize p.option + fftSize p.option / 4)

theorem header_count : ∀ p ∈ allSupported, 2 * headerSymbols p = (if p.mcs = 4 ∨ p.mcs = 6 then 3 else 2) * tableValue p := by
  decide +kernel

theorem header_samples {o : OfdmObj} (h : Supported o.params) (n : Nat) (h1 : 1 ≤ n / 8) (h2 : n / 8 ≤ 2047) :
    ∃ iq st o', (ofdmPhrM n).call o = (.ok (iq, st), o') ∧ iq.length = symbolSamples o.params (headerSymbols o.params) := by
  refine ⟨_, _, _, headerM_ok h h1 h2, ?_⟩
  obtain ⟨f1, f2⟩ := fft_facts o.params.option (by have := option_cases h; simp; omega)
  have g := goodMod h (lowestMcs_le o.params.option) ℂ
  unfold headerSyms symbolSamples
  rw [symbolsIQ_length (N := fftSize o.params.option) (by omega) f2 _ fun c hc => streamSymbols_size g _ _ _ hc]
  rw [streamSymbols_length, headerCoded_length h h1 h2, Nat.mul_div_cancel _ g.pos]
  congr 1
  omega

/-- **C18 (exact behaviour).**  The header of every frame (whatever the history of the modulator object) takes the
predetermined number of OFDM symbols, except with the rate 3/4 payload schemes MCS 4 and MCS 6, where it takes one and a half
times that number. -/
theorem C18_exact (o : OfdmObj) (h : Supported o.params) (n : Nat) (h1 : 1 ≤ n / 8) (h2 : n / 8 ≤ 2047) :
    ∃ iq st o' k, (ofdmPhrM n).call o = (.ok (iq, st), o') ∧ iq.length = symbolSamples o.params k ∧
      2 * k = (if o.params.mcs = 4 ∨ o.params.mcs = 6 then 3 else 2) * tableValue o.params := by
  obtain ⟨iq, st, o', e, hl⟩ := header_samples h n h1 h2
  exact ⟨iq, st, o', _, e, hl, header_count _ (mem_allSupported h)⟩

/-- **C18 (the part that holds).**  For MCS 0, 1, 2, 3 and 5 the header occupies the predetermined number of symbols. -/
theorem C18_partial (o : OfdmObj) (h : Supported o.params) (hm : o.params.mcs ≠ 4 ∧ o.params.mcs ≠ 6) (n : Nat) (h1 : 1 ≤ n / 8)
    (h2 : n / 8 ≤ 2047) : ∃ iq st o', (ofdmPhrM n).call o = (.ok (iq, st), o') ∧
      iq.length = symbolSamples o.params (tableValue o.params) := by
  obtain ⟨iq, st, o', k, e, hl, hk⟩ := C18_exact o h n h1 h2
  rw [if_neg (by omega)] at hk
  rw [show k = tableValue o.params by omega] at hl
  exact ⟨iq, st, o', e, hl⟩

/-- **C18 fails** in every configuration with MCS 4 or 6, for every message length: the number of header symbols is not the
predetermined one, so two configurations that differ only in the payload MCS start their payload at different symbols. -/
theorem C18_false (o : OfdmObj) (h : Supported o.params) (hm : o.params.mcs = 4 ∨ o.params.mcs = 6) (n : Nat) (h1 : 1 ≤ n / 8)
    (h2 : n / 8 ≤ 2047) (iq : List ℂ) (st : OfdmState) (o' : OfdmObj) (e : (ofdmPhrM n).call o = (.ok (iq, st), o')) :
    symbolSamples o.params (tableValue o.params) < iq.length := by
  obtain ⟨iq', st', o'', k, e', hl, hk⟩ := C18_exact o h n h1 h2
  rw [e] at e'
  cases e'
  rw [if_pos hm] at hk
  have ht : ∀ p ∈ allSupported, 0 < tableValue p ∧ 0 < fftSize p.option := by decide +kernel
  obtain ⟨t1, t2⟩ := ht _ (mem_allSupported h)
  rw [hl]
  unfold symbolSamples
  exact Nat.mul_lt_mul_of_pos_right (by omega) (by omega)

example : Supported ⟨4, 3, 1, 2⟩ := ⟨by decide, by decide, by decide⟩
example : Supported ⟨5, 2, 0, 1⟩ := ⟨by decide, by decide, by decide⟩
example : headerSymbols ⟨4, 3, 1, 2⟩ = 9 ∧ headerSymbols ⟨3, 3, 1, 2⟩ = 6 := by decide +kernel

end SunPhy.C18
