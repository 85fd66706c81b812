import Verif.Proofs.OfdmResult
/-
C15 — refusal of message sizes by `bitsToIQ` / `bytesToIQ`; C02 / C03 — invalid arguments (MR-OFDM).
-/
namespace SunPhy.C15
open SunPhy Spec

/-- **C15 (bitsToIQ).**  For a valid bit argument `bitsToIQ` returns samples iff the number of whole octets is 1..2047, and otherwise raises
`ValueError`, whatever the object was used for before. -/
theorem C15_bitsToIQ (o : OfdmObj) (hS : Supported o.params) (a : Arg) (m : Bits) (ha : checkBinaryArray a = .ok m) :
    ((∃ r, ((ofdmModBitsToIQ a).call o).1 = .ok r) ↔ 1 ≤ m.length / 8 ∧ m.length / 8 ≤ 2047) ∧
    (¬ (1 ≤ m.length / 8 ∧ m.length / 8 ≤ 2047) → ((ofdmModBitsToIQ a).call o).1 = .error .ValueError) := by
  have r := (bitsToIQ_result hS a).1
  unfold ofdmResult at r
  rw [ha] at r
  simp only at r
  by_cases h : 1 ≤ m.length / 8 ∧ m.length / 8 ≤ 2047
  · rw [if_pos h] at r
    exact ⟨⟨fun _ => h, fun _ => ⟨_, r⟩⟩, fun hn => absurd h hn⟩
  · rw [if_neg h] at r
    refine ⟨⟨?_, fun hh => absurd hh h⟩, fun _ => r⟩
    rintro ⟨x, hx⟩
    rw [r] at hx; cases hx

/-- **C15 (bytesToIQ).**  For an octet message, `bytesToIQ` raises `ValueError` iff it has more than 2047 octets. -/
theorem C15_bytesToIQ (o : OfdmObj) (hS : Supported o.params) (a : Arg) (msg : List UInt8) (h : C01.Denotes a msg) (h1 : 1 ≤ msg.length) :
    (((ofdmModBytesToIQ a).call o).1 = .error .ValueError ↔ 2047 < msg.length) ∧
    ((∃ r, ((ofdmModBytesToIQ a).call o).1 = .ok r) ↔ msg.length ≤ 2047) := by
  have r := (bytesToIQ_result hS a).1
  obtain ⟨b, -, -, e⟩ := ofdmBytesResult_octets o.params h h1
  rw [e] at r
  rw [r]
  by_cases h2 : msg.length ≤ 2047
  · rw [if_pos h2]
    refine ⟨⟨fun h => (nomatch h), fun h => by omega⟩, ⟨fun _ => h2, fun _ => ⟨_, rfl⟩⟩⟩
  · rw [if_neg h2]
    exact ⟨⟨fun _ => by omega, fun _ => rfl⟩, ⟨fun ⟨_, h⟩ => (nomatch h), fun h => absurd h h2⟩⟩

example : Supported ⟨0, 1, 0, 0⟩ := by unfold Supported; decide

end SunPhy.C15
