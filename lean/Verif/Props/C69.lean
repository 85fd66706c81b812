import Verif.Proofs.RefFsk
import Verif.Props.C59
/-
C69 — every MR-FSK frame is that of the reference transmitter of `Spec/FskReference.lean`.
-/
namespace SunPhy.C69
open SunPhy Spec Complex

theorem header_length (p : FskParams) (n : Nat) : (RefF.header p n).length = 16 := by
  unfold RefF.header; rw [field_eq]; simp [natBits_length]

theorem pad_length (n : Nat) : (RefF.pad n).length = if n % 2 = 0 then 13 else 5 := by
  unfold RefF.pad; rw [field_eq, field_eq]; split <;> simp [natBits_length]

theorem body_ref (p : FskParams) (m : Bits) :
    fskCoded p (RefF.header p (m.length / 8) ++ m) =
      (if p.fecEnabled = true ∧ p.interleaving = true ∧ m.length % 8 ≠ 0 then .error .ValueError else .ok (RefF.body p m)) := by
  have hl : (RefF.header p (m.length / 8) ++ m).length = 16 + m.length := by rw [List.length_append, header_length]
  have hc := coded_ref p.fecScheme _ (RefF.pad (m.length / 8)) (fsk_pad_ref _ m hl).symm
  have hm := C37.C37_multiple p.fecScheme (RefF.header p (m.length / 8) ++ m)
  rw [hl] at hm
  unfold fskCoded RefF.body
  rw [hc] at *
  cases p.fecEnabled
  · simp
  · cases p.interleaving
    · simp
    · simp only [if_true, true_and]
      by_cases h8 : m.length % 8 = 0
      · rw [if_neg (by omega), interleave_ref (hm.2 (by omega))]
      · rw [if_pos h8, (C37.C39_accepts _).2 (fun h => h8 (by have := hm.1 h; omega))]

theorem bits_ref (p : FskParams) (m : Bits) :
    fskBits p m = (if 2048 ≤ m.length / 8 ∨ p.fecEnabled = true ∧ p.interleaving = true ∧ m.length % 8 ≠ 0 then .error .ValueError
      else .ok (RefF.bits p m)) := by
  unfold fskBits
  by_cases h : 2048 ≤ m.length / 8
  · rw [if_pos (Or.inl h), fsk_phr_error p h]
  · rw [fsk_header_ref p (by omega)]
    simp only
    rw [body_ref]
    by_cases h2 : p.fecEnabled = true ∧ p.interleaving = true ∧ m.length % 8 ≠ 0
    · rw [if_pos h2, if_pos (Or.inr h2)]
    · rw [if_neg h2, if_neg (by simp only [h, h2, or_self, not_false_eq_true])]
      simp only
      congr 1
      rw [fsk_shr_ref, whiten_ref]
      rfl

/-- **C69 (bits).**  A bit message is refused with `ValueError` when it has 2048 octets or more or, with FEC and interleaving, when it is not a
whole number of octets; every other message gives exactly the bits of the reference transmitter, whatever the object was used for before. -/
theorem C69_bits (o : FskObj) (a : Arg) (m : Bits) (ha : checkBinaryArray a = .ok m) :
    let q := o.params
    ((fskBinary a).call o).1 =
      (if 2048 ≤ m.length / 8 ∨ q.fecEnabled = true ∧ q.interleaving = true ∧ m.length % 8 ≠ 0 then .error .ValueError
       else .ok (RefF.bits q m)) := by
  intro q
  rw [(fskBinary_result a o).1, ha]
  exact bits_ref o.params m

theorem width_eq (m : FskMod) : RefF.width m = C42.bitsPerSymbol m := by cases m <;> rfl

theorem deviation_eq (m : FskMod) (b : Bits) (k : Nat) (hk : k < b.length / RefF.width m) :
    (RefF.deviation m b k : ℚ) = fskDev m (C42.symbolBits m b k) := by
  rw [width_eq] at hk
  have hl := C42.symbol_length hk
  have := C42.frequency_eq m 1 _ hl
  rw [mul_one] at this
  rw [this]
  cases m with
  | FSK2 =>
    simp only [C42.frequency, RefF.deviation, C42.symbolBits, C42.bitsPerSymbol, RefF.at_, List.getD_eq_getElem?_getD, List.getElem?_take,
      List.getElem?_drop]
    simp only [Nat.mul_one, Nat.add_zero, Nat.zero_lt_one, if_true]
    split <;> simp
  | FSK4 =>
    simp only [C42.frequency, RefF.deviation, C42.symbolBits, C42.bitsPerSymbol, RefF.at_, List.getD_eq_getElem?_getD, List.getElem?_take,
      List.getElem?_drop]
    simp only [Nat.add_zero, show 0 < 2 by decide, show 1 < 2 by decide, if_true, Nat.mul_comm k 2, mul_one]
    push_cast
    split <;> split <;> simp

theorem samples_ref (p : FskParams) (hr : 1 ≤ p.symbolRate) (b : Bits) : fskSamples p (fskDevs p b) 20 = RefF.samples p b := by
  unfold RefF.samples
  refine range_map_ext ?_ _ fun i hi => ?_
  · unfold fskSamples; rw [List.length_map, List.length_range, fskDevs_length, C42.bps_eq, width_eq]
  · have hk : i / 20 < b.length / RefF.width p.modulation := by omega
    unfold fskSamples
    rw [List.getElem?_map, List.getElem?_range (by rw [fskDevs_length, C42.bps_eq, ← width_eq]; exact hi), Option.map_some,
      C42.devs_get (by rw [← width_eq]; exact hk), ← deviation_eq _ _ _ hk]
    congr 2
    push_cast
    have : (p.symbolRate : ℂ) ≠ 0 := by exact_mod_cast (show p.symbolRate ≠ 0 by omega)
    field_simp

theorem modulator_ref (p : FskParams) (hr : 1 ≤ p.symbolRate) (b : Bits) :
    fskModulator id p b 20 = (if b.length % RefF.width p.modulation ≠ 0 then .error .ValueError else .ok (RefF.samples p b, 20 * (p.symbolRate : ℚ))) := by
  by_cases hm : b.length % RefF.width p.modulation = 0
  · rw [if_neg (by simpa using hm), fskModulator_ok id p b 20 (by decide) (by rw [C42.bps_eq, ← width_eq]; exact hm)
      (fskArange_exact (by omega) (by decide) _), samples_ref p hr, fskDt_exact]
    congr 2
    simp only [id, one_div, inv_inv]
    push_cast
    ring
  · rw [if_pos hm, fskModulator_odd _ _ _ _ (by rw [C42.bps_eq, ← width_eq]; exact hm)]

/-- Why a message is refused: too long, not a whole number of octets although interleaving is on, or (4FSK without FEC) an odd number of bits. -/
def Refused (p : FskParams) (m : Bits) : Prop :=
  2048 ≤ m.length / 8 ∨ (p.fecEnabled = true ∧ p.interleaving = true ∧ m.length % 8 ≠ 0) ∨
    (p.fecEnabled = false ∧ p.modulation = .FSK4 ∧ m.length % 2 = 1)

theorem body_length (p : FskParams) (m : Bits) : (RefF.body p m).length =
    if p.fecEnabled then 2 * (16 + m.length + 3 + if m.length / 8 % 2 = 0 then 13 else 5) else 16 + m.length := by
  have hl : (RefF.header p (m.length / 8) ++ m).length = 16 + m.length := by rw [List.length_append, header_length]
  unfold RefF.body
  cases p.fecEnabled
  · simp only [Bool.false_eq_true, if_false]; exact hl
  · have : (RefF.coded p.fecScheme (RefF.header p (m.length / 8) ++ m) (RefF.pad (m.length / 8))).length =
        2 * (16 + m.length + 3 + if m.length / 8 % 2 = 0 then 13 else 5) := by
      unfold RefF.coded
      rw [List.length_map, List.length_range, hl, pad_length]
    cases p.interleaving
    · simpa using this
    · simp only [if_true]; unfold RefF.interleave; rw [List.length_map, List.length_range]; exact this

theorem bits_mod (p : FskParams) (m : Bits) : (RefF.bits p m).length % RefF.width p.modulation ≠ 0 ↔
    p.fecEnabled = false ∧ p.modulation = .FSK4 ∧ m.length % 2 = 1 := by
  have hb : (RefF.bits p m).length = (RefF.preamble p ++ RefF.sfd p).length + (RefF.body p m).length := by
    unfold RefF.bits; simp; omega
  rw [body_length, ← fsk_shr_ref, C35.shr_length] at hb
  unfold C35.shrSize at hb
  cases hm : p.modulation with
  | FSK2 => simp only [RefF.width]; simp; omega
  | FSK4 =>
    rw [hm] at hb
    simp only [RefF.width]
    cases hf : p.fecEnabled
    · rw [hf] at hb; simp [C34.sfdLength, C34.preambleUnit] at hb ⊢; omega
    · rw [hf] at hb; simp [C34.sfdLength, C34.preambleUnit] at hb ⊢; omega

/-- **C69 (samples).**  In exact arithmetic, on every modulator with a positive symbol rate and whatever it was used for before, a bit message
is either refused with `ValueError` for one of the three reasons above, or gives exactly the samples of the reference transmitter and the
sampling frequency `20 * symbolRate`. -/
theorem C69_reference (o : FskObj) (hr : 1 ≤ o.params.symbolRate) (a : Arg) (m : Bits) (ha : checkBinaryArray a = .ok m) :
    let q := o.params
    (Refused q m → ((fskBitsToIQ id a).call o).1 = .error .ValueError) ∧
    (¬ Refused q m → ((fskBitsToIQ id a).call o).1 = .ok (RefF.samples q (RefF.bits q m), 20 * (q.symbolRate : ℚ))) := by
  intro q
  rw [(fskBitsToIQ_result id a o).1]
  unfold fskResult
  rw [ha]
  simp only
  rw [bits_ref]
  have hb := bits_mod q m
  by_cases h1 : 2048 ≤ m.length / 8 ∨ q.fecEnabled = true ∧ q.interleaving = true ∧ m.length % 8 ≠ 0
  · rw [if_pos h1]
    refine ⟨fun _ => rfl, fun h => absurd ?_ h⟩
    unfold Refused; tauto
  · rw [if_neg h1]
    simp only
    rw [modulator_ref _ hr]
    unfold Refused
    by_cases h2 : (RefF.bits q m).length % RefF.width q.modulation ≠ 0
    · rw [if_pos h2]
      exact ⟨fun _ => rfl, fun h => absurd (Or.inr (Or.inr (hb.1 h2))) h⟩
    · rw [if_neg h2]
      refine ⟨fun h => absurd ?_ h2, fun _ => rfl⟩
      apply hb.2; tauto

/-- **C69 (octets).**  `bytesToIQ` of 1 to 2047 octets always gives the reference frame of their bits, least significant first; more octets
raise `ValueError`. -/
theorem C69_bytes (o : FskObj) (hr : 1 ≤ o.params.symbolRate) (a : Arg) (msg : List UInt8) (hd : C01.Denotes a msg) (h1 : 1 ≤ msg.length) :
    let q := o.params
    ((fskBytesToIQ id a).call o).1 =
      (if 2048 ≤ msg.length then .error .ValueError
       else .ok (RefF.samples q (RefF.bits q ((List.range (8 * msg.length)).map fun k => (msg.getD (k / 8) 0).toNat.testBit (k % 8))),
         20 * (q.symbolRate : ℚ))) := by
  intro q
  have hn : msg ≠ [] := List.length_pos_iff.1 h1
  obtain ⟨m, e, hl, hb⟩ := C01.C01_lsb_first a msg hd hn
  have hm : m = (List.range (8 * msg.length)).map fun k => (msg.getD (k / 8) 0).toNat.testBit (k % 8) := by
    refine range_map_ext hl _ fun k hk => ?_
    have := C59.bits_of a msg hd h1 m e k hk
    rw [this]; rfl
  have := C69_reference o hr (bitsArg m) m (C03.C03_identity m (by rintro rfl; rw [List.length_nil] at hl; omega))
  simp only at this
  rw [(fskBitsToIQ_result id _ o).1] at this
  rw [← hm, (fskBytesToIQ_result id a o).1]
  unfold fskBytesResult
  rw [e]
  simp only
  by_cases h : 2048 ≤ msg.length
  · rw [if_pos h, this.1 (Or.inl (by omega))]
  · rw [if_neg h, this.2 (by unfold Refused; omega)]

/-! Non-vacuity. -/
example : Refused ⟨50000, 1, 0, .FSK2, true, 0, 0, true, true, 4⟩ [true] ∧ ¬ Refused ⟨50000, 1, 0, .FSK2, true, 0, 0, true, true, 4⟩ (List.replicate 8 true) := by
  unfold Refused; decide
example : (RefF.bits ⟨50000, 1, 0, .FSK2, true, 1, 0, true, true, 4⟩ (List.replicate 8 true)).length = 32 + 16 + 64 := by decide +kernel

end SunPhy.C69
