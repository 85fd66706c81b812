import Verif.Proofs.RefOqpsk
import Verif.Props.C63
import Verif.Props.C59
/-
C68 — every MR-O-QPSK frame is that of the reference transmitter of `Spec/OqpskReference.lean`.
-/
namespace SunPhy.C68
open SunPhy Spec Complex C63

/-- The chips of every frame that is produced. -/
theorem frame_ref {p : OqpskParams} (h : Standard p) (m : Bits) (L : Nat) (hm : m.length = 8 * L) (h1 : 1 ≤ L) (h2 : L ≤ 2047)
    (hu : ¬ Unmodulable p L) : oqpskFrame p m = .ok (RefQ.chips p.band (decide (p.sm = 1)) p.rm.toNat m) := by
  have hL8 : m.length / 8 = L := by omega
  obtain ⟨c, s, hf, hc, ⟨t, ht, hs⟩, hcv, -⟩ := (frame_outcome h m L hm h1).2 h2 hu
  have hd : decide (p.sm ≠ 0) = decide (p.sm = 1) := by
    rcases h.mode with hs | ⟨hs, -⟩ <;> simp [hs]
  rw [hf]
  congr 1
  unfold RefQ.chips
  rw [shr_ref, hL8, pilots_ref]
  rw [phr_ref p h.rate.1 h.rate.2 L (by omega)] at hc
  rw [← Except.ok.inj hc, hd]
  congr 2
  rcases h.mode with hs0 | ⟨hs1, hb⟩
  · unfold oqpskPsduBits at ht
    rw [if_pos (Or.inr hs0), psduBits_ref m] at ht
    have ht := Except.ok.inj ht
    subst ht
    have hg : (RefQ.psduBits m).length % (psduGroup p.band p.rm.toNat).1 = 0 := by
      by_contra hc
      have := (spread_dsss p hs0 h.rate.1 h.rate.2).1 _ hc
      rw [hs] at this; cases this
    rw [psdu_dsss_ref p hs0 h.rate.1 h.rate.2 m hg] at hs
    rw [← Except.ok.inj hs]
    simp [hs0]
  · have e := hcv hs1
    rw [mdsss_ref p.band p.rm h.rate.1 h.rate.2 hb] at e
    rw [← Except.ok.inj e]
    simp [RefQ.psdu, hs1]

/-- The samples of every even chip sequence. -/
theorem samples_ref {p : OqpskParams} (h : Standard p) (chips : Bits) (hne : chips ≠ []) (he : chips.length % 2 = 0) :
    oqpskModulator p chips p.sps = .ok (RefQ.samples p.band p.sps chips, (RefQ.rate p.band (decide (p.sm = 1)) p.rm.toNat : ℚ) * p.sps) := by
  have hd : decide (p.sm ≠ 0) = decide (p.sm = 1) := by
    rcases h.mode with hs | ⟨hs, -⟩ <;> simp [hs]
  have hr := rate_ref h.rate.1 h.rate.2 h.mode
  rw [hd] at hr
  obtain ⟨iq, e, hl, hsam, hz⟩ := C60.C60_waveform p chips hne he p.sps h.sps _ hr
  rw [e]
  congr 2
  apply List.ext_getElem?
  intro k
  unfold RefQ.samples
  by_cases hk : k < chips.length / 2 * p.sps + p.sps - 1
  · rw [List.getElem?_map, List.getElem?_range hk]
    simp only [Option.map_some]
    by_cases hk2 : k < chips.length / 2 * p.sps
    · rw [if_pos hk2]
      have hq : k / p.sps < chips.length / 2 := (Nat.div_lt_iff_lt_mul h.sps).2 hk2
      have := hsam (k / p.sps) (k % p.sps) hq (Nat.mod_lt _ h.sps)
      rw [Nat.div_add_mod] at this
      exact this
    · rw [if_neg hk2]
      exact hz k (by omega) hk
  · rw [List.getElem?_eq_none (by omega), List.getElem?_eq_none (by simp; omega)]

theorem chips_size {p : OqpskParams} (h : Standard p) (m : Bits) (L : Nat) (hm : m.length = 8 * L) (h1 : 1 ≤ L) (h2 : L ≤ 2047)
    (hu : ¬ Unmodulable p L) : (RefQ.chips p.band (decide (p.sm = 1)) p.rm.toNat m).length = frameChips p.band (decide (p.sm = 1)) p.rm.toNat L := by
  obtain ⟨c, s, hf, -, -, -, hl⟩ := (frame_outcome h m L hm h1).2 h2 hu
  rw [frame_ref h m L hm h1 h2 hu] at hf
  rw [Except.ok.inj hf, hl]

/-- **C68 (bits).**  On every configuration with rate mode 0..3 and spreading mode 0 or (in the MDSSS bands) 1, whatever the object was used
for before, a bit message of 1 to 2047 octets is either refused with `ValueError` (an odd number of 63-bit blocks with four-bit spreading or
with MDSSS rate modes 0, 1) or gives exactly the samples and the sampling frequency of the reference transmitter. -/
theorem C68_reference (o : OqpskObj) (h : Standard o.params) (a : Arg) (m : Bits) (ha : checkBinaryArray a = .ok m) (L : Nat)
    (hm : m.length = 8 * L) (h1 : 1 ≤ L) (h2 : L ≤ 2047) :
    let q := o.params
    ((oqpskBitsToIQ a).call o).1 =
      (if blocks63 L % 2 = 1 ∧ (q.sm = 0 ∧ fourBitGroups q.band q.rm.toNat = true ∨ q.sm = 1 ∧ q.rm ≤ 1) then .error .ValueError
       else .ok (RefQ.samples q.band q.sps (RefQ.chips q.band (decide (q.sm = 1)) q.rm.toNat m),
         (RefQ.rate q.band (decide (q.sm = 1)) q.rm.toNat : ℚ) * q.sps)) := by
  intro q
  rw [(oqpskBitsToIQ_result a o).1]
  unfold oqpskBitsResult
  rw [ha]
  simp only
  by_cases hu : Unmodulable o.params L
  · unfold Unmodulable at hu
    rw [if_pos hu, (frame_outcome h m L hm h1).1 (Or.inr hu)]
  · have hu' := hu
    unfold Unmodulable at hu'
    rw [if_neg hu', frame_ref h m L hm h1 h2 hu]
    have hs := chips_size h m L hm h1 h2 hu
    have hpos := frame_pos o.params.band (decide (o.params.sm = 1)) o.params.rm.toNat L
    exact samples_ref h _ (by intro he; rw [he, List.length_nil] at hs; omega) (by rw [hs]; exact size_even _ _ _ _ (by have := h.rate; omega))

/-- **C68 (octets).**  The same for `bytesToIQ`: the message bits are those of the octets, least significant first. -/
theorem C68_bytes (o : OqpskObj) (h : Standard o.params) (a : Arg) (msg : List UInt8) (hd : C01.Denotes a msg) (h1 : 1 ≤ msg.length)
    (h2 : msg.length ≤ 2047) :
    let q := o.params
    ((oqpskBytesToIQ a).call o).1 =
      (if blocks63 msg.length % 2 = 1 ∧ (q.sm = 0 ∧ fourBitGroups q.band q.rm.toNat = true ∨ q.sm = 1 ∧ q.rm ≤ 1) then .error .ValueError
       else .ok (RefQ.samples q.band q.sps (RefQ.chips q.band (decide (q.sm = 1)) q.rm.toNat
           ((List.range (8 * msg.length)).map fun k => (msg.getD (k / 8) 0).toNat.testBit (k % 8))),
         (RefQ.rate q.band (decide (q.sm = 1)) q.rm.toNat : ℚ) * q.sps)) := by
  intro q
  have hn : msg ≠ [] := List.length_pos_iff.1 h1
  obtain ⟨m, e, hl, hb⟩ := C01.C01_lsb_first a msg hd hn
  have hm : m = (List.range (8 * msg.length)).map fun k => (msg.getD (k / 8) 0).toNat.testBit (k % 8) := by
    apply List.ext_getElem?
    intro k
    by_cases hk : k < 8 * msg.length
    · rw [List.getElem?_map, List.getElem?_range hk]
      have := C59.bits_of a msg hd h1 m e k hk
      rw [this]
      rfl
    · rw [List.getElem?_eq_none (by omega), List.getElem?_eq_none (by simp; omega)]
  have := C68_reference o h (bitsArg m) m (C03.C03_identity m (by rintro rfl; rw [List.length_nil] at hl; omega)) msg.length hl h1 h2
  simp only at this
  rw [← hm]
  rw [← this, (oqpskBytesToIQ_result a o).1, (oqpskBitsToIQ_result _ o).1]
  unfold oqpskBytesResult
  rw [e]

/-! Non-vacuity: an accepted and a refused case. -/
example : Standard ⟨.b868, 1, 0, 10⟩ ∧ blocks63 5 = 1 ∧ fourBitGroups .b868 1 = false ∧ fourBitGroups .b780 1 = true :=
  ⟨⟨by decide, by decide, by decide⟩, by decide, by decide, by decide⟩
example : (RefQ.shr .b868).take 40 = (RefQ.base 32) ++ (RefQ.base 32).take 8 := by decide +kernel
example : (RefQ.chips .b868 false 1 (List.replicate 40 true)).length = 48 * 32 + 60 * 8 + 504 + 32 := by decide +kernel

end SunPhy.C68
