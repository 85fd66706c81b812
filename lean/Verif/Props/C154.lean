import Verif.Spec.OfdmBlindSync
import Verif.Props.C127
import Verif.Props.C133
/-
C154 — MR-OFDM frames can be received by a receiver that is told nothing but the samples and the sampling frequency, over a channel, from anywhere.
-/
namespace SunPhy.C154
open SunPhy Spec Complex
noncomputable section

theorem tones_any {p : OfdmParams} (h : Supported p) (m : Bits) (h2 : m.length / 8 ≤ 2047) (r : List ℂ) (hc : C100.Tones p m r) :
    Rx.receiveAny (Ref.sampleRate p.option) r = some (p, m.take (8 * (m.length / 8))) := by
  unfold Rx.receiveAny
  simp only
  rw [C133.option_ok h, C133.interleaving_ok h m r hc, C100.receive_tones h m h2 r hc]
  rfl

theorem any_equalised {p : OfdmParams} (hS : Supported p) (m : Bits) (h2 : m.length / 8 ≤ 2047) (h r : List ℂ) (ε : ℝ) (hh : C120.Harmless p m.length h (Ref.frame p m) r ε) :
    Rx.receiveAnyEqualised (Ref.sampleRate p.option) r = some (p, m.take (8 * (m.length / 8))) := by
  unfold Rx.receiveAnyEqualised
  rw [C133.option_ok hS]
  exact tones_any hS m h2 _ (C120.equalised_tones hS m h r ε hh)

theorem anywhere_early {p : OfdmParams} (hS : Supported p) (m : Bits) (h2 : m.length / 8 ≤ 2047) (c : ℂ) (hc : c ≠ 0) (ε : ℝ) (hε : 0 ≤ ε)
    (hg : C120.ratio (bitsOf p.mcs) * ε ≤ ‖c‖) (z : Nat) (r : List ℂ)
    (hl : z + (Ref.frame p m).length ≤ r.length) (h0 : ∀ n < z, r.getD n 0 = 0)
    (hn : ∀ j, j + Ref.nfft p.option ≤ (Ref.frame p m).length → C124.noise (Ref.nfft p.option) c (Ref.frame p m) (fun n => r.getD (z + n) 0) j ≤ ε ^ 2) :
    Rx.receiveAnywhere (Ref.sampleRate p.option) r = some (p, m.take (8 * (m.length / 8))) := by
  obtain ⟨hf, hh⟩ := C124.early_found hS m c hc ε hε hg z r hl h0 hn
  unfold Rx.receiveAnywhere Rx.aligned
  rw [C133.option_ok hS, hf]
  simp only [Option.map_some, Option.bind_some]
  rw [if_pos (by omega), Nat.add_sub_cancel]
  exact any_equalised hS m h2 _ _ _ hh

theorem anywhere_late {p : OfdmParams} (hS : Supported p) (m : Bits) (h2 : m.length / 8 ≤ 2047) (c : ℂ) (hc : c ≠ 0) (ε : ℝ) (hε : 0 ≤ ε)
    (hg : C120.ratio (bitsOf p.mcs) * ε ≤ ‖c‖) (d : Nat) (hd : d ≤ 5 * Ref.nfft p.option) (r : List ℂ) (hl : (Ref.frame p m).length ≤ d + r.length)
    (hn : ∀ j, d ≤ j → j + Ref.nfft p.option ≤ (Ref.frame p m).length → C124.noise (Ref.nfft p.option) c (Ref.frame p m) (fun n => r.getD (n - d) 0) j ≤ ε ^ 2) :
    Rx.receiveAnywhere (Ref.sampleRate p.option) r = some (p, m.take (8 * (m.length / 8))) := by
  obtain ⟨hf, hh⟩ := C124.late_found hS m c hc ε hε hg d hd r hl hn
  unfold Rx.receiveAnywhere Rx.aligned
  rw [C133.option_ok hS, hf]
  simp only [Option.map_some, Option.bind_some]
  by_cases h : d = 0
  · subst h
    rw [if_pos (by omega), Nat.sub_zero, Nat.sub_self, List.drop_zero]
    simpa using any_equalised hS m h2 _ _ _ hh
  · rw [if_neg (by omega), show 5 * Ref.nfft p.option - (5 * Ref.nfft p.option - d) = d by omega]
    exact any_equalised hS m h2 _ _ _ hh

/-- What `bitsToIQ` returned is the reference frame at the reference sampling frequency. -/
theorem of_bits (o : OfdmObj) (hS : Supported o.params) (a : Arg) (m : Bits) (ha : checkBinaryArray a = .ok m) (iq : List ℂ) (fs : ℚ)
    (hok : ((ofdmModBitsToIQ a).call o).1 = .ok (iq, fs)) : m.length / 8 ≤ 2047 ∧ Ref.frame o.params m = iq ∧ Ref.sampleRate o.params.option = fs := by
  have k := (C15.C15_bitsToIQ o hS a m ha).1.1 ⟨_, hok⟩
  obtain ⟨_, e, -⟩ := C67.C67_reference o hS a m ha k.1 k.2
  rw [e] at hok
  exact ⟨k.2, congrArg Prod.fst (Except.ok.inj hok), congrArg Prod.snd (Except.ok.inj hok)⟩

/-- **C154 (multipath).**  The receiver knows where the frame starts, and the sampling frequency, but neither the configuration nor the channel: it recovers the four settings of
the modulator and the complete octets of the message under the conditions of C120. -/
theorem C154_multipath (o : OfdmObj) (hS : Supported o.params) (a : Arg) (m : Bits) (ha : checkBinaryArray a = .ok m) (iq : List ℂ) (fs : ℚ)
    (hok : ((ofdmModBitsToIQ a).call o).1 = .ok (iq, fs)) (h r : List ℂ) (ε : ℝ) (hh : C120.Harmless o.params m.length h iq r ε) :
    Rx.receiveAnyEqualised fs r = some (o.params, m.take (8 * (m.length / 8))) := by
  obtain ⟨k, rfl, rfl⟩ := of_bits o hS a m ha iq fs hok
  exact any_equalised hS m k h r ε hh

/-- **C154 (before the frame).**  The frame arrives after `z` silent samples, multiplied by any complex number `c ≠ 0`, with noise within the bound of C124; the receiver knows none of
this and none of the four settings. -/
theorem C154_early (o : OfdmObj) (hS : Supported o.params) (a : Arg) (m : Bits) (ha : checkBinaryArray a = .ok m) (iq : List ℂ) (fs : ℚ)
    (hok : ((ofdmModBitsToIQ a).call o).1 = .ok (iq, fs)) (c : ℂ) (hc : c ≠ 0) (ε : ℝ) (hε : 0 ≤ ε) (hg : C120.ratio (bitsOf o.params.mcs) * ε ≤ ‖c‖) (z : Nat) (r : List ℂ)
    (hl : z + iq.length ≤ r.length) (h0 : ∀ n < z, r.getD n 0 = 0)
    (hn : ∀ j, j + Ref.nfft o.params.option ≤ iq.length → C124.noise (Ref.nfft o.params.option) c iq (fun n => r.getD (z + n) 0) j ≤ ε ^ 2) :
    Rx.receiveAnywhere fs r = some (o.params, m.take (8 * (m.length / 8))) := by
  obtain ⟨k, rfl, rfl⟩ := of_bits o hS a m ha iq fs hok
  exact anywhere_early hS m k c hc ε hε hg z r hl h0 hn

/-- **C154 (during the short training field).**  The receiver starts `d` samples after the frame has started. -/
theorem C154_late (o : OfdmObj) (hS : Supported o.params) (a : Arg) (m : Bits) (ha : checkBinaryArray a = .ok m) (iq : List ℂ) (fs : ℚ)
    (hok : ((ofdmModBitsToIQ a).call o).1 = .ok (iq, fs)) (c : ℂ) (hc : c ≠ 0) (ε : ℝ) (hε : 0 ≤ ε) (hg : C120.ratio (bitsOf o.params.mcs) * ε ≤ ‖c‖) (d : Nat)
    (hd : d ≤ 5 * Ref.nfft o.params.option) (r : List ℂ) (hl : iq.length ≤ d + r.length)
    (hn : ∀ j, d ≤ j → j + Ref.nfft o.params.option ≤ iq.length → C124.noise (Ref.nfft o.params.option) c iq (fun n => r.getD (n - d) 0) j ≤ ε ^ 2) :
    Rx.receiveAnywhere fs r = some (o.params, m.take (8 * (m.length / 8))) := by
  obtain ⟨k, rfl, rfl⟩ := of_bits o hS a m ha iq fs hok
  exact anywhere_late hS m k c hc ε hε hg d hd r hl hn

/-- **C154 (oscillator).**  The receiver starts during the short training field, its oscillator differs by `ω` per sample (less than half a turn per short training symbol), and there is noise
within the bound of C127. -/
theorem C154_oscillator (o : OfdmObj) (hS : Supported o.params) (a : Arg) (m : Bits) (ha : checkBinaryArray a = .ok m) (iq : List ℂ) (fs : ℚ)
    (hok : ((ofdmModBitsToIQ a).call o).1 = .ok (iq, fs)) (c : ℂ) (hc : c ≠ 0) (ω ε : ℝ) (hε : 0 ≤ ε) (hL : 70 * iq.length * ε ≤ Ref.nfft o.params.option * ‖c‖)
    (hω : |ω| * Rx.shortLength o.params.option ≤ 31 / 10 ∨ ε = 0 ∧ |ω| * Rx.shortLength o.params.option < Real.pi) (d : Nat) (hd : d ≤ 2 * Ref.nfft o.params.option)
    (r : List ℂ) (hl : iq.length ≤ d + r.length)
    (hn : ∀ s, d + s + Ref.nfft o.params.option ≤ iq.length → C127.noise (Ref.nfft o.params.option) ω c d iq r s ≤ ε ^ 2) :
    Rx.receiveAnyhow fs r = some (o.params, m.take (8 * (m.length / 8))) := by
  obtain ⟨k, rfl, rfl⟩ := of_bits o hS a m ha iq fs hok
  obtain ⟨δ, h0, h1, h2⟩ := C127.tuned_noise hS m c hc ω ε hε hL hω d hd r hn
  unfold Rx.receiveAnyhow
  rw [C133.option_ok hS]
  exact anywhere_late hS m k c hc δ h0 h1 d (by omega) _ (by simpa [Rx.tunedCoarse] using hl) h2

/-- **C154 (octets, without noise).**  For octet messages: any silence before the frame, any start before the end of the short training field, any complex factor but 0, anything after the frame. -/
theorem C154_octets (o : OfdmObj) (hS : Supported o.params) (a : Arg) (msg : List UInt8) (ha : C01.Denotes a msg) (h0 : msg ≠ []) (iq : List ℂ) (fs : ℚ)
    (hok : ((ofdmModBytesToIQ a).call o).1 = .ok (iq, fs)) (c : ℂ) (hc : c ≠ 0) (after : List ℂ) :
    (∀ z, ∃ b, Rx.receiveAnywhere fs (List.replicate z 0 ++ iq.map (c * ·) ++ after) = some (o.params, b) ∧ Rx.octets b = msg) ∧
    (∀ d ≤ 5 * Ref.nfft o.params.option, ∃ b, Rx.receiveAnywhere fs ((iq.map (c * ·)).drop d ++ after) = some (o.params, b) ∧ Rx.octets b = msg) := by
  obtain ⟨b, hb, hbl, l2, hf⟩ := C100.bytes_frame o a msg iq fs hS ha h0 hok
  have h1 : 1 ≤ msg.length := List.length_pos_of_ne_nil h0
  obtain ⟨_, e, -⟩ := C67.C67_bytes o hS a b hb (by omega) (by omega)
  rw [e] at hok
  have hfs : Ref.sampleRate o.params.option = fs := congrArg Prod.snd (Except.ok.inj hok)
  subst hf hfs
  have htake : b.take (8 * (b.length / 8)) = b := List.take_of_length_le (by omega)
  have hm : ∀ n, ((Ref.frame o.params b).map (c * ·)).getD n 0 = c * (Ref.frame o.params b).getD n 0 := fun n => by
    rw [List.getD_eq_getElem?_getD, List.getD_eq_getElem?_getD, List.getElem?_map]
    cases (Ref.frame o.params b)[n]? <;> simp
  have hratio : C120.ratio (bitsOf o.params.mcs) * 0 ≤ ‖c‖ := by rw [mul_zero]; exact norm_nonneg _
  constructor
  · intro z
    refine ⟨b, ?_, C100.octets_ok a msg ha h0 b hb⟩
    have := anywhere_early hS b (by omega) c hc 0 le_rfl hratio z (List.replicate z 0 ++ (Ref.frame o.params b).map (c * ·) ++ after) (by simp) (fun n hn => ?_) fun j hj => ?_
    · rw [htake] at this; exact this
    · rw [List.append_assoc, List.getD_eq_getElem?_getD, List.getElem?_append_left (by simpa using hn), List.getElem?_replicate, if_pos hn]; rfl
    · unfold C124.noise
      rw [Finset.sum_eq_zero]
      · norm_num
      · intro k hk
        have hk := Finset.mem_range.1 hk
        have e2 : (List.replicate z 0 ++ (Ref.frame o.params b).map (c * ·) ++ after).getD (z + (j + k)) 0 = c * (Ref.frame o.params b).getD (j + k) 0 := by
          rw [← hm, List.append_assoc, List.getD_eq_getElem?_getD, List.getElem?_append_right (by simp), List.length_replicate, Nat.add_sub_cancel_left,
            List.getElem?_append_left (by rw [List.length_map]; omega), ← List.getD_eq_getElem?_getD]
        simp only [e2, sub_self, norm_zero]
        norm_num
  · intro d hd
    refine ⟨b, ?_, C100.octets_ok a msg ha h0 b hb⟩
    have := anywhere_late hS b (by omega) c hc 0 le_rfl hratio d hd (((Ref.frame o.params b).map (c * ·)).drop d ++ after) (by simp; omega) fun j hdj hj => ?_
    · rw [htake] at this; exact this
    · unfold C124.noise
      rw [Finset.sum_eq_zero]
      · norm_num
      · intro k hk
        have hk := Finset.mem_range.1 hk
        have e2 : (((Ref.frame o.params b).map (c * ·)).drop d ++ after).getD (j + k - d) 0 = c * (Ref.frame o.params b).getD (j + k) 0 := by
          rw [← hm, List.getD_eq_getElem?_getD, List.getElem?_append_left (by rw [List.length_drop, List.length_map]; omega), List.getElem?_drop,
            show d + (j + k - d) = j + k by omega, ← List.getD_eq_getElem?_getD]
        simp only [e2, sub_self, norm_zero]
        norm_num

/-! Non-vacuity: in every supported configuration a message of one octet is modulated, and its frame is received after a quarter turn at a thousandth of its strength, after seven silent
samples, by a receiver that is told only the sampling frequency. -/
example : ∀ p, Supported p → ∀ x : UInt8, ∃ iq fs, ((ofdmModBytesToIQ (.bytes [x])).call { params := p }).1 = .ok (iq, fs) ∧
    ∃ b, Rx.receiveAnywhere fs (List.replicate 7 0 ++ iq.map (I / 1000 * ·) ++ []) = some (p, b) ∧ Rx.octets b = [x] := by
  intro p hp x
  have r := (bytesToIQ_result (o := { params := p }) hp (.bytes [x])).1
  obtain ⟨_, -, -, e⟩ := ofdmBytesResult_octets p (a := .bytes [x]) (msg := [x]) rfl (by simp)
  rw [if_pos (by simp)] at e
  exact ⟨_, _, r.trans e, (C154_octets { params := p } hp (.bytes [x]) [x] rfl (by simp) _ _ (r.trans e) (I / 1000) (div_ne_zero I_ne_zero (by norm_num)) []).1 7⟩

end
end SunPhy.C154
