import Verif.Proofs.HeaderParity
import Verif.Props.C100
/-
C133: a signal of an MR-OFDM modulator, together with its sampling frequency, determines the whole configuration of the modulator and the message.
-/
namespace SunPhy.C133
open SunPhy Spec Complex HeaderParity
noncomputable section

/-! ### The header as masks -/

/-- The values of the masks' variables. -/
def vals (x : Bits) (i : Nat) : Bool := if i < 22 then x.getD i false else true

theorem ev_one (x : Bits) : ev (vals x) one = true := ev_pow _ (by decide)

theorem info_ev (mcs n s : Nat) : Ref.headerInfo mcs n s = info.map (ev (vals (Ref.headerInfo mcs n s))) := by
  have hl := C98.info_length mcs n s
  have hz : ∀ i, i = 5 ∨ i = 17 ∨ i = 18 ∨ i = 21 → (Ref.headerInfo mcs n s).getD i false = false := by
    rintro i (rfl | rfl | rfl | rfl) <;> simp [Ref.headerInfo, Ref.field, List.range_succ_eq_map]
  generalize Ref.headerInfo mcs n s = x at *
  unfold info
  rw [List.map_map]
  refine range_map_ext hl _ fun i hi => ?_
  have hi : i < 22 := by omega
  have hg : x[i]? = some (x.getD i false) := by rw [List.getD_eq_getElem?_getD, List.getElem?_eq_getElem (by omega)]; rfl
  rw [hg]
  congr 1
  simp only [Function.comp_apply]
  split
  · next h => rw [ev_zero, hz i h]
  · rw [ev_pow _ (by omega)]
    unfold vals
    rw [if_pos hi]

theorem bit_ev {p : OfdmParams} (h : Supported p) (n i : Nat)
    (hi : i < Ref.headerTable p.interleaving p.option * Ref.symbolBits p.option (Ref.headerMcs p.option))
    (hs : at' p.option p.interleaving i < Ref.headerTable p.interleaving p.option * Ref.symbolBits p.option (Ref.headerMcs p.option)) :
    (Ref.headerStream p n).getD i false =
      ev (vals (Ref.headerInfo p.mcs n p.scrambler)) (code (info ++ crc info) (at' p.option p.interleaving i)) := by
  obtain ⟨-, -, -, hd, hd0, h36, h2, -⟩ := C98.hdr_facts p (mem_allSupported h)
  have hb := C98.base_length h n
  rw [C98.stream_base h n i hi]
  have hcl : (Ref.conv (C98.base p n)).length = Ref.headerTable p.interleaving p.option * Ref.symbolBits p.option (Ref.headerMcs p.option) := by
    rw [C98.conv_length, hb]
  unfold C98.baseStream Ref.interleave
  rw [List.getD_eq_getElem?_getD, List.getElem?_map, List.getElem?_range (by rw [hcl]; exact hi)]
  simp only [Option.map_some, Option.getD_some]
  rw [if_pos (C100.block_le hd0 (by rw [hcl]; exact hd) (by rw [hcl]; exact hi))]
  change (Ref.conv (C98.base p n)).getD (at' p.option p.interleaving i) false = _
  generalize at' p.option p.interleaving i = q at *
  rw [C100.conv_getD _ _ (by rw [hb]; omega)]
  have hx : Ref.headerInfo p.mcs n p.scrambler ++ Ref.crc8 (Ref.headerInfo p.mcs n p.scrambler) =
      (info ++ crc info).map (ev (vals (Ref.headerInfo p.mcs n p.scrambler))) := by
    rw [List.map_append, ← crc_ev _ (ev_one _), ← info_ev]
  unfold C98.base code
  rw [taps_zeros, taps_zeros, hx, taps_ev, taps_ev]
  split <;> rfl

theorem places : ∀ p ∈ allSupported, p.option ∈ [1, 2, 3, 4] ∧ p.interleaving ∈ [0, 1] ∧ ∀ i ∈ Rx.telltale p.option,
    i < Ref.headerTable p.interleaving p.option * Ref.symbolBits p.option (Ref.headerMcs p.option) ∧
    at' p.option p.interleaving i < Ref.headerTable p.interleaving p.option * Ref.symbolBits p.option (Ref.headerMcs p.option) := by decide +kernel

theorem parity {p : OfdmParams} (h : Supported p) (n : Nat) :
    ((Rx.telltale p.option).map fun i => (Ref.headerStream p n).getD i false).foldr xor false = decide ((p.option = 1) = (p.interleaving = 0)) := by
  obtain ⟨ho, hi, hp⟩ := places p (mem_allSupported h)
  have e : ((Rx.telltale p.option).map fun i => (Ref.headerStream p n).getD i false) =
      ((Rx.telltale p.option).map fun i => code (info ++ crc info) (at' p.option p.interleaving i)).map (ev (vals (Ref.headerInfo p.mcs n p.scrambler))) := by
    rw [List.map_map]
    exact List.map_congr_left fun i hi => bit_ev h n i (hp i hi).1 (hp i hi).2
  rw [e, ← ev_fold, masks _ ho _ hi]
  split
  · rw [ev_one]; simp [*]
  · rw [ev_zero]; simp [*]

theorem interleaving_ok {p : OfdmParams} (h : Supported p) (m : Bits) (r : List ℂ) (hc : C100.Tones p m r) : Rx.interleavingOf p.option r = p.interleaving := by
  obtain ⟨ho, hi, hp⟩ := places p (mem_allSupported h)
  have e : ((Rx.telltale p.option).map (Rx.codedBit p.option (Ref.headerMcs p.option) r 0)) =
      (Rx.telltale p.option).map fun i => (Ref.headerStream p (m.length / 8)).getD i false :=
    List.map_congr_left fun i hi => C100.header_coded h m r hc i (hp i hi).1
  unfold Rx.interleavingOf
  simp only
  rw [e, parity h]
  simp only [List.mem_cons, List.not_mem_nil, or_false] at hi
  rcases hi with hi | hi <;> rw [hi] <;> by_cases h1 : p.option = 1 <;> simp [h1]

theorem option_ok {p : OfdmParams} (h : Supported p) : Rx.optionOf (Ref.sampleRate p.option) = p.option := by
  obtain ⟨ho, -⟩ := places p (mem_allSupported h)
  simp only [List.mem_cons, List.not_mem_nil, or_false] at ho
  rcases ho with ho | ho | ho | ho <;> rw [ho] <;> norm_num [Rx.optionOf, Ref.sampleRate, Ref.nfft]

theorem any_ok {p : OfdmParams} (h : Supported p) (m : Bits) (h2 : m.length / 8 ≤ 2047) (r : List ℂ) (hc : C100.Close p m r) :
    Rx.receiveAny (Ref.sampleRate p.option) r = some (p, m.take (8 * (m.length / 8))) := by
  unfold Rx.receiveAny
  simp only
  rw [option_ok h, interleaving_ok h m r fun n hn t ht => C100.tone_close h m r hc n hn t ht, C100.receive_ok h m h2 r hc]
  rfl

/-- **C133 (octets, with noise).**  A receiver that is given nothing but the samples and the sampling frequency recovers MCS, option, interleaving, scrambler and the octets of the message
from every frame that `bytesToIQ` returns, and from every signal `r` that differs from it, in the useful part of every symbol, by noise of energy less than 1 (BPSK), 1/2 (QPSK) or
1/10 (16-QAM). -/
theorem C133_octets (o : OfdmObj) (h : Supported o.params) (a : Arg) (msg : List UInt8) (ha : C01.Denotes a msg) (h0 : msg ≠ []) (iq : List ℂ) (fs : ℚ)
    (hr : ((ofdmModBytesToIQ a).call o).1 = .ok (iq, fs)) (r : List ℂ) (hl : iq.length ≤ r.length)
    (hn : ∀ n < Ref.symbolCount o.params (8 * msg.length), C100.NoiseBelow r iq (Rx.symbolStart (Ref.nfft o.params.option) n) (Ref.nfft o.params.option)
      (C100.margin (bitsOf (C91.schemeOf o.params n)))) :
    ∃ b, Rx.receiveAny fs r = some (o.params, b) ∧ Rx.octets b = msg := by
  obtain ⟨b, hb, hbl, l2, hf⟩ := C100.bytes_frame o a msg iq fs h ha h0 hr
  have h1 : 1 ≤ msg.length := List.length_pos_of_ne_nil h0
  obtain ⟨_, e, -⟩ := C67.C67_bytes o h a b hb (by omega) (by omega)
  rw [e] at hr
  have hfs : Ref.sampleRate o.params.option = fs := congrArg Prod.snd (Except.ok.inj hr)
  subst hf hfs
  refine ⟨b, ?_, C100.octets_ok a msg ha h0 b hb⟩
  have hcl : C100.Close o.params b r := by
    refine ⟨hl, fun n hh => ?_⟩
    have := hn n (by rw [← hbl]; exact hh)
    unfold C100.NoiseBelow at this
    unfold Rx.useful
    exact this
  have := any_ok h b (by omega) r hcl
  rw [List.take_of_length_le (show b.length ≤ 8 * (b.length / 8) by omega)] at this
  exact this

/-- **C133 (octets).**  The same without noise. -/
theorem C133_clean (o : OfdmObj) (h : Supported o.params) (a : Arg) (msg : List UInt8) (ha : C01.Denotes a msg) (h0 : msg ≠ []) (iq : List ℂ) (fs : ℚ)
    (hr : ((ofdmModBytesToIQ a).call o).1 = .ok (iq, fs)) : ∃ b, Rx.receiveAny fs iq = some (o.params, b) ∧ Rx.octets b = msg :=
  C133_octets o h a msg ha h0 iq fs hr iq le_rfl fun n _ => by unfold C100.NoiseBelow; rw [distSq_self]; exact C100.margin_pos _

/-- **C133 (bits).**  The same for `bitsToIQ`: the complete octets of the message are recovered. -/
theorem C133_bits (o : OfdmObj) (h : Supported o.params) (a : Arg) (m : Bits) (ha : checkBinaryArray a = .ok m) (iq : List ℂ) (fs : ℚ)
    (hr : ((ofdmModBitsToIQ a).call o).1 = .ok (iq, fs)) : Rx.receiveAny fs iq = some (o.params, m.take (8 * (m.length / 8))) := by
  have k := (C15.C15_bitsToIQ o h a m ha).1.1 ⟨_, hr⟩
  obtain ⟨_, e, -⟩ := C67.C67_reference o h a m ha k.1 k.2
  rw [e] at hr
  have r1 : Ref.frame o.params m = iq := congrArg Prod.fst (Except.ok.inj hr)
  have r2 : Ref.sampleRate o.params.option = fs := congrArg Prod.snd (Except.ok.inj hr)
  subst r1 r2
  exact any_ok h m k.2 _ (C100.close_self _ _)

/-- **C133 (uniqueness).**  Two modulators, of whatever configurations, that return the same signal and sampling frequency have the same configuration and were given the same octets. -/
theorem C133_unique (o o' : OfdmObj) (h : Supported o.params) (h' : Supported o'.params) (a a' : Arg) (msg msg' : List UInt8) (ha : C01.Denotes a msg) (ha' : C01.Denotes a' msg')
    (h0 : msg ≠ []) (h0' : msg' ≠ []) (r : List ℂ × ℚ) (hr : ((ofdmModBytesToIQ a).call o).1 = .ok r) (hr' : ((ofdmModBytesToIQ a').call o').1 = .ok r) :
    o.params = o'.params ∧ msg = msg' := by
  obtain ⟨b, e, hb⟩ := C133_clean o h a msg ha h0 r.1 r.2 hr
  obtain ⟨b', e', hb'⟩ := C133_clean o' h' a' msg' ha' h0' r.1 r.2 hr'
  have k := Option.some.inj (e.symm.trans e')
  have k1 : o.params = o'.params := congrArg Prod.fst k
  have k2 : b = b' := congrArg Prod.snd k
  exact ⟨k1, by rw [← hb, ← hb', k2]⟩

/-! Non-vacuity: every supported configuration accepts messages (C100); the tell-tale parity of the two interleaving settings differs. -/
example : Supported ⟨6, 3, 1, 2⟩ ∧ Supported ⟨6, 3, 0, 2⟩ ∧ C01.Denotes (.bytes [0x12, 0xFF]) [0x12, 0xFF] ∧
    ∀ p, Supported p → ∀ b : UInt8, ∃ r, ((ofdmModBytesToIQ (.bytes [b])).call { params := p }).1 = .ok r := by
  refine ⟨⟨by decide, by decide, by decide⟩, ⟨by decide, by decide, by decide⟩, rfl, fun p hp b => ?_⟩
  have r := (bytesToIQ_result (o := { params := p }) hp (.bytes [b])).1
  obtain ⟨_, -, -, e⟩ := ofdmBytesResult_octets p (a := .bytes [b]) (msg := [b]) rfl (by simp)
  rw [if_pos (by simp)] at e
  exact ⟨_, r.trans e⟩

end
end SunPhy.C133
