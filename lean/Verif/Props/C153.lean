import Verif.Props.C28
import Verif.Props.C96
import Verif.Props.C107
import Verif.Props.C15IQ
/-
C153 — how many samples a frame takes: it depends on the size of the message only, and how long the longest frames are.
-/
namespace SunPhy.C153
open SunPhy Spec

/-! ### Tables -/

/-- Samples of the longest MR-OFDM frame, options 1 to 4. -/
def longestOfdm : Nat → Nat | 1 => 220480 | 2 => 219680 | 3 => 109760 | 4 => 54880 | _ => 0

/-- Symbols of 120 µs of the longest MR-OFDM frame, options 1 to 4. -/
def longestOfdmSymbols : Nat → Nat | 1 => 1378 | 2 => 2746 | 3 => 2744 | 4 => 2744 | _ => 0

/-- MR-FSK symbols of a frame of `L` octets: preamble and delimiter, then 16 header bits and the octets, or with FEC 32 coded bits for each started pair
of octets and two more. -/
def fskSymbols (p : FskParams) (L : Nat) : Nat :=
  8 * p.preambleLength + 16 + (if p.fecEnabled then 32 * (L / 2 + 2) else 16 + 8 * L) / RefF.width p.modulation

/-- MR-FSK symbols of the longest frame of a bit message. -/
def longestFsk (p : FskParams) : Nat := 8 * p.preambleLength + 16 + (if p.fecEnabled then 32814 else 16399) / RefF.width p.modulation

/-- Chips of the longest MR-O-QPSK frame: of 2047 octets, and of any bit message. -/
def longestOqpsk : Band → Nat × Nat
  | .b470 | .b868 | .b920 | .b950 => (281552, 281696)
  | .b780 | .b915 | .b917 => (564640, 564928)
  | .b2450 => (1128320, 1128896)

/-- Chips of every MDSSS frame, whatever the message. -/
def mdsssChips (b : Band) (rm : Nat) : Nat :=
  match b, rm with
  | .b2450, 0 => 10432 | .b2450, 3 => 10336 | .b2450, _ => 10368
  | _, 0 => 5696 | _, 3 => 5648 | _, _ => 5664

/-! ### MR-OFDM -/

theorem ofdm_size {o : OfdmObj} (h : Supported o.params) {a : Arg} {m : Bits} (ha : checkBinaryArray a = .ok m) {iq : List ℂ} {fs : ℚ}
    (hr : ((ofdmModBitsToIQ a).call o).1 = .ok (iq, fs)) :
    1 ≤ m.length / 8 ∧ m.length / 8 ≤ 2047 ∧
    iq.length = 5 * fftSize o.params.option + 5 * fftSize o.params.option / 2 +
        5 * fftSize o.params.option / 4 * (C28.headerCount o.params + C28.payloadCount o.params m.length) ∧
    0 < fs ∧ (iq.length : ℚ) / fs = (120 / 1000000) * (6 + C28.headerCount o.params + C28.payloadCount o.params m.length) := by
  have k := (C15.C15_bitsToIQ o h a m ha).1.1 ⟨_, hr⟩
  obtain ⟨iq1, fs1, o1, e1, l1, -⟩ := C28.C28_size o h a m ha k.1 k.2
  obtain ⟨iq2, fs2, o2, e2, p2, l2⟩ := C28.C28_duration o h a m ha k.1 k.2
  rw [e1] at hr
  have r1 := Except.ok.inj hr
  rw [e1] at e2
  have r2 := Except.ok.inj (congrArg Prod.fst e2)
  rw [r1] at r2
  have q1 := congrArg Prod.fst r1
  have q2 := congrArg Prod.fst r2
  have q3 := congrArg Prod.snd r2
  simp only at q1 q2 q3
  subst q1 q2 q3
  exact ⟨k.1, k.2, l1, p2, l2⟩

theorem payload_mono (p : OfdmParams) {n n' : Nat} (h : n ≤ n') : C28.payloadCount p n ≤ C28.payloadCount p n' := by
  unfold C28.payloadCount
  exact Nat.mul_le_mul_left _ (Nat.div_le_div_right (by omega))

theorem ofdm_table : ∀ p ∈ allSupported,
    5 * fftSize p.option + 5 * fftSize p.option / 2 + 5 * fftSize p.option / 4 * (C28.headerCount p + C28.payloadCount p 16383) ≤ longestOfdm p.option ∧
    6 + C28.headerCount p + C28.payloadCount p 16383 ≤ longestOfdmSymbols p.option := by
  decide +kernel

/-- **C153 (MR-OFDM).**  The number of samples and the duration of a frame depend only on the configuration and the number of bits of the message; more bits
never give fewer samples; and there are never more samples, and the frame lasts never longer, than the tables say. -/
theorem C153_ofdm (o : OfdmObj) (h : Supported o.params) (a : Arg) (m : Bits) (ha : checkBinaryArray a = .ok m) (iq : List ℂ) (fs : ℚ)
    (hr : ((ofdmModBitsToIQ a).call o).1 = .ok (iq, fs)) :
    iq.length ≤ longestOfdm o.params.option ∧ (iq.length : ℚ) / fs ≤ longestOfdmSymbols o.params.option * (120 / 1000000) ∧
    ∀ (o' : OfdmObj) (a' : Arg) (m' : Bits) (iq' : List ℂ) (fs' : ℚ), o'.params = o.params → checkBinaryArray a' = .ok m' →
      ((ofdmModBitsToIQ a').call o').1 = .ok (iq', fs') → m.length ≤ m'.length → iq.length ≤ iq'.length ∧ (m.length = m'.length → iq.length = iq'.length) := by
  obtain ⟨k1, k2, l, hf, hd⟩ := ofdm_size h ha hr
  obtain ⟨t1, t2⟩ := ofdm_table _ (mem_allSupported h)
  have hp := payload_mono o.params (show m.length ≤ 16383 by omega)
  refine ⟨?_, ?_, ?_⟩
  · rw [l]
    refine le_trans ?_ t1
    gcongr
  · rw [hd, mul_comm]
    have : 6 + C28.headerCount o.params + C28.payloadCount o.params m.length ≤ longestOfdmSymbols o.params.option := by omega
    have : ((6 + C28.headerCount o.params + C28.payloadCount o.params m.length : Nat) : ℚ) ≤ longestOfdmSymbols o.params.option := by exact_mod_cast this
    push_cast at this
    linarith
  · intro o' a' m' iq' fs' hp' ha' hr' hl
    obtain ⟨-, -, l', -, -⟩ := ofdm_size (by rw [hp']; exact h) ha' hr'
    rw [l, l', hp']
    refine ⟨?_, fun e => by rw [e]⟩
    have := payload_mono o.params hl
    gcongr

/-- **C153 (MR-OFDM, attained).**  In every option there is a configuration in which every message of 2047 octets is as long as the table says. -/
theorem C153_ofdm_attained (opt : Nat) (hopt : opt ∈ [1, 2, 3, 4]) :
    ∃ p, Supported p ∧ p.option = opt ∧ ∀ (o : OfdmObj) (a : Arg) (m : Bits), o.params = p → checkBinaryArray a = .ok m → m.length = 8 * 2047 →
      ∃ iq fs, ((ofdmModBitsToIQ a).call o).1 = .ok (iq, fs) ∧ iq.length = longestOfdm opt ∧ (iq.length : ℚ) / fs = longestOfdmSymbols opt * (120 / 1000000) := by
  have key : ∀ opt ∈ [1, 2, 3, 4], ∃ p : OfdmParams, (p ∈ allSupported ∧ Supported p) ∧ p.option = opt ∧
      5 * fftSize p.option + 5 * fftSize p.option / 2 + 5 * fftSize p.option / 4 * (C28.headerCount p + C28.payloadCount p 16376) = longestOfdm p.option ∧
      6 + C28.headerCount p + C28.payloadCount p 16376 = longestOfdmSymbols p.option := by
    intro opt hopt
    refine ⟨⟨opt - 2, opt, 1, 0⟩, ?_⟩
    simp only [List.mem_cons, List.not_mem_nil, or_false] at hopt
    rcases hopt with rfl | rfl | rfl | rfl <;>
      exact ⟨⟨mem_allSupported ⟨by decide, by decide, by decide⟩, ⟨by decide, by decide, by decide⟩⟩, rfl, by decide +kernel, by decide +kernel⟩
  obtain ⟨p, ⟨-, hS⟩, ho, t1, t2⟩ := key opt hopt
  refine ⟨p, hS, ho, fun o a m hop ha hm => ?_⟩
  obtain ⟨⟨iq, fs⟩, hr⟩ := (C15.C15_bitsToIQ o (hop ▸ hS) a m ha).1.2 (by omega)
  obtain ⟨-, -, l, -, hd⟩ := ofdm_size (hop ▸ hS) ha hr
  refine ⟨iq, fs, hr, ?_, ?_⟩
  · rw [l, hop, hm, t1, ho]
  · rw [hd, hop, hm, ← ho, ← t2]
    push_cast
    ring

/-! ### MR-FSK -/

theorem fsk_size {o : FskObj} (hr : 1 ≤ o.params.symbolRate) {a : Arg} {m : Bits} (ha : checkBinaryArray a = .ok m) {iq : List ℂ} {fs : ℚ}
    (hok : ((fskBitsToIQ id a).call o).1 = .ok (iq, fs)) :
    m.length / 8 ≤ 2047 ∧ iq.length = 20 * (8 * o.params.preambleLength + 16 +
      (if o.params.fecEnabled then 2 * (16 + m.length + 3 + if m.length / 8 % 2 = 0 then 13 else 5) else 16 + m.length) / RefF.width o.params.modulation) := by
  obtain ⟨r1, r2⟩ := C69.C69_reference o hr a m ha
  by_cases hR : C69.Refused o.params m
  · rw [r1 hR] at hok; cases hok
  · rw [r2 hR] at hok
    have e := congrArg Prod.fst (Except.ok.inj hok)
    simp only at e
    refine ⟨?_, ?_⟩
    · unfold C69.Refused at hR
      omega
    · rw [← e]
      unfold RefF.samples
      rw [List.length_map, List.length_range, C107.bits_length, C69.body_length]
      unfold C107.syncBits
      rw [Nat.mul_comm _ (RefF.width _), Nat.mul_add_div (by cases o.params.modulation <;> decide)]

/-- **C153 (MR-FSK).**  The number of samples depends only on the configuration and the number of bits of the message, and for whole octets it is 20 for
each symbol that `fskSymbols` counts, so more octets never give fewer samples; no message gives more than `longestFsk` symbols. -/
theorem C153_fsk (o : FskObj) (hr : 1 ≤ o.params.symbolRate) (a : Arg) (m : Bits) (ha : checkBinaryArray a = .ok m) (iq : List ℂ) (fs : ℚ)
    (hok : ((fskBitsToIQ id a).call o).1 = .ok (iq, fs)) :
    iq.length ≤ 20 * longestFsk o.params ∧
    (∀ L, m.length = 8 * L → iq.length = 20 * fskSymbols o.params L) ∧
    (∀ L L', L ≤ L' → fskSymbols o.params L ≤ fskSymbols o.params L') ∧
    ∀ (o' : FskObj) (a' : Arg) (m' : Bits) (iq' : List ℂ) (fs' : ℚ), o'.params = o.params → checkBinaryArray a' = .ok m' →
      ((fskBitsToIQ id a').call o').1 = .ok (iq', fs') → m.length = m'.length → iq.length = iq'.length := by
  obtain ⟨k, l⟩ := fsk_size hr ha hok
  refine ⟨?_, ?_, ?_, ?_⟩
  · rw [l]
    unfold longestFsk
    refine Nat.mul_le_mul_left _ (Nat.add_le_add_left (Nat.div_le_div_right ?_) _)
    split
    · split <;> omega
    · omega
  · intro L hL
    rw [l, hL]
    unfold fskSymbols
    rw [show 8 * L / 8 = L by omega]
    congr 3
    split
    · split <;> omega
    · rfl
  · intro L L' hL
    unfold fskSymbols
    refine Nat.add_le_add_left (Nat.div_le_div_right ?_) _
    split <;> omega
  · intro o' a' m' iq' fs' hp ha' hok' hl
    obtain ⟨-, l'⟩ := fsk_size (by rw [hp]; exact hr) ha' hok'
    rw [l, l', hp, hl]

/-- **C153 (bit messages).**  For bit messages that are no whole octets more bits can mean fewer samples: with FEC and without interleaving every message of
`16 k + 23` bits takes longer than every message of `16 k + 24` bits. -/
theorem C153_fsk_bits (o o' : FskObj) (hr : 1 ≤ o.params.symbolRate) (hp : o'.params = o.params) (hf : o.params.fecEnabled = true) (hi : o.params.interleaving = false)
    (k : Nat) (a a' : Arg) (m m' : Bits) (ha : checkBinaryArray a = .ok m) (ha' : checkBinaryArray a' = .ok m') (hm : m.length = 16 * k + 23) (hm' : m'.length = 16 * k + 24)
    (hk : k ≤ 1022) : ∃ iq iq' fs, ((fskBitsToIQ id a).call o).1 = .ok (iq, fs) ∧ ((fskBitsToIQ id a').call o').1 = .ok (iq', fs) ∧ iq'.length < iq.length := by
  have n1 : ¬ C69.Refused o.params m := by
    unfold C69.Refused
    rw [hi, hf]
    simp only [Bool.false_eq_true, Bool.true_eq_false, false_and, and_false, or_false]
    omega
  have n2 : ¬ C69.Refused o'.params m' := by
    unfold C69.Refused
    rw [hp, hi, hf]
    simp only [Bool.false_eq_true, Bool.true_eq_false, false_and, and_false, or_false]
    omega
  have e1 := (C69.C69_reference o hr a m ha).2 n1
  have e2 := (C69.C69_reference o' (by rw [hp]; exact hr) a' m' ha').2 n2
  refine ⟨_, _, _, e1, by rw [e2, hp], ?_⟩
  have l1 := (fsk_size hr ha e1).2
  have l2 := (fsk_size (by rw [hp]; exact hr) ha' e2).2
  rw [hp] at l2
  rw [l1, l2, hm, hm']
  simp only [hf, if_true]
  rw [if_pos (show (16 * k + 23) / 8 % 2 = 0 by omega), if_neg (show ¬ (16 * k + 24) / 8 % 2 = 0 by omega)]
  cases o.params.modulation <;> simp only [RefF.width] <;> omega

/-! ### MR-O-QPSK -/

theorem oqpsk_size {o : OqpskObj} (h : C63.Standard o.params) {a : Arg} {m : Bits} (ha : checkBinaryArray a = .ok m) {iq : List ℂ} {fs : ℚ}
    (hok : ((oqpskBitsToIQ a).call o).1 = .ok (iq, fs)) :
    m.length / 8 ≤ 2047 ∧ iq.length = C96.frameChipsOf o.params m.length / 2 * o.params.sps + o.params.sps - 1 := by
  obtain ⟨r1, r2⟩ := C96.C96_bits o h a m ha
  by_cases hc : m.length / 8 ≤ 2047 ∧ C96.Spreadable o.params m.length
  · obtain ⟨iq1, r, e, -, l⟩ := r1 hc
    rw [e] at hok
    have q := congrArg Prod.fst (Except.ok.inj hok)
    simp only at q
    exact ⟨hc.1, by rw [← q]; exact l⟩
  · rw [r2 hc] at hok; cases hok

/-- Frame chips are monotone in the PSDU chips. -/
theorem chips_mono (p : OqpskParams) {n n' : Nat} (h : C96.psduChipsOf p n ≤ C96.psduChipsOf p n') : C96.frameChipsOf p n ≤ C96.frameChipsOf p n' := by
  unfold C96.frameChipsOf
  have := Nat.mul_le_mul_right (pilots p.band).1 (Nat.div_le_div_right (c := (pilots p.band).2) (show C96.psduChipsOf p n + (pilots p.band).2 - 1 ≤ C96.psduChipsOf p n' + (pilots p.band).2 - 1 by omega))
  omega

theorem psdu_mono (p : OqpskParams) {n n' : Nat} (h : C96.codedBits n ≤ C96.codedBits n') : C96.psduChipsOf p n ≤ C96.psduChipsOf p n' := by
  unfold C96.psduChipsOf
  split
  · exact le_rfl
  · exact Nat.mul_le_mul_right _ (Nat.div_le_div_right h)

theorem coded_octets {L L' : Nat} (h : L ≤ L') : C96.codedBits (8 * L) ≤ C96.codedBits (8 * L') := by
  unfold C96.codedBits blocks63
  omega

theorem coded_bound {n : Nat} (h : n / 8 ≤ 2047) : C96.codedBits n ≤ C96.codedBits 16383 := by
  unfold C96.codedBits blocks63
  omega

/-- Chips depend on band, modes and size only. -/
theorem chips_table : ∀ b ∈ [Band.b470, .b780, .b868, .b915, .b917, .b920, .b950, .b2450], ∀ rm ∈ [0, 1, 2, 3],
    C96.frameChipsOf ⟨b, rm, 0, 1⟩ 16376 ≤ (longestOqpsk b).1 ∧ C96.frameChipsOf ⟨b, rm, 0, 1⟩ 16383 ≤ (longestOqpsk b).2 ∧
    C96.frameChipsOf ⟨b, 0, 0, 1⟩ 16376 = (longestOqpsk b).1 ∧ C96.frameChipsOf ⟨b, 0, 0, 1⟩ 16383 = (longestOqpsk b).2 := by decide +kernel

theorem mdsss_table : ∀ b ∈ [Band.b780, .b915, .b917, .b2450], ∀ rm ∈ [0, 1, 2, 3], ∀ n, C96.frameChipsOf ⟨b, rm, 1, 1⟩ n = mdsssChips b rm.toNat := by
  intro b hb rm hrm n
  have e : C96.frameChipsOf ⟨b, rm, 1, 1⟩ n = C96.frameChipsOf ⟨b, rm, 1, 1⟩ 0 := rfl
  rw [e]
  clear e n
  revert rm b
  decide +kernel

theorem all_bands (b : Band) : b ∈ [Band.b470, .b780, .b868, .b915, .b917, .b920, .b950, .b2450] := by cases b <;> decide

theorem all_rates {p : OqpskParams} (h : C63.Standard p) : p.rm ∈ ([0, 1, 2, 3] : List Int) := by
  have := h.rate
  simp only [List.mem_cons, List.not_mem_nil, or_false]
  omega

/-- **C153 (MR-O-QPSK, DSSS).**  The number of samples depends only on the configuration and the number of bits of the message; more octets never give fewer
samples; no message gives more than the tables say (first number: whole octets). -/
theorem C153_dsss (o : OqpskObj) (h : C63.Standard o.params) (hs : o.params.sm = 0) (a : Arg) (m : Bits) (ha : checkBinaryArray a = .ok m) (iq : List ℂ) (fs : ℚ)
    (hok : ((oqpskBitsToIQ a).call o).1 = .ok (iq, fs)) :
    iq.length ≤ (longestOqpsk o.params.band).2 / 2 * o.params.sps + o.params.sps - 1 ∧
    (m.length % 8 = 0 → iq.length ≤ (longestOqpsk o.params.band).1 / 2 * o.params.sps + o.params.sps - 1) ∧
    ∀ (o' : OqpskObj) (a' : Arg) (m' : Bits) (iq' : List ℂ) (fs' : ℚ), o'.params = o.params → checkBinaryArray a' = .ok m' →
      ((oqpskBitsToIQ a').call o').1 = .ok (iq', fs') →
      (m.length = m'.length → iq.length = iq'.length) ∧ (m.length % 8 = 0 → m'.length % 8 = 0 → m.length ≤ m'.length → iq.length ≤ iq'.length) := by
  obtain ⟨k, l⟩ := oqpsk_size h ha hok
  have t := chips_table _ (all_bands o.params.band) _ (all_rates h)
  have e : ∀ n, C96.frameChipsOf o.params n = C96.frameChipsOf ⟨o.params.band, o.params.rm, 0, 1⟩ n := by
    intro n
    rw [← hs]
    rfl
  have fin : ∀ {x y : Nat}, x ≤ y → x / 2 * o.params.sps + o.params.sps - 1 ≤ y / 2 * o.params.sps + o.params.sps - 1 := fun hxy =>
    Nat.sub_le_sub_right (Nat.add_le_add_right (Nat.mul_le_mul_right _ (Nat.div_le_div_right hxy)) _) _
  refine ⟨?_, ?_, ?_⟩
  · rw [l]
    refine fin (le_trans (chips_mono _ (psdu_mono _ (coded_bound k))) ?_)
    rw [e]
    exact t.2.1
  · intro h8
    rw [l]
    refine fin (le_trans (chips_mono (n' := 16376) _ (psdu_mono _ ?_)) ?_)
    · rw [show m.length = 8 * (m.length / 8) by omega]
      exact coded_octets (L' := 2047) (by omega)
    · rw [e]
      exact t.1
  · intro o' a' m' iq' fs' hp ha' hok'
    obtain ⟨k', l'⟩ := oqpsk_size (by rw [hp]; exact h) ha' hok'
    rw [l, l', hp]
    refine ⟨fun hl => by rw [hl], fun h8 h8' hl => fin (chips_mono _ (psdu_mono _ ?_))⟩
    rw [show m.length = 8 * (m.length / 8) by omega, show m'.length = 8 * (m'.length / 8) by omega]
    exact coded_octets (by omega)

/-- **C153 (MR-O-QPSK, DSSS, attained).**  In rate mode 0 every message of 2047 octets, and every message of 16383 bits, is as long as the tables say. -/
theorem C153_dsss_attained (o : OqpskObj) (h : C63.Standard o.params) (hs : o.params.sm = 0) (h0 : o.params.rm = 0) (a : Arg) (m : Bits) (ha : checkBinaryArray a = .ok m) :
    (m.length = 8 * 2047 → ∃ iq fs, ((oqpskBitsToIQ a).call o).1 = .ok (iq, fs) ∧ iq.length = (longestOqpsk o.params.band).1 / 2 * o.params.sps + o.params.sps - 1) ∧
    (m.length = 16383 → ∃ iq fs, ((oqpskBitsToIQ a).call o).1 = .ok (iq, fs) ∧ iq.length = (longestOqpsk o.params.band).2 / 2 * o.params.sps + o.params.sps - 1) := by
  have t := chips_table _ (all_bands o.params.band) 0 (by decide)
  have e : ∀ n, C96.frameChipsOf o.params n = C96.frameChipsOf ⟨o.params.band, 0, 0, 1⟩ n := by
    intro n
    have e1 : C96.frameChipsOf o.params n = C96.frameChipsOf ⟨o.params.band, o.params.rm, o.params.sm, 1⟩ n := rfl
    rw [e1, hs, h0]
  have sp : ∀ n, C96.Spreadable o.params n := by
    intro n
    unfold C96.Spreadable
    rw [if_pos hs, h0]
    intro hf
    exfalso
    revert hf
    cases o.params.band <;> decide
  constructor
  · intro hm
    obtain ⟨iq, r, hr, -, l⟩ := (C96.C96_bits o h a m ha).1 ⟨by omega, sp _⟩
    exact ⟨iq, _, hr, by rw [l, hm, e, t.2.2.1]⟩
  · intro hm
    obtain ⟨iq, r, hr, -, l⟩ := (C96.C96_bits o h a m ha).1 ⟨by omega, sp _⟩
    exact ⟨iq, _, hr, by rw [l, hm, e, t.2.2.2]⟩

/-- **C153 (MR-O-QPSK, MDSSS).**  Every MDSSS frame has the same number of samples, whatever the message. -/
theorem C153_mdsss (o : OqpskObj) (h : C63.Standard o.params) (hs : o.params.sm = 1) (a : Arg) (m : Bits) (ha : checkBinaryArray a = .ok m) (iq : List ℂ) (fs : ℚ)
    (hok : ((oqpskBitsToIQ a).call o).1 = .ok (iq, fs)) :
    iq.length = mdsssChips o.params.band o.params.rm.toNat / 2 * o.params.sps + o.params.sps - 1 := by
  obtain ⟨-, l⟩ := oqpsk_size h ha hok
  have hb : o.params.band ∈ [Band.b780, .b915, .b917, .b2450] := by
    rcases h.mode with h0 | ⟨-, h1⟩
    · omega
    · revert h1; cases o.params.band <;> decide
  have t := mdsss_table _ hb _ (all_rates h) m.length
  have e : C96.frameChipsOf o.params m.length = C96.frameChipsOf ⟨o.params.band, o.params.rm, 1, 1⟩ m.length := by
    rw [← hs]
    rfl
  rw [l, e, t]

/-! Non-vacuity: a modulator of each kind and accepted messages. -/
example : Supported ⟨0, 1, 1, 0⟩ ∧ C63.Standard ⟨.b780, 0, 0, 4⟩ ∧ C63.Standard ⟨.b2450, 3, 1, 4⟩ ∧
    checkBinaryArray (bitsArg (List.replicate 23 true)) = .ok (List.replicate 23 true) ∧
    (∃ r, ((oqpskBitsToIQ (bitsArg (List.replicate 16 true))).call { params := ⟨.b2450, 3, 1, 4⟩ }).1 = .ok r) := by
  have hS : C63.Standard ⟨.b2450, 3, 1, 4⟩ := ⟨by decide, Or.inr ⟨rfl, rfl⟩, by decide⟩
  refine ⟨⟨by decide, by decide, by decide⟩, ⟨by decide, Or.inl rfl, by decide⟩, hS, C03.C03_identity _ (by simp), ?_⟩
  obtain ⟨iq, r, e, -⟩ := (C96.C96_bits { params := ⟨.b2450, 3, 1, 4⟩ } hS (bitsArg (List.replicate 16 true)) _ (C03.C03_identity _ (by simp))).1 ⟨by simp, by
    unfold C96.Spreadable
    simp⟩
  exact ⟨_, e⟩

end SunPhy.C153
