import Verif.Props.C133
import Verif.Props.C134
import Verif.Props.C135
/-
C136: a signal says which kind of modulator sent it, already by its first sample.
-/
namespace SunPhy.C136
open SunPhy Spec Complex
noncomputable section

/-! ### First sample of an MR-OFDM frame -/

/-- Squared magnitude of the first sample of an MR-OFDM frame, by option. -/
def firstPower : Nat → ℝ
  | 1 => 975 / 64 | 2 => 325 / 768 | 3 => 975 / 128 | _ => 175 / 192

def power : Nat → ℝ
  | 1 => 104 / 12 | 2 => 52 / 12 | 3 => 26 / 6 | _ => 14 / 6

def sgn (option : Nat) (t : Int) : Int :=
  match option with
  | 1 => if t ≠ 0 ∧ t % 8 = 0 ∧ t.natAbs ≤ 48 then 1 else 0
  | 2 => if t ∈ [-12, -8, -4, 4, 12, 16, 24] then 1 else if t ∈ [-24, -20, -16, 8, 20] then -1 else 0
  | 3 => if t ≠ 0 ∧ t % 4 = 0 ∧ t.natAbs ≤ 12 then 1 else 0
  | _ => if t ≠ 0 ∧ t % 2 = 0 ∧ t.natAbs ≤ 6 then 1 else 0

theorem tone_sgn (option : Nat) (t : Int) : Ref.stfTone option t = (Real.sqrt (power option) : ℂ) * (sgn option t : ℂ) := by
  unfold Ref.stfTone sgn power
  split <;> (split_ifs <;> simp)

theorem sgn_odd (option : Nat) (t : Int) (h : t % 2 ≠ 0) : sgn option t = 0 := by
  unfold sgn
  split
  · rw [if_neg (by omega)]
  · have e1 : t ∉ [(-12 : Int), -8, -4, 4, 12, 16, 24] := by
      intro hm
      simp only [List.mem_cons, List.not_mem_nil, or_false] at hm
      omega
    have e2 : t ∉ [(-24 : Int), -20, -16, 8, 20] := by
      intro hm
      simp only [List.mem_cons, List.not_mem_nil, or_false] at hm
      omega
    rw [if_neg e1, if_neg e2]
  · rw [if_neg (by omega)]
  · rw [if_neg (by omega)]

/-- A quarter turn per tone, on even tones. -/
theorem quarter (Q : Nat) (hQ : 0 < Q) (t : Int) (h : t % 2 = 0) :
    exp (2 * Real.pi * I * (t : ℂ) * ((0 : Int) - (Q : Int) : Int) / ((4 * Q : Nat) : ℂ)) = ((if t % 4 = 0 then 1 else -1 : Int) : ℂ) := by
  have hQc : (Q : ℂ) ≠ 0 := by exact_mod_cast hQ.ne'
  split
  · rename_i h4
    obtain ⟨r, rfl⟩ : ∃ r, t = 4 * r := ⟨t / 4, by omega⟩
    rw [show 2 * Real.pi * I * ((4 * r : Int) : ℂ) * ((0 : Int) - (Q : Int) : Int) / ((4 * Q : Nat) : ℂ) = ((-r : Int) : ℂ) * (2 * Real.pi * I) by
      push_cast; field_simp; ring, Complex.exp_int_mul_two_pi_mul_I]
    simp
  · rename_i h4
    obtain ⟨r, rfl⟩ : ∃ r, t = 4 * r + 2 := ⟨t / 4, by omega⟩
    rw [show 2 * Real.pi * I * ((4 * r + 2 : Int) : ℂ) * ((0 : Int) - (Q : Int) : Int) / ((4 * Q : Nat) : ℂ) = ((-r - 1 : Int) : ℂ) * (2 * Real.pi * I) + Real.pi * I by
      push_cast; field_simp; ring, Complex.exp_add, Complex.exp_int_mul_two_pi_mul_I, Complex.exp_pi_mul_I]
    simp

def total (option : Nat) : Int :=
  ∑ i ∈ Finset.range (Ref.nfft option), sgn option ((i : Int) - ((Ref.nfft option / 2 : Nat) : Int)) * (if ((i : Int) - ((Ref.nfft option / 2 : Nat) : Int)) % 4 = 0 then 1 else -1)

theorem first_wave (option : Nat) (hN : ∃ Q, 0 < Q ∧ Ref.nfft option = 4 * Q) :
    Ref.wave (Ref.nfft option) (Ref.stfTone option) ((0 : Int) - ((Ref.nfft option / 4 : Nat) : Int)) =
      (Real.sqrt (power option) : ℂ) * (total option : ℂ) / (Real.sqrt (Ref.nfft option) : ℂ) := by
  obtain ⟨Q, hQ, hN⟩ := hN
  unfold Ref.wave total
  congr 1
  rw [Int.cast_sum, Finset.mul_sum]
  refine Finset.sum_congr rfl fun i _ => ?_
  rw [tone_sgn, hN, show 4 * Q / 4 = Q by omega]
  generalize (i : Int) - ((4 * Q / 2 : Nat) : Int) = t
  rw [mul_assoc]
  congr 1
  by_cases h : t % 2 = 0
  · rw [quarter Q hQ t h, Int.cast_mul]
  · rw [sgn_odd option t h]; simp

theorem totals : total 1 = 12 ∧ total 2 = 2 ∧ total 3 = 6 ∧ total 4 = -2 := by
  unfold total; decide +kernel

theorem first_power {option : Nat} (h : option = 1 ∨ option = 2 ∨ option = 3 ∨ option = 4) :
    ‖(5 / 4 : ℂ) * ((Real.sqrt (power option) : ℂ) * (total option : ℂ) / (Real.sqrt (Ref.nfft option) : ℂ))‖ ^ 2 = firstPower option := by
  have hp : 0 ≤ power option := by rcases h with rfl | rfl | rfl | rfl <;> norm_num [power]
  rw [norm_mul (5 / 4 : ℂ), norm_div ((Real.sqrt (power option) : ℂ) * (total option : ℂ)), norm_mul, Complex.norm_real, Complex.norm_real, mul_pow, div_pow, mul_pow, Real.norm_eq_abs, Real.norm_eq_abs, sq_abs, sq_abs, Real.sq_sqrt hp,
    Real.sq_sqrt (Nat.cast_nonneg _), Complex.norm_intCast, sq_abs]
  obtain ⟨t1, t2, t3, t4⟩ := totals
  rcases h with rfl | rfl | rfl | rfl
  · rw [t1]; norm_num [power, firstPower, Ref.nfft]
  · rw [t2]; norm_num [power, firstPower, Ref.nfft]
  · rw [t3]; norm_num [power, firstPower, Ref.nfft]
  · rw [t4]; norm_num [power, firstPower, Ref.nfft]

theorem nfft_four {option : Nat} (h : option = 1 ∨ option = 2 ∨ option = 3 ∨ option = 4) : ∃ Q, 0 < Q ∧ Ref.nfft option = 4 * Q := by
  rcases h with rfl | rfl | rfl | rfl
  · exact ⟨32, by decide, by decide⟩
  · exact ⟨16, by decide, by decide⟩
  · exact ⟨8, by decide, by decide⟩
  · exact ⟨4, by decide, by decide⟩

theorem frame_first (p : OfdmParams) (m : Bits) (h : p.option = 1 ∨ p.option = 2 ∨ p.option = 3 ∨ p.option = 4) :
    ∃ z, (Ref.frame p m)[0]? = some z ∧ ‖z‖ ^ 2 = firstPower p.option := by
  refine ⟨_, ?_, first_power h⟩
  obtain ⟨Q, hQ, hN⟩ := nfft_four h
  unfold Ref.frame Ref.stf
  rw [List.append_assoc, List.getElem?_append_left (by rw [List.length_map, List.length_range]; omega), List.getElem?_map, List.getElem?_range (by omega), Option.map_some]
  rw [if_neg (by omega), Nat.zero_mod, Nat.cast_zero, first_wave _ ⟨Q, hQ, hN⟩, mul_one]

/-! ### The modulators -/

/-- A modulator of one of the three kinds. -/
inductive Modulator
  | ofdm (o : OfdmObj)
  | fsk (o : FskObj)
  | oqpsk (o : OqpskObj)

/-- `bytesToIQ` (`octets = true`) or `bitsToIQ`. -/
def Modulator.call (octets : Bool) (a : Arg) : Modulator → Res (List ℂ × ℚ)
  | .ofdm o => if octets then ((ofdmModBytesToIQ a).call o).1 else ((ofdmModBitsToIQ a).call o).1
  | .fsk o => if octets then ((fskBytesToIQ id a).call o).1 else ((fskBitsToIQ id a).call o).1
  | .oqpsk o => if octets then ((oqpskBytesToIQ a).call o).1 else ((oqpskBitsToIQ a).call o).1

/-- The configuration is supported by the standard. -/
def Modulator.Ready : Modulator → Prop
  | .ofdm o => Supported o.params
  | .fsk o => C134.Made o.params
  | .oqpsk o => C63.Standard o.params

/-- Squared magnitude of the first sample. -/
def Modulator.first : Modulator → ℝ
  | .ofdm o => firstPower o.params.option
  | .fsk _ => 1
  | .oqpsk _ => 0

theorem to_bits (M : Modulator) (hM : M.Ready) (octets : Bool) (a : Arg) (r : List ℂ × ℚ) (h : M.call octets a = .ok r) :
    ∃ a' m, checkBinaryArray a' = .ok m ∧ M.call false a' = .ok r := by
  have bitsCase : ∀ a, M.call false a = .ok r → ∃ a' m, checkBinaryArray a' = .ok m ∧ M.call false a' = .ok r := by
    clear h
    intro a h
    cases ha : checkBinaryArray a with
    | ok m => exact ⟨a, m, ha, h⟩
    | error e =>
      exfalso
      cases M with
      | ofdm o =>
        change ((ofdmModBitsToIQ a).call o).1 = _ at h
        rw [(bitsToIQ_result hM a).1] at h
        unfold ofdmResult at h
        rw [ha] at h; cases h
      | fsk o =>
        change ((fskBitsToIQ id a).call o).1 = _ at h
        rw [(fskBitsToIQ_result id a o).1] at h
        unfold fskResult at h
        rw [ha] at h; cases h
      | oqpsk o =>
        change ((oqpskBitsToIQ a).call o).1 = _ at h
        rw [(oqpskBitsToIQ_result a o).1] at h
        unfold oqpskBitsResult at h
        rw [ha] at h; cases h
  cases octets with
  | false => exact bitsCase a h
  | true =>
    have key : ∃ m, toBinaryArray a = .ok m ∧ M.call false (bitsArg m) = .ok r := by
      cases M with
      | ofdm o =>
        change ((ofdmModBytesToIQ a).call o).1 = _ at h
        rw [(bytesToIQ_result hM a).1] at h
        unfold ofdmBytesResult at h
        cases ha : toBinaryArray a with
        | error e => rw [ha] at h; cases h
        | ok m =>
          rw [ha] at h
          exact ⟨m, rfl, ((bitsToIQ_result hM _).1).trans h⟩
      | fsk o =>
        change ((fskBytesToIQ id a).call o).1 = _ at h
        rw [(fskBytesToIQ_result id a o).1] at h
        unfold fskBytesResult at h
        cases ha : toBinaryArray a with
        | error e => rw [ha] at h; cases h
        | ok m =>
          rw [ha] at h
          exact ⟨m, rfl, ((fskBitsToIQ_result id _ o).1).trans h⟩
      | oqpsk o =>
        change ((oqpskBytesToIQ a).call o).1 = _ at h
        rw [(oqpskBytesToIQ_result a o).1] at h
        unfold oqpskBytesResult at h
        cases ha : toBinaryArray a with
        | error e => rw [ha] at h; cases h
        | ok m =>
          rw [ha] at h
          exact ⟨m, rfl, ((oqpskBitsToIQ_result _ o).1).trans h⟩
    obtain ⟨m, -, h2⟩ := key
    exact bitsCase _ h2

theorem bits_pos (p : FskParams) (m : Bits) : 0 < (RefF.bits p m).length / RefF.width p.modulation := by
  have hb : (RefF.bits p m).length = (RefF.preamble p ++ RefF.sfd p).length + (RefF.body p m).length := by
    unfold RefF.bits; simp; omega
  rw [← fsk_shr_ref, C35.shr_length] at hb
  unfold C35.shrSize at hb
  cases hm : p.modulation with
  | FSK2 => rw [hm] at hb; simp [C34.sfdLength, C34.preambleUnit] at hb; simp only [RefF.width]; omega
  | FSK4 => rw [hm] at hb; simp [C34.sfdLength, C34.preambleUnit] at hb; simp only [RefF.width]; omega

/-- **C136 (first sample).**  The first sample of every signal, whatever the message and the use of the object before, has squared magnitude 0 for MR-O-QPSK, 1 for MR-FSK, and 975/64, 325/768,
975/128, 175/192 for MR-OFDM options 1 to 4. -/
theorem C136_first (M : Modulator) (hM : M.Ready) (octets : Bool) (a : Arg) (iq : List ℂ) (fs : ℚ) (h : M.call octets a = .ok (iq, fs)) :
    ∃ z, iq[0]? = some z ∧ ‖z‖ ^ 2 = M.first := by
  obtain ⟨a, m, ha, h⟩ := to_bits M hM octets a _ h
  cases M with
  | ofdm o =>
    change ((ofdmModBitsToIQ a).call o).1 = _ at h
    change Supported o.params at hM
    have k := (C15.C15_bitsToIQ o hM a m ha).1.1 ⟨_, h⟩
    obtain ⟨_, e, -⟩ := C67.C67_reference o hM a m ha k.1 k.2
    rw [e] at h
    have r1 : Ref.frame o.params m = iq := congrArg Prod.fst (Except.ok.inj h)
    rw [← r1]
    exact frame_first o.params m (option_cases hM)
  | fsk o =>
    change ((fskBitsToIQ id a).call o).1 = _ at h
    change C134.Made o.params at hM
    have R := C134.made_ranges hM
    obtain ⟨hbad, hgood⟩ := C69.C69_reference o R.rate a m ha
    have hn : ¬ C69.Refused o.params m := fun hr => by rw [hbad hr] at h; cases h
    rw [hgood hn] at h
    have r1 : RefF.samples o.params (RefF.bits o.params m) = iq := congrArg Prod.fst (Except.ok.inj h)
    refine ⟨1, ?_, by simp [Modulator.first]⟩
    rw [← r1, C134.samples_get _ R.rate _ _ (by have := bits_pos o.params m; omega)]
    unfold RxF.tone
    simp
  | oqpsk o =>
    change ((oqpskBitsToIQ a).call o).1 = _ at h
    change C63.Standard o.params at hM
    have B := C60.C60_api o hM a m ha iq fs h
    simp only at B
    obtain ⟨hl, -, -, hsam, -⟩ := B
    have p1 : 0 < (RefQ.chips o.params.band (decide (o.params.sm = 1)) o.params.rm.toNat m).length / 2 := by
      rw [hl]; have := C135.head_big o.params.band; unfold C60.headChips at this; unfold C96.frameChipsOf; omega
    have z := hsam 0 0 p1 hM.sps
    rw [Nat.mul_zero, Nat.add_zero] at z
    have hp : pulseSample o.params.band o.params.sps 0 = 0 := by
      by_cases hb : C135.Half o.params.band
      · rw [C135.pulse_half hb, C135.half_zero _ _ hM.sps]; omega
      · rw [C135.pulse_cos hb]; simp [C135.cosine_zero]
    rw [hp] at z
    exact ⟨_, z, by simp [Modulator.first]⟩

/-- Same kind, and for MR-OFDM the same option. -/
def SameKind : Modulator → Modulator → Prop
  | .ofdm o, .ofdm o' => o.params.option = o'.params.option
  | .fsk _, .fsk _ => True
  | .oqpsk _, .oqpsk _ => True
  | _, _ => False

theorem power_inj {n n' : Nat} (h : n = 1 ∨ n = 2 ∨ n = 3 ∨ n = 4) (h' : n' = 1 ∨ n' = 2 ∨ n' = 3 ∨ n' = 4) (e : firstPower n = firstPower n') : n = n' := by
  rcases h with rfl | rfl | rfl | rfl <;> rcases h' with rfl | rfl | rfl | rfl <;> first | rfl | (norm_num [firstPower] at e)

theorem power_ne {n : Nat} (h : n = 1 ∨ n = 2 ∨ n = 3 ∨ n = 4) : firstPower n ≠ 0 ∧ firstPower n ≠ 1 := by
  rcases h with rfl | rfl | rfl | rfl <;> norm_num [firstPower]

/-- **C136 (kind).**  Modulators that return the same first sample, for any messages, are of the same kind. -/
theorem C136_kind (M M' : Modulator) (hM : M.Ready) (hM' : M'.Ready) (octets octets' : Bool) (a a' : Arg) (iq iq' : List ℂ) (fs fs' : ℚ)
    (h : M.call octets a = .ok (iq, fs)) (h' : M'.call octets' a' = .ok (iq', fs')) (e : iq[0]? = iq'[0]?) : SameKind M M' := by
  obtain ⟨z, hz, hp⟩ := C136_first M hM octets a iq fs h
  obtain ⟨z', hz', hp'⟩ := C136_first M' hM' octets' a' iq' fs' h'
  have : z = z' := Option.some.inj (hz.symm.trans (e.trans hz'))
  rw [this] at hp
  have e := hp.symm.trans hp'
  cases M <;> cases M' <;> simp only [Modulator.first] at e
  case ofdm.ofdm => exact power_inj (option_cases hM) (option_cases hM') e
  case ofdm.fsk => exact (power_ne (option_cases hM)).2 e
  case ofdm.oqpsk => exact (power_ne (option_cases hM)).1 e
  case fsk.ofdm => exact (power_ne (option_cases hM')).2 e.symm
  case fsk.fsk => trivial
  case fsk.oqpsk => norm_num at e
  case oqpsk.ofdm => exact (power_ne (option_cases hM')).1 e.symm
  case oqpsk.fsk => norm_num at e
  case oqpsk.oqpsk => trivial

/-- Two modulators and two octet messages that one signal may leave open: nothing for MR-OFDM; for MR-FSK the coding parameters of an uncoded frame; for MR-O-QPSK the band within its group and what a frame
does not contain of the message. -/
def Alike : Modulator → List UInt8 → Modulator → List UInt8 → Prop
  | .ofdm o, msg, .ofdm o', msg' => o.params = o'.params ∧ msg = msg'
  | .fsk o, msg, .fsk o', msg' => msg = msg' ∧ o.params = { o'.params with fecScheme := o.params.fecScheme, interleaving := o.params.interleaving } ∧
      (o.params.fecEnabled = true → o.params = o'.params)
  | .oqpsk o, msg, .oqpsk o', msg' => C135.SameLayer o.params.band o'.params.band ∧ o.params.sps = o'.params.sps ∧ o.params.sm = o'.params.sm ∧ o.params.rm = o'.params.rm ∧
      msg.length = msg'.length ∧ (o.params.sm = 0 → msg.length ≤ 7 → msg = msg')
  | _, _, _, _ => False

/-- MR-O-QPSK signals are heard from 2 or 3 samples per symbol on. -/
def Modulator.Audible : Modulator → Prop
  | .oqpsk o => C60.Audible o.params.band o.params.sps
  | _ => True

/-- **C136 (signals).**  If two modulators, of any kinds and configurations, return the same samples and sampling frequency for two octet messages, they are of the same kind, and configuration and
message agree as listed in `Alike`. -/
theorem C136_signal (M M' : Modulator) (hM : M.Ready) (hM' : M'.Ready) (hA : M.Audible) (hA' : M'.Audible) (a a' : Arg) (msg msg' : List UInt8)
    (hd : C01.Denotes a msg) (hd' : C01.Denotes a' msg') (h0 : msg ≠ []) (h0' : msg' ≠ []) (iq : List ℂ) (fs : ℚ)
    (h : M.call true a = .ok (iq, fs)) (h' : M'.call true a' = .ok (iq, fs)) : Alike M msg M' msg' := by
  have k := C136_kind M M' hM hM' true true a a' iq iq fs fs h h' rfl
  cases M <;> cases M' <;> first | exact k.elim | skip
  case ofdm.ofdm o o' => exact C133.C133_unique o o' hM hM' a a' msg msg' hd hd' h0 h0' (iq, fs) h h'
  case fsk.fsk o o' => exact C134.C134_unique o o' hM hM' a a' msg msg' hd hd' h0 h0' (iq, fs) h h'
  case oqpsk.oqpsk o o' =>
    obtain ⟨r1, r2, r3, r4, -, r5, r6⟩ := C135.C135_octets o o' hM hM' hA hA' a a' msg msg' hd hd' h0 h0' iq fs fs h h'
    exact ⟨r1, r2, r3, r4, r5, r6⟩

/-- **C136 (MR-OFDM).**  The samples of an MR-OFDM signal determine configuration and message without the sampling frequency. -/
theorem C136_ofdm (o o' : OfdmObj) (h : Supported o.params) (h' : Supported o'.params) (a a' : Arg) (msg msg' : List UInt8) (hd : C01.Denotes a msg) (hd' : C01.Denotes a' msg')
    (h0 : msg ≠ []) (h0' : msg' ≠ []) (iq : List ℂ) (fs fs' : ℚ) (hr : ((ofdmModBytesToIQ a).call o).1 = .ok (iq, fs)) (hr' : ((ofdmModBytesToIQ a').call o').1 = .ok (iq, fs')) :
    o.params = o'.params ∧ msg = msg' := by
  have k : o.params.option = o'.params.option := C136_kind (.ofdm o) (.ofdm o') h h' true true a a' iq iq fs fs' hr hr' rfl
  obtain ⟨b, hb, hbl, l2, -⟩ := C100.bytes_frame o a msg iq fs h hd h0 hr
  obtain ⟨b', hb', hbl', l2', -⟩ := C100.bytes_frame o' a' msg' iq fs' h' hd' h0' hr'
  have h1 : 1 ≤ msg.length := List.length_pos_of_ne_nil h0
  have h1' : 1 ≤ msg'.length := List.length_pos_of_ne_nil h0'
  obtain ⟨_, e, -⟩ := C67.C67_bytes o h a b hb (by omega) (by omega)
  obtain ⟨_, e', -⟩ := C67.C67_bytes o' h' a' b' hb' (by omega) (by omega)
  have f : Ref.sampleRate o.params.option = fs := by rw [e] at hr; exact congrArg Prod.snd (Except.ok.inj hr)
  have f' : Ref.sampleRate o'.params.option = fs' := by rw [e'] at hr'; exact congrArg Prod.snd (Except.ok.inj hr')
  have ff : fs = fs' := by rw [← f, ← f', k]
  exact C133.C133_unique o o' h h' a a' msg msg' hd hd' h0 h0' (iq, fs) hr (by rw [ff]; exact hr')

/-! Non-vacuity: the three kinds, ready, with a message. -/
example (x : UInt8) : (∃ r, (Modulator.ofdm { params := ⟨6, 3, 1, 2⟩ }).call true (.bytes [x]) = .ok r) ∧ (Modulator.ofdm { params := ⟨6, 3, 1, 2⟩ }).Ready := by
  have hp : Supported ⟨6, 3, 1, 2⟩ := ⟨by decide, by decide, by decide⟩
  refine ⟨?_, hp⟩
  obtain ⟨m, e, hl, -⟩ := C01.C01_lsb_first (.bytes [x]) [x] rfl (by simp)
  have hl : m.length = 8 := by simpa using hl
  obtain ⟨_, e, -⟩ := C67.C67_bytes { params := ⟨6, 3, 1, 2⟩ } hp (.bytes [x]) m e (by omega) (by omega)
  exact ⟨_, congrArg Prod.fst e⟩
example (x : UInt8) : (∃ r, (Modulator.oqpsk { params := ⟨.b780, 0, 0, 4⟩ }).call true (.bytes [x]) = .ok r) ∧ (Modulator.oqpsk { params := ⟨.b780, 0, 0, 4⟩ }).Ready ∧
    (Modulator.oqpsk { params := ⟨.b780, 0, 0, 4⟩ }).Audible := by
  have hs : C63.Standard ⟨.b780, 0, 0, 4⟩ := ⟨⟨le_rfl, show (0 : Int) ≤ 3 by decide⟩, Or.inl rfl, show 1 ≤ 4 by decide⟩
  have := C68.C68_bytes { params := ⟨.b780, 0, 0, 4⟩ } hs (.bytes [x]) [x] rfl (by simp) (by simp)
  simp only at this
  have h4 : fourBitGroups .b780 (0 : Int).toNat = false := by decide
  rw [if_neg (by rw [h4]; simp)] at this
  exact ⟨⟨_, this⟩, hs, by unfold Modulator.Audible C60.Audible; decide⟩

end
end SunPhy.C136
