import Verif.Props.C136
import Verif.Props.C109
import Verif.Props.C111
import Verif.Props.C112
import Verif.Props.C120
/-
C138: signals of different modulators stay apart, also in machine arithmetic.  The first sample tells the kind; MR-OFDM frames of different configurations or messages differ in some sample by
more than 1/36, so rounding cannot make them equal.
-/
namespace SunPhy.C138
open SunPhy Spec Complex C136
noncomputable section

/-- Sample by sample, as far as the shorter one goes, the two signals differ by at most `δ`. -/
def Agree (δ : ℝ) (x y : List ℂ) : Prop := ∀ i, i < x.length → i < y.length → ‖x.getD i 0 - y.getD i 0‖ ≤ δ

theorem Agree.symm {δ : ℝ} {x y : List ℂ} (h : Agree δ x y) : Agree δ y x := fun i h1 h2 => by rw [norm_sub_rev]; exact h i h2 h1

/-! ### Magnitudes of the first samples -/

/-- Magnitude of the first sample. -/
def magnitude (M : Modulator) : ℝ := Real.sqrt M.first

theorem sqrt_between {x a b : ℝ} (ha : 0 ≤ a) (hb : 0 ≤ b) (h1 : a ^ 2 ≤ x) (h2 : x ≤ b ^ 2) : a ≤ Real.sqrt x ∧ Real.sqrt x ≤ b :=
  ⟨Real.le_sqrt_of_sq_le h1, Real.sqrt_le_iff.2 ⟨hb, h2⟩⟩

theorem option_magnitude : (39 / 10 ≤ Real.sqrt (firstPower 1) ∧ Real.sqrt (firstPower 1) ≤ 391 / 100) ∧ (65 / 100 ≤ Real.sqrt (firstPower 2) ∧ Real.sqrt (firstPower 2) ≤ 66 / 100) ∧
    (275 / 100 ≤ Real.sqrt (firstPower 3) ∧ Real.sqrt (firstPower 3) ≤ 277 / 100) ∧ (95 / 100 ≤ Real.sqrt (firstPower 4) ∧ Real.sqrt (firstPower 4) ≤ 955 / 1000) := by
  refine ⟨sqrt_between ?_ ?_ ?_ ?_, sqrt_between ?_ ?_ ?_ ?_, sqrt_between ?_ ?_ ?_ ?_, sqrt_between ?_ ?_ ?_ ?_⟩ <;> norm_num [firstPower]

/-- Magnitudes that differ by little are those of the same kind. -/
theorem kind_of_magnitude (M M' : Modulator) (hM : M.Ready) (hM' : M'.Ready) (h : |magnitude M - magnitude M'| ≤ 1 / 25) : SameKind M M' := by
  obtain ⟨⟨a1, b1⟩, ⟨a2, b2⟩, ⟨a3, b3⟩, ⟨a4, b4⟩⟩ := option_magnitude
  obtain ⟨l, u⟩ := abs_le.1 h
  have cases4 : ∀ o : OfdmObj, Supported o.params → o.params.option = 1 ∨ o.params.option = 2 ∨ o.params.option = 3 ∨ o.params.option = 4 := fun o h => option_cases h
  cases M with
  | ofdm o =>
    cases M' with
    | ofdm o' =>
      change o.params.option = o'.params.option
      unfold magnitude Modulator.first at l u
      simp only at l u
      rcases cases4 o hM with e | e | e | e <;> rcases cases4 o' hM' with e' | e' | e' | e' <;> rw [e, e'] at l u ⊢ <;> exfalso <;> linarith
    | fsk o' =>
      exfalso
      unfold magnitude Modulator.first at l u
      simp only [Real.sqrt_one] at l u
      rcases cases4 o hM with e | e | e | e <;> rw [e] at l u <;> linarith
    | oqpsk o' =>
      exfalso
      unfold magnitude Modulator.first at l u
      simp only [Real.sqrt_zero] at l u
      rcases cases4 o hM with e | e | e | e <;> rw [e] at l u <;> linarith
  | fsk o =>
    cases M' with
    | ofdm o' =>
      exfalso
      unfold magnitude Modulator.first at l u
      simp only [Real.sqrt_one] at l u
      rcases cases4 o' hM' with e | e | e | e <;> rw [e] at l u <;> linarith
    | fsk o' => trivial
    | oqpsk o' =>
      exfalso
      unfold magnitude Modulator.first at l u
      simp only [Real.sqrt_one, Real.sqrt_zero] at l u
      linarith
  | oqpsk o =>
    cases M' with
    | ofdm o' =>
      exfalso
      unfold magnitude Modulator.first at l u
      simp only [Real.sqrt_zero] at l u
      rcases cases4 o' hM' with e | e | e | e <;> rw [e] at l u <;> linarith
    | fsk o' =>
      exfalso
      unfold magnitude Modulator.first at l u
      simp only [Real.sqrt_one, Real.sqrt_zero] at l u
      linarith
    | oqpsk o' => trivial

theorem first_magnitude (M : Modulator) (hM : M.Ready) (octets : Bool) (a : Arg) (iq : List ℂ) (fs : ℚ) (h : M.call octets a = .ok (iq, fs)) :
    0 < iq.length ∧ ‖iq.getD 0 0‖ = magnitude M := by
  obtain ⟨z, hz, e⟩ := C136_first M hM octets a iq fs h
  have h0 := (List.getElem?_eq_some_iff.1 hz).1
  refine ⟨h0, ?_⟩
  unfold magnitude
  rw [List.getD_eq_getElem?_getD, hz, ← e, Real.sqrt_sq (norm_nonneg _)]
  rfl

/-- **C138 (kind).**  Two modulators whose signals have first samples at most 1/25 apart are of the same kind (and option). -/
theorem C138_kind (M M' : Modulator) (hM : M.Ready) (hM' : M'.Ready) (octets octets' : Bool) (a a' : Arg) (iq iq' : List ℂ) (fs fs' : ℚ)
    (h : M.call octets a = .ok (iq, fs)) (h' : M'.call octets' a' = .ok (iq', fs')) (e : ‖iq.getD 0 0 - iq'.getD 0 0‖ ≤ 1 / 25) : SameKind M M' := by
  have k := (first_magnitude M hM octets a iq fs h).2
  have k' := (first_magnitude M' hM' octets' a' iq' fs' h').2
  refine kind_of_magnitude M M' hM hM' ?_
  rw [← k, ← k']
  exact (abs_norm_sub_norm_le _ _).trans e

/-! ### MR-OFDM frames -/

theorem margin_low (w : Nat) : 1 / 10 ≤ C100.margin w := by unfold C100.margin; split <;> norm_num

/-- A signal that follows a frame sample by sample within 1/36 is received. -/
theorem followed (o : OfdmObj) (h : Supported o.params) (a : Arg) (msg : List UInt8) (ha : C01.Denotes a msg) (h0 : msg ≠ []) (iq : List ℂ) (fs : ℚ)
    (hr : ((ofdmModBytesToIQ a).call o).1 = .ok (iq, fs)) (r : List ℂ) (hl : iq.length ≤ r.length) (hd : Agree (1 / 36) r iq) :
    ∃ b, Rx.receiveAny fs r = some (o.params, b) ∧ Rx.octets b = msg := by
  refine C133.C133_octets o h a msg ha h0 iq fs hr r hl fun n hn => lt_of_lt_of_le ?_ (margin_low _)
  obtain ⟨b, hb, hbl, l2, rfl⟩ := C100.bytes_frame o a msg iq fs h ha h0 hr
  rw [← hbl] at hn
  have u1 := C100.useful_length h b r hl n hn
  have u2 := C100.useful_length h b _ le_rfl n hn
  have hw : Rx.symbolStart (Ref.nfft o.params.option) n + Ref.nfft o.params.option ≤ (Ref.frame o.params b).length := by
    unfold Rx.useful at u2
    rw [List.length_take, List.length_drop] at u2
    have : 0 < Ref.nfft o.params.option := (C91.nfft_facts _ (C91.mcs_le h).2.1).2
    omega
  unfold Rx.useful at u1 u2
  rw [C100.distSq_sum (N := Ref.nfft o.params.option) _ _ u1 u2]
  have hb' : ∀ k ∈ Finset.range (Ref.nfft o.params.option), ‖((r.drop (Rx.symbolStart (Ref.nfft o.params.option) n)).take (Ref.nfft o.params.option)).getD k 0 -
      (((Ref.frame o.params b).drop (Rx.symbolStart (Ref.nfft o.params.option) n)).take (Ref.nfft o.params.option)).getD k 0‖ ^ 2 ≤ (1 / 36) ^ 2 := by
    intro k hk
    have hk := Finset.mem_range.1 hk
    have w1 := C120.window_getD r (Rx.symbolStart (Ref.nfft o.params.option) n) _ _ hk
    have w2 := C120.window_getD (Ref.frame o.params b) (Rx.symbolStart (Ref.nfft o.params.option) n) _ _ hk
    unfold C91.window at w1 w2
    rw [w1, w2]
    exact pow_le_pow_left₀ (norm_nonneg _) (hd _ (by omega) (by omega)) 2
  refine lt_of_le_of_lt (Finset.sum_le_sum hb') ?_
  rw [Finset.sum_const, Finset.card_range, nsmul_eq_mul]
  have hN : (Ref.nfft o.params.option : ℝ) ≤ 128 := by
    rcases option_cases h with e | e | e | e <;> rw [e] <;> norm_num [Ref.nfft]
  nlinarith

theorem rate_of {o : OfdmObj} (h : Supported o.params) {a : Arg} {msg : List UInt8} (ha : C01.Denotes a msg) (h0 : msg ≠ []) {iq : List ℂ} {fs : ℚ}
    (hr : ((ofdmModBytesToIQ a).call o).1 = .ok (iq, fs)) : fs = Ref.sampleRate o.params.option := by
  obtain ⟨b, hb, hbl, l2, -⟩ := C100.bytes_frame o a msg iq fs h ha h0 hr
  have h1 : 1 ≤ msg.length := List.length_pos_of_ne_nil h0
  obtain ⟨_, e, -⟩ := C67.C67_bytes o h a b hb (by omega) (by omega)
  rw [e] at hr
  exact (congrArg Prod.snd (Except.ok.inj hr)).symm

/-- **C138 (MR-OFDM).**  If two MR-OFDM frames of octet messages agree within 1/36 in every sample that both have, configuration and message are the same (and so are the frames). -/
theorem C138_ofdm (o o' : OfdmObj) (h : Supported o.params) (h' : Supported o'.params) (a a' : Arg) (msg msg' : List UInt8) (hd : C01.Denotes a msg) (hd' : C01.Denotes a' msg')
    (h0 : msg ≠ []) (h0' : msg' ≠ []) (iq iq' : List ℂ) (fs fs' : ℚ) (hr : ((ofdmModBytesToIQ a).call o).1 = .ok (iq, fs)) (hr' : ((ofdmModBytesToIQ a').call o').1 = .ok (iq', fs'))
    (hA : Agree (1 / 36) iq iq') : o.params = o'.params ∧ msg = msg' := by
  have l := (first_magnitude (.ofdm o) h true a iq fs hr).1
  have l' := (first_magnitude (.ofdm o') h' true a' iq' fs' hr').1
  have hk : o.params.option = o'.params.option :=
    C138_kind (.ofdm o) (.ofdm o') h h' true true a a' iq iq' fs fs' hr hr' ((hA 0 l l').trans (by norm_num))
  have e1 := rate_of h hd h0 hr
  have e2 := rate_of h' hd' h0' hr'
  rw [← hk, ← e1] at e2
  subst e2
  have self : ∀ x : List ℂ, Agree (1 / 36) x x := fun x i _ _ => by rw [sub_self, norm_zero]; norm_num
  have fin : ∀ r, (∃ b, Rx.receiveAny fs' r = some (o.params, b) ∧ Rx.octets b = msg) → (∃ b, Rx.receiveAny fs' r = some (o'.params, b) ∧ Rx.octets b = msg') →
      o.params = o'.params ∧ msg = msg' := by
    rintro r ⟨b, hb, hb2⟩ ⟨b', hb', hb2'⟩
    rw [hb] at hb'
    have k := Option.some.inj hb'
    have k2 : b = b' := congrArg Prod.snd k
    exact ⟨congrArg Prod.fst k, by rw [← hb2, ← hb2', k2]⟩
  rcases le_total iq.length iq'.length with hl | hl
  · exact fin iq' (followed o h a msg hd h0 iq _ hr iq' hl hA.symm) (followed o' h' a' msg' hd' h0' iq' _ hr' iq' le_rfl (self _))
  · exact fin iq (followed o h a msg hd h0 iq _ hr iq le_rfl (self _)) (followed o' h' a' msg' hd' h0' iq' _ hr' iq hl hA)

/-! ### Machine arithmetic -/

/-- The operations of a machine: those of MR-OFDM, rounding, `exp(iθ)`, sine and cosine; `ii` as in C109 (symbol rate and index are integers). -/
structure Machine where
  ops : FloatOps
  rn : Rat → Rat
  cis : Rat → ℂ
  sn : ℚ → ℚ
  cs : ℚ → ℚ
  ii : Bool

/-- The operations are accurate (double precision is, by far). -/
structure Machine.Good (K : Machine) : Prop where
  ofdm : ∃ ε : ℝ, 0 ≤ ε ∧ ε ≤ 1 / 50000 ∧ Accurate K.ops ε
  rounding : C111.Arithmetic K.rn
  exponential : ∃ η : ℝ, η ≤ 1 / 100 ∧ C109.Exponential K.cis η
  trig : ∃ η : ℝ, 0 ≤ η ∧ η ≤ 1 / 10 ^ 8 ∧ C111.Trig K.rn K.sn K.cs η

/-- What the modulator returns in machine arithmetic. -/
def machineCall (K : Machine) (octets : Bool) (a : Arg) : Modulator → Res (List ℂ)
  | .ofdm o => (if octets then ((ofdmModBytesToIQF K.ops a).call o).1 else ((ofdmModBitsToIQF K.ops a).call o).1).map Prod.fst
  | .fsk o => (if octets then ((fskBytesToIQF K.rn K.cis K.ii a).call o).1 else ((fskBitsToIQF K.rn K.cis K.ii a).call o).1).map Prod.fst
  | .oqpsk o => (if octets then ((oqpskBytesToIQF K.rn K.sn K.cs a).call o).1 else ((oqpskBitsToIQF K.rn K.sn K.cs a).call o).1).map fun r => C111.signal r.1

/-- Ranges in which the machine arithmetic is understood (C109, C111). -/
def Moderate : Modulator → Prop
  | .ofdm _ => True
  | .fsk o => o.params.preambleLength ≤ 1000
  | .oqpsk o => C111.Regular o.params.band o.params.sps ∧ o.params.sps ≤ 4096

theorem map_ok {α β : Type} {r : Res α} {f : α → β} {y : β} (h : r.map f = .ok y) : ∃ x, r = .ok x ∧ f x = y := by
  cases r with
  | error e => cases h
  | ok x => exact ⟨x, rfl, Except.ok.inj h⟩

/-- In machine arithmetic every sample is within 1/50 of the exact one. -/
theorem machine_near (K : Machine) (hK : K.Good) (M : Modulator) (hM : M.Ready) (hm : Moderate M) (octets : Bool) (a : Arg) (x : List ℂ) (h : machineCall K octets a M = .ok x) :
    ∃ iq fs, M.call octets a = .ok (iq, fs) ∧ x.length = iq.length ∧ Agree (1 / 50) x iq := by
  cases M with
  | ofdm o =>
    obtain ⟨ε, e0, e1, hA⟩ := hK.ofdm
    obtain ⟨⟨iqF, fsF⟩, g, rfl⟩ := map_ok h
    cases octets with
    | true =>
      obtain ⟨iq, fs, r, -, hl, hn⟩ := (C112.C112_octets K.ops ε hA e0 (by linarith) o hM a).2 iqF fsF g
      exact ⟨iq, fs, r, hl, fun i hi _ => (hn i hi).trans (by linarith)⟩
    | false =>
      obtain ⟨iq, fs, r, -, hl, hn⟩ := (C112.C112_bits K.ops ε hA e0 (by linarith) o hM a).2 iqF fsF g
      exact ⟨iq, fs, r, hl, fun i hi _ => (hn i hi).trans (by linarith)⟩
  | fsk o =>
    obtain ⟨η, e1, hE⟩ := hK.exponential
    have R := C134.made_ranges hM
    obtain ⟨⟨iqF, fsF⟩, g, rfl⟩ := map_ok h
    cases octets with
    | true =>
      obtain ⟨iq, r, hl, hn, -⟩ := (C109.C109_octets K.rn hK.rounding.rounding K.cis η hE K.ii o R.rate R.low R.high hm a).2 iqF fsF g
      exact ⟨iq, _, r, hl, fun i _ hi => (hn i hi).trans (by norm_num at *; linarith)⟩
    | false =>
      obtain ⟨iq, r, hl, hn, -⟩ := C109.C109_samples K.rn hK.rounding.rounding K.cis η hE K.ii o R.rate R.low R.high hm a iqF fsF g
      exact ⟨iq, _, r, hl, fun i _ hi => (hn i hi).trans (by norm_num at *; linarith)⟩
  | oqpsk o =>
    obtain ⟨η, e0, e1, hT⟩ := hK.trig
    obtain ⟨hreg, hs⟩ := hm
    obtain ⟨⟨iqF, fsF⟩, g, rfl⟩ := map_ok h
    have tol : C111.tolerance o.params.band o.params.sps η ≤ 1 / 100 := by
      unfold C111.tolerance
      have hs' : (o.params.sps : ℝ) ≤ 4096 := by exact_mod_cast hs
      split
      · norm_num at *; linarith
      · have : 13 * η + 5 / 10 ^ 13 ≤ 14 / 10 ^ 8 := by norm_num at *; linarith
        have hp : (0 : ℝ) ≤ 13 * η + 5 / 10 ^ 13 := by positivity
        calc _ ≤ (4096 : ℝ) * (14 / 10 ^ 8) := mul_le_mul hs' this hp (by norm_num)
          _ ≤ _ := by norm_num
    have fin : ∀ iq : List ℂ, iqF.length = iq.length → (∀ i < iq.length, C111.Near (C111.tolerance o.params.band o.params.sps η) (iqF.getD i none) (iq.getD i 0)) →
        (C111.signal iqF).length = iq.length ∧ Agree (1 / 50) (C111.signal iqF) iq := by
      intro iq hl hn
      refine ⟨by simp [C111.signal, hl], fun i h1 h2 => ?_⟩
      obtain ⟨re, im, hx, n1, n2⟩ := hn i h2
      have hg : iqF[i]? = some (some (re, im)) := by
        rw [List.getD_eq_getElem?_getD] at hx
        rw [List.getElem?_eq_getElem (by omega)] at hx ⊢
        exact congrArg some hx
      have hv : (C111.signal iqF).getD i 0 = ⟨(re : ℝ), (im : ℝ)⟩ := by
        unfold C111.signal
        rw [List.getD_eq_getElem?_getD, List.getElem?_map, hg]
        rfl
      rw [hv]
      refine (Complex.norm_le_abs_re_add_abs_im _).trans ?_
      rw [Complex.sub_re, Complex.sub_im]
      simp only
      linarith
    cases octets with
    | true =>
      obtain ⟨iq, r, hl, hn⟩ := (C111.C111_octets K.rn K.sn K.cs η hK.rounding hT (by norm_num at *; linarith) o hM hreg a).2 iqF fsF g
      exact ⟨iq, _, r, fin iq hl hn⟩
    | false =>
      obtain ⟨iq, r, hl, hn⟩ := (C111.C111_bits K.rn K.sn K.cs η hK.rounding hT (by norm_num at *; linarith) o hM hreg a).2 iqF fsF g
      exact ⟨iq, _, r, fin iq hl hn⟩

/-- **C138 (first sample, machine arithmetic).**  Also in machine arithmetic the first sample has magnitude 0 (MR-O-QPSK), 1 (MR-FSK) or the square root of 975/64, 325/768, 975/128, 175/192
(MR-OFDM), up to 1/50. -/
theorem C138_first (K : Machine) (hK : K.Good) (M : Modulator) (hM : M.Ready) (hm : Moderate M) (octets : Bool) (a : Arg) (x : List ℂ) (h : machineCall K octets a M = .ok x) :
    0 < x.length ∧ |‖x.getD 0 0‖ - Real.sqrt M.first| ≤ 1 / 50 := by
  obtain ⟨iq, fs, r, hl, hA⟩ := machine_near K hK M hM hm octets a x h
  obtain ⟨l, e⟩ := first_magnitude M hM octets a iq fs r
  refine ⟨by omega, ?_⟩
  change |‖x.getD 0 0‖ - magnitude M| ≤ _
  rw [← e]
  exact (abs_norm_sub_norm_le _ _).trans (hA 0 (by omega) l)

/-- **C138 (kind, machine arithmetic).**  Modulators that return the same first sample in machine arithmetic are of the same kind (and option). -/
theorem C138_kind_machine (K : Machine) (hK : K.Good) (M M' : Modulator) (hM : M.Ready) (hM' : M'.Ready) (hm : Moderate M) (hm' : Moderate M') (octets octets' : Bool) (a a' : Arg)
    (x x' : List ℂ) (h : machineCall K octets a M = .ok x) (h' : machineCall K octets' a' M' = .ok x') (e : x[0]? = x'[0]?) : SameKind M M' := by
  have k := (C138_first K hK M hM hm octets a x h).2
  have k' := (C138_first K hK M' hM' hm' octets' a' x' h').2
  have e' : x.getD 0 0 = x'.getD 0 0 := by rw [List.getD_eq_getElem?_getD, List.getD_eq_getElem?_getD, e]
  rw [← e'] at k'
  refine kind_of_magnitude M M' hM hM' ?_
  unfold magnitude
  rw [abs_le] at *
  constructor <;> linarith [k.1, k.2, k'.1, k'.2]

/-- **C138 (MR-OFDM, machine arithmetic).**  Two machines with accuracy 1/50000, not necessarily the same, return signals that agree within 1/60 in every sample that both have only for the same
configuration and message. -/
theorem C138_ofdm_machine (F F' : FloatOps) (ε : ℝ) (hε : 0 ≤ ε) (hε1 : ε ≤ 1 / 50000) (hF : Accurate F ε) (hF' : Accurate F' ε)
    (o o' : OfdmObj) (h : Supported o.params) (h' : Supported o'.params) (a a' : Arg) (msg msg' : List UInt8) (hd : C01.Denotes a msg) (hd' : C01.Denotes a' msg')
    (h0 : msg ≠ []) (h0' : msg' ≠ []) (x x' : List ℂ) (fs fs' : ℚ) (hr : ((ofdmModBytesToIQF F a).call o).1 = .ok (x, fs)) (hr' : ((ofdmModBytesToIQF F' a').call o').1 = .ok (x', fs'))
    (hA : Agree (1 / 60) x x') : o.params = o'.params ∧ msg = msg' := by
  obtain ⟨iq, f, r, -, hl, hn⟩ := (C112.C112_octets F ε hF hε (by linarith) o h a).2 x fs hr
  obtain ⟨iq', f', r', -, hl', hn'⟩ := (C112.C112_octets F' ε hF' hε (by linarith) o' h' a').2 x' fs' hr'
  refine C138_ofdm o o' h h' a a' msg msg' hd hd' h0 h0' iq iq' f f' r r' fun i h1 h2 => ?_
  have k1 := hn i (by omega)
  have k2 := hn' i (by omega)
  have k3 := hA i (by omega) (by omega)
  rw [norm_sub_rev] at k1
  have t1 := norm_add_le (iq.getD i 0 - x.getD i 0) (x.getD i 0 - x'.getD i 0)
  have t2 := norm_add_le (iq.getD i 0 - x.getD i 0 + (x.getD i 0 - x'.getD i 0)) (x'.getD i 0 - iq'.getD i 0)
  rw [show iq.getD i 0 - x.getD i 0 + (x.getD i 0 - x'.getD i 0) + (x'.getD i 0 - iq'.getD i 0) = iq.getD i 0 - iq'.getD i 0 by ring] at t2
  linarith

/-! Non-vacuity: a machine in double precision exists (C109, C111, C112); modulators of the three kinds are ready. -/
example : ∃ K : Machine, K.Good := by
  obtain ⟨sn, cs, ht⟩ := C111.trig_exists
  exact ⟨⟨C112.double, float64, fun θ => exp ((θ : ℂ) * I), sn, cs, true⟩, ⟨_, by norm_num, by norm_num, C112.double_accurate⟩, C111.arithmetic_double, ⟨0, by norm_num, fun θ => by simp⟩,
    ⟨_, by norm_num, by norm_num, ht⟩⟩

example : (Modulator.ofdm { params := ⟨6, 3, 1, 2⟩ }).Ready ∧ Moderate (.oqpsk { params := ⟨.b915, 0, 0, 8⟩ }) ∧ (Modulator.oqpsk { params := ⟨.b915, 0, 0, 8⟩ }).Ready :=
  ⟨⟨by decide, by decide, by decide⟩, ⟨Or.inl (Or.inl rfl), by decide⟩, ⟨⟨le_rfl, show (0 : Int) ≤ 3 by decide⟩, Or.inl rfl, show 1 ≤ 8 by decide⟩⟩

end
end SunPhy.C138
