import Verif.Spec.Recording
import Verif.Props.C100
import Verif.Props.C101
import Verif.Props.C102
import Verif.Props.C44
import Verif.Props.C63
/-
C131 — recordings of several frames sent one after the other.
-/
namespace SunPhy.C131
open SunPhy Spec Complex

theorem cut_frames {β : Type} {σ : Type} (next : List ℂ → Option (β × Nat)) (val : σ → β) (len : σ → Nat) (P : σ → List ℂ → Prop)
    (hlen : ∀ s r, P s r → r.length = len s ∧ 0 < len s) (hnext : ∀ s r, P s r → ∀ rest, next (r ++ rest) = some (val s, len s)) :
    ∀ (l : List σ) (rs : List (List ℂ)), List.Forall₂ P l rs → ∀ k, rs.flatten.length ≤ k → Tape.cut next k rs.flatten = l.map val := by
  intro l rs h
  induction h with
  | nil => intro k _; cases k <;> simp [Tape.cut]
  | @cons s r l rs hp _ ih =>
    intro k hk
    obtain ⟨h1, h2⟩ := hlen s r hp
    rw [List.flatten_cons, List.length_append] at hk
    obtain ⟨k, rfl⟩ : ∃ j, k = j + 1 := ⟨k - 1, by omega⟩
    have hne : ¬ (r ++ rs.flatten = []) := by
      intro e
      have := congrArg List.length e
      rw [List.length_append, List.length_nil] at this
      omega
    rw [List.flatten_cons]
    unfold Tape.cut
    rw [if_neg hne, hnext s r hp]
    show val s :: Tape.cut next k ((r ++ rs.flatten).drop (len s)) = _
    rw [← h1, List.drop_left, ih k (by omega)]
    rfl

/-! ### MR-OFDM -/

/-- One frame on its way: the modulator, the argument, the message it stands for, and what `bytesToIQ` returned. -/
structure OfdmSent where
  modulator : OfdmObj
  arg : Arg
  msg : List UInt8
  iq : List ℂ
  fs : ℚ

/-- The frame is the result of a successful call for a non-empty message on a modulator with the given option and interleaving setting. -/
structure OfdmSent.Valid (option interleaving : Nat) (s : OfdmSent) : Prop where
  option : s.modulator.params.option = option
  interleaving : s.modulator.params.interleaving = interleaving
  supported : Supported s.modulator.params
  arg : C01.Denotes s.arg s.msg
  nonempty : s.msg ≠ []
  returned : ((ofdmModBytesToIQ s.arg).call s.modulator).1 = .ok (s.iq, s.fs)

/-- As many samples as were sent, with noise below the margin in the useful part of every symbol. -/
def OfdmSent.Heard (s : OfdmSent) (r : List ℂ) : Prop :=
  r.length = s.iq.length ∧ ∀ n < Ref.symbolCount s.modulator.params (8 * s.msg.length),
    C100.NoiseBelow r s.iq (Rx.symbolStart (Ref.nfft s.modulator.params.option) n) (Ref.nfft s.modulator.params.option)
      (C100.margin (bitsOf (C91.schemeOf s.modulator.params n)))

theorem window_append (r rest : List ℂ) (a n : Nat) (h : a + n ≤ r.length) : ((r ++ rest).drop a).take n = (r.drop a).take n := by
  rw [List.drop_append_of_le_length (by omega), List.take_append_of_le_length (by rw [List.length_drop]; omega)]

theorem ofdm_size {option interleaving : Nat} {s : OfdmSent} (v : s.Valid option interleaving) :
    s.iq.length = 15 * Ref.nfft option / 2 + Ref.symbolCount s.modulator.params (8 * s.msg.length) * (5 * Ref.nfft option / 4) ∧ Ref.nfft option % 8 = 0 ∧ 0 < Ref.nfft option := by
  obtain ⟨b, -, hl, -, e⟩ := C100.bytes_frame _ _ _ _ _ v.supported v.arg v.nonempty v.returned
  obtain ⟨_, ho, _⟩ := C91.mcs_le v.supported
  obtain ⟨h8, hN⟩ := C91.nfft_facts _ ho
  rw [v.option] at h8 hN
  refine ⟨?_, h8, hN⟩
  rw [← e, C67.C67_size, hl, v.option]
  omega

theorem ofdm_next {option interleaving : Nat} {s : OfdmSent} (v : s.Valid option interleaving) {r : List ℂ} (hr : s.Heard r) (rest : List ℂ) :
    Tape.nextOfdm option interleaving (r ++ rest) = some ((s.modulator.params.mcs, s.modulator.params.scrambler, s.msg), s.iq.length) := by
  obtain ⟨hsz, h8, hN⟩ := ofdm_size v
  obtain ⟨b, hb, ho⟩ := C100.C100_octets s.modulator v.supported s.arg s.msg v.arg v.nonempty s.iq s.fs v.returned (r ++ rest)
    (by rw [List.length_append, hr.1]; omega) (fun n hn => by
      have := hr.2 n hn
      unfold C100.NoiseBelow at this ⊢
      rw [window_append]
      · exact this
      · rw [hr.1, hsz, v.option]
        unfold Rx.symbolStart
        have : (n + 1) * (5 * Ref.nfft option / 4) ≤ Ref.symbolCount s.modulator.params (8 * s.msg.length) * (5 * Ref.nfft option / 4) := Nat.mul_le_mul_right _ hn
        rw [Nat.add_mul, Nat.one_mul] at this
        omega)
  have hp : (⟨s.modulator.params.mcs, option, interleaving, s.modulator.params.scrambler⟩ : OfdmParams) = s.modulator.params := by
    rw [← v.option, ← v.interleaving]
  rw [v.option, v.interleaving] at hb
  have e : Tape.nextOfdm option interleaving (r ++ rest) = some ((s.modulator.params.mcs, s.modulator.params.scrambler, Rx.octets b),
      15 * Ref.nfft option / 2 + Ref.symbolCount ⟨s.modulator.params.mcs, option, interleaving, s.modulator.params.scrambler⟩ (8 * (Rx.octets b).length) * (5 * Ref.nfft option / 4)) := by
    unfold Tape.nextOfdm
    rw [hb, Option.map_some]
  rw [e, ho, hp, ← hsz]

/-- **C131 (MR-OFDM).**  Frames of any number of octet messages, sent one after the other by modulators that share option and interleaving (each with its own MCS and scrambler), and received with
noise below the margins of C100: the recording is cut into exactly these frames, each with its MCS, scrambler and octets. -/
theorem C131_ofdm (option interleaving : Nat) (sent : List OfdmSent) (hv : ∀ s ∈ sent, s.Valid option interleaving) (rs : List (List ℂ))
    (hr : List.Forall₂ OfdmSent.Heard sent rs) :
    Tape.frames (Tape.nextOfdm option interleaving) rs.flatten = sent.map fun s => (s.modulator.params.mcs, s.modulator.params.scrambler, s.msg) := by
  refine cut_frames (Tape.nextOfdm option interleaving) _ (fun s => s.iq.length) (fun s r => s.Valid option interleaving ∧ s.Heard r) ?_ ?_ sent rs ?_ _ le_rfl
  · rintro s r ⟨v, h⟩
    obtain ⟨hsz, -, hN⟩ := ofdm_size v
    exact ⟨h.1, by omega⟩
  · rintro s r ⟨v, h⟩ rest
    exact ofdm_next v h rest
  · clear * - hv hr
    induction hr with
    | nil => exact .nil
    | cons h _ ih => exact .cons ⟨hv _ (by simp), h⟩ (ih fun s hs => hv s (by simp [hs]))

theorem heard_self (s : OfdmSent) : s.Heard s.iq :=
  ⟨rfl, fun n _ => by unfold C100.NoiseBelow; rw [distSq_self]; exact C100.margin_pos _⟩

/-- **C131 (MR-OFDM, unambiguous).**  Two sequences of frames with the same samples are the same sequence of MCS, scrambler and message. -/
theorem C131_ofdm_unique (option interleaving : Nat) (s s' : List OfdmSent) (hv : ∀ x ∈ s, x.Valid option interleaving) (hv' : ∀ x ∈ s', x.Valid option interleaving)
    (e : (s.map (·.iq)).flatten = (s'.map (·.iq)).flatten) :
    s.map (fun x => (x.modulator.params.mcs, x.modulator.params.scrambler, x.msg)) = s'.map fun x => (x.modulator.params.mcs, x.modulator.params.scrambler, x.msg) := by
  have self : ∀ l : List OfdmSent, List.Forall₂ OfdmSent.Heard l (l.map (·.iq)) := by
    intro l
    induction l with
    | nil => exact .nil
    | cons x l ih => exact .cons (heard_self x) ih
  rw [← C131_ofdm option interleaving s hv _ (self s), ← C131_ofdm option interleaving s' hv' _ (self s'), e]

/-! ### MR-FSK -/

/-- One frame on its way. -/
structure FskSent where
  modulator : FskObj
  arg : Arg
  msg : List UInt8
  iq : List ℂ
  fs : ℚ

/-- The frame is the result of a successful call for a non-empty message on a modulator with the settings that the receiver knows. -/
structure FskSent.Valid (k : RxF.Known) (s : FskSent) : Prop where
  known : C101.known s.modulator.params = k
  rate : 1 ≤ s.modulator.params.symbolRate
  index_ge : 1 / 4 ≤ s.modulator.params.modIndex
  index_le : s.modulator.params.modIndex ≤ 5 / 2
  arg : C01.Denotes s.arg s.msg
  nonempty : s.msg ≠ []
  returned : ((fskBytesToIQ id s.arg).call s.modulator).1 = .ok (s.iq, s.fs)

/-- As many samples as were sent, with noise of energy less than 3/4 in every symbol. -/
def FskSent.Heard (s : FskSent) (r : List ℂ) : Prop :=
  r.length = s.iq.length ∧ ∀ n, 20 * n + 20 ≤ s.iq.length → distSq ((r.drop (20 * n)).take 20) ((s.iq.drop (20 * n)).take 20) < 3 / 4

theorem fsk_size {k : RxF.Known} {s : FskSent} (v : s.Valid k) :
    s.iq.length = 20 * ((RxF.start k + Tape.fskBody k s.msg.length) / Tape.fskWidth k.modulation) ∧ 0 < s.iq.length := by
  have h1 : 1 ≤ s.msg.length := List.length_pos_of_ne_nil v.nonempty
  have h2 : s.msg.length ≤ 2047 := by
    by_contra hc
    have := C69.C69_bytes s.modulator v.rate s.arg s.msg v.arg h1
    simp only at this
    rw [if_pos (by omega), v.returned] at this
    cases this
  obtain ⟨m, bits, -, -, hl, e⟩ := C44.bytes_modulator id s.modulator s.arg s.msg v.arg h1 h2
  have hm : bits.length % fskStepBits s.modulator.params.modulation = 0 := by rw [hl, C42.bps_eq]; exact C44.frame_even _ _
  rw [fskModulator_ok id s.modulator.params bits 20 (by decide) hm (fskArange_exact v.rate (by decide) _), v.returned] at e
  have e := congrArg Prod.fst (Except.ok.inj e)
  simp only at e
  have hd : s.iq.length = 20 * (bits.length / fskStepBits s.modulator.params.modulation) := by
    rw [e]; unfold fskSamples; rw [List.length_map, List.length_range, fskDevs_length]
  rw [hd, hl, ← v.known]
  have hbody : C44.bodySize s.modulator.params s.msg.length = Tape.fskBody (C101.known s.modulator.params) s.msg.length := rfl
  have hge : 16 ≤ C44.bodySize s.modulator.params s.msg.length := by unfold C44.bodySize; split <;> omega
  rw [← hbody]
  unfold RxF.start C101.known C35.shrSize Tape.fskWidth
  generalize C44.bodySize s.modulator.params s.msg.length = B at *
  cases s.modulator.params.modulation <;> simp only [fskStepBits, C34.preambleUnit, C34.sfdLength] <;> omega

theorem fsk_next {k : RxF.Known} {s : FskSent} (v : s.Valid k) {r : List ℂ} (hr : s.Heard r) (rest : List ℂ) :
    Tape.nextFsk k (r ++ rest) = some ((s.modulator.params.fcsType == 1, s.modulator.params.scramble, s.msg), s.iq.length) := by
  obtain ⟨hsz, hN⟩ := fsk_size v
  obtain ⟨e1, e2, e3⟩ := C101.C101_octets s.modulator v.rate v.index_ge v.index_le s.arg s.msg v.arg v.nonempty s.iq s.fs v.returned (r ++ rest)
    (by rw [List.length_append, hr.1]; omega) (fun n hn => by
      rw [window_append _ _ _ _ (by rw [hr.1]; exact hn)]
      exact hr.2 n hn)
  rw [v.known] at e1 e2 e3
  unfold Tape.nextFsk
  simp only
  rw [e1, e2, e3, hsz]

theorem zip_valid {σ : Type} {V : σ → Prop} {H : σ → List ℂ → Prop} {l : List σ} {rs : List (List ℂ)} (hv : ∀ s ∈ l, V s) (hr : List.Forall₂ H l rs) :
    List.Forall₂ (fun s r => V s ∧ H s r) l rs := by
  induction hr with
  | nil => exact .nil
  | cons h _ ih => exact .cons ⟨hv _ (by simp), h⟩ (ih fun s hs => hv s (by simp [hs]))

theorem zip_self {σ : Type} {H : σ → List ℂ → Prop} (f : σ → List ℂ) : ∀ l : List σ, (∀ s ∈ l, H s (f s)) → List.Forall₂ H l (l.map f) := by
  intro l
  induction l with
  | nil => intro _; exact .nil
  | cons x l ih => intro h; exact .cons (h x (by simp)) (ih fun s hs => h s (by simp [hs]))

/-- **C131 (MR-FSK).**  The same for MR-FSK: frames with common modulation, index, preamble length and coding, each with its own FCS type and whitening. -/
theorem C131_fsk (k : RxF.Known) (sent : List FskSent) (hv : ∀ s ∈ sent, s.Valid k) (rs : List (List ℂ)) (hr : List.Forall₂ FskSent.Heard sent rs) :
    Tape.frames (Tape.nextFsk k) rs.flatten = sent.map fun s => (s.modulator.params.fcsType == 1, s.modulator.params.scramble, s.msg) := by
  refine cut_frames (Tape.nextFsk k) _ (fun s => s.iq.length) (fun s r => s.Valid k ∧ s.Heard r) ?_ ?_ sent rs (zip_valid hv hr) _ le_rfl
  · rintro s r ⟨v, h⟩
    exact ⟨h.1, (fsk_size v).2⟩
  · rintro s r ⟨v, h⟩ rest
    exact fsk_next v h rest

/-- **C131 (MR-FSK, unambiguous).** -/
theorem C131_fsk_unique (k : RxF.Known) (s s' : List FskSent) (hv : ∀ x ∈ s, x.Valid k) (hv' : ∀ x ∈ s', x.Valid k) (e : (s.map (·.iq)).flatten = (s'.map (·.iq)).flatten) :
    s.map (fun x => (x.modulator.params.fcsType == 1, x.modulator.params.scramble, x.msg)) = s'.map fun x => (x.modulator.params.fcsType == 1, x.modulator.params.scramble, x.msg) := by
  have self : ∀ l : List FskSent, List.Forall₂ FskSent.Heard l (l.map (·.iq)) := fun l =>
    zip_self (·.iq) l fun x _ => ⟨rfl, fun n _ => by rw [distSq_self]; norm_num⟩
  rw [← C131_fsk k s hv _ (self s), ← C131_fsk k s' hv' _ (self s'), e]

/-! ### MR-O-QPSK -/

/-- One frame on its way. -/
structure OqpskSent where
  modulator : OqpskObj
  arg : Arg
  msg : List UInt8
  iq : List ℂ
  fs : ℚ

/-- The frame is the result of a successful call for a non-empty message on a modulator with the given band and samples per symbol. -/
structure OqpskSent.Valid (b : Band) (sps : Nat) (s : OqpskSent) : Prop where
  band : s.modulator.params.band = b
  sps : s.modulator.params.sps = sps
  standard : C63.Standard s.modulator.params
  arg : C01.Denotes s.arg s.msg
  nonempty : s.msg ≠ []
  returned : ((oqpskBytesToIQ s.arg).call s.modulator).1 = .ok (s.iq, s.fs)

/-- MDSSS. -/
def OqpskSent.mdsss (s : OqpskSent) : Bool := decide (s.modulator.params.sm = 1)

/-- As many samples as were sent, with noise below the margins of C102. -/
def OqpskSent.Heard (s : OqpskSent) (r : List ℂ) : Prop :=
  r.length = s.iq.length ∧ C102.Close s.modulator.params.band s.modulator.params.sps s.mdsss s.modulator.params.rm.toNat s.msg.length r s.iq

theorem chipNoise_append (sps : Nat) (r rest iq : List ℂ) (k n : Nat) (hk : k < n) (hn : n / 2 * sps ≤ r.length) (he : n % 2 = 0) :
    C102.chipNoise sps (r ++ rest) iq k = C102.chipNoise sps r iq k := by
  unfold C102.chipNoise
  refine Finset.sum_congr rfl fun j hj => ?_
  have hj := Finset.mem_range.1 hj
  unfold RxQ.sampleOf
  have : (k / 2 + 1) * sps ≤ n / 2 * sps := Nat.mul_le_mul_right _ (by omega)
  rw [Nat.add_mul, Nat.one_mul] at this
  rw [List.getD_append _ _ _ _ (by omega)]

theorem oqpsk_close_append (b : Band) (sps : Nat) (mdsss : Bool) (rm L : Nat) (r rest iq : List ℂ) (hl : frameChips b mdsss rm L / 2 * sps ≤ r.length)
    (he : frameChips b mdsss rm L % 2 = 0) (h : C102.Close b sps mdsss rm L r iq) : C102.Close b sps mdsss rm L (r ++ rest) iq := by
  have hS : 0 < (pilots b).2 := by cases b <;> decide
  constructor
  · intro i hi
    refine lt_of_eq_of_lt (Finset.sum_congr rfl fun j hj => ?_) (h.header i hi)
    have hj := Finset.mem_range.1 hj
    refine chipNoise_append sps r rest iq _ _ ?_ hl he
    unfold frameChips RxQ.phrStart
    have : (i + 1) * phrChipsPerBit b ≤ 60 * phrChipsPerBit b := Nat.mul_le_mul_right _ hi
    rw [Nat.add_mul, Nat.one_mul] at this
    omega
  · intro hm i hi
    refine lt_of_eq_of_lt (Finset.sum_congr rfl fun j hj => ?_) (h.psdu hm i hi)
    have hj := Finset.mem_range.1 hj
    refine chipNoise_append sps r rest iq _ _ ?_ hl he
    have hk : i * (psduGroup b rm).2 + j < psduChips b mdsss rm L := by
      unfold psduChips
      rw [if_neg (by rw [hm]; simp)]
      have : (i + 1) * (psduGroup b rm).2 ≤ 126 * blocks63 L / (psduGroup b rm).1 * (psduGroup b rm).2 := Nat.mul_le_mul_right _ hi
      rw [Nat.add_mul, Nat.one_mul] at this
      omega
    generalize i * (psduGroup b rm).2 + j = k at hk
    have hceil : k / (pilots b).2 + 1 ≤ (psduChips b mdsss rm L + (pilots b).2 - 1) / (pilots b).2 := by
      rw [Nat.le_div_iff_mul_le hS, Nat.add_mul, Nat.one_mul]
      have : k / (pilots b).2 * (pilots b).2 ≤ k := Nat.div_mul_le_self _ _
      omega
    have := Nat.mul_le_mul_right (pilots b).1 hceil
    unfold RxQ.psduPlace RxQ.psduStart RxQ.phrStart frameChips
    omega

theorem oqpsk_size {b : Band} {sps : Nat} {s : OqpskSent} (v : s.Valid b sps) :
    s.iq.length = frameChips b s.mdsss s.modulator.params.rm.toNat s.msg.length / 2 * sps + sps - 1 ∧
    frameChips b s.mdsss s.modulator.params.rm.toNat s.msg.length % 2 = 0 ∧ 1 ≤ sps := by
  have := C63.C63_frame_size s.modulator v.standard s.arg s.msg v.arg (List.length_pos_of_ne_nil v.nonempty) s.iq s.fs v.returned
  rw [v.band, v.sps] at this
  exact ⟨this.1, this.2, by rw [← v.sps]; exact v.standard.sps⟩

theorem oqpsk_next {b : Band} {sps : Nat} {s : OqpskSent} (v : s.Valid b sps) {r : List ℂ} (hr : s.Heard r) (rest : List ℂ) :
    Tape.nextOqpsk b sps (r ++ rest) = some ((s.mdsss, s.modulator.params.rm.toNat, s.msg.length, C102.contained s.mdsss s.msg.length (C102.bitsOfOctets s.msg)), s.iq.length) := by
  obtain ⟨hsz, he, h1⟩ := oqpsk_size v
  have hc := hr.2
  rw [v.band, v.sps] at hc
  have hc := oqpsk_close_append b sps s.mdsss s.modulator.params.rm.toNat s.msg.length r rest s.iq (by rw [hr.1, hsz]; omega) he hc
  have hx := C102.C102_octets s.modulator v.standard s.arg s.msg v.arg v.nonempty s.iq s.fs v.returned (r ++ rest) (by rw [v.band, v.sps]; exact hc)
  rw [v.band, v.sps] at hx
  unfold Tape.nextOqpsk
  rw [hx, Option.map_some]
  simp only
  rw [hsz]
  rfl

/-- **C131 (MR-O-QPSK).**  The same for MR-O-QPSK: frames with common band and samples per symbol, each with its own spreading and rate mode; of each message the receiver gets what its frame
contains (C102). -/
theorem C131_oqpsk (b : Band) (sps : Nat) (sent : List OqpskSent) (hv : ∀ s ∈ sent, s.Valid b sps) (rs : List (List ℂ)) (hr : List.Forall₂ OqpskSent.Heard sent rs) :
    Tape.frames (Tape.nextOqpsk b sps) rs.flatten =
      sent.map fun s => (s.mdsss, s.modulator.params.rm.toNat, s.msg.length, C102.contained s.mdsss s.msg.length (C102.bitsOfOctets s.msg)) := by
  refine cut_frames (Tape.nextOqpsk b sps) _ (fun s => s.iq.length) (fun s r => s.Valid b sps ∧ s.Heard r) ?_ ?_ sent rs (zip_valid hv hr) _ le_rfl
  · rintro s r ⟨v, h⟩
    obtain ⟨hsz, -, h1⟩ := oqpsk_size v
    refine ⟨h.1, ?_⟩
    have : 2 ≤ frameChips b s.mdsss s.modulator.params.rm.toNat s.msg.length / 2 := by
      have : 4 ≤ frameChips b s.mdsss s.modulator.params.rm.toNat s.msg.length := by
        unfold frameChips
        have : 4 ≤ (preambleBits b + 16) * shrChipsPerBit b := by cases b <;> decide
        omega
      omega
    have := Nat.mul_le_mul this h1
    omega
  · rintro s r ⟨v, h⟩ rest
    exact oqpsk_next v h rest

/-- **C131 (MR-O-QPSK, unambiguous).**  Two sequences of DSSS frames of messages of at most seven octets with the same samples are the same sequence of rate modes and messages. -/
theorem C131_oqpsk_unique (b : Band) (sps : Nat) (hp : if b = .b915 ∨ b = .b2450 then 3 ≤ sps else 2 ≤ sps) (s s' : List OqpskSent) (hv : ∀ x ∈ s, x.Valid b sps ∧ x.modulator.params.sm = 0 ∧ x.msg.length ≤ 7)
    (hv' : ∀ x ∈ s', x.Valid b sps ∧ x.modulator.params.sm = 0 ∧ x.msg.length ≤ 7) (e : (s.map (·.iq)).flatten = (s'.map (·.iq)).flatten) :
    s.map (fun x => (x.modulator.params.rm, x.msg)) = s'.map fun x => (x.modulator.params.rm, x.msg) := by
  have h0 : ∀ sps iq k, C102.chipNoise sps iq iq k = 0 := by
    intro sps iq k
    unfold C102.chipNoise
    refine Finset.sum_eq_zero fun j _ => ?_
    rw [sub_self]
    unfold RxQ.part
    split <;> simp
  have self : ∀ l : List OqpskSent, (∀ x ∈ l, x.Valid b sps ∧ x.modulator.params.sm = 0 ∧ x.msg.length ≤ 7) → List.Forall₂ OqpskSent.Heard l (l.map (·.iq)) := fun l hl =>
    zip_self (·.iq) l fun x hx => ⟨rfl, C102.close_of_chips _ _ _ _ _ _ _ fun k => by
      rw [h0, (hl x hx).1.band, (hl x hx).1.sps]
      have := C102.pulseEnergy_pos b sps hp
      linarith⟩
  have key : ∀ l : List OqpskSent, (∀ x ∈ l, x.Valid b sps ∧ x.modulator.params.sm = 0 ∧ x.msg.length ≤ 7) → l.map (fun x => (x.modulator.params.rm, x.msg)) =
      (Tape.frames (Tape.nextOqpsk b sps) (l.map (·.iq)).flatten).map fun y => ((y.2.1 : Int), Rx.octets (y.2.2.2.map fun v => v.getD false)) := by
    intro l hl
    rw [C131_oqpsk b sps l (fun x hx => (hl x hx).1) _ (self l hl), List.map_map]
    apply List.map_congr_left
    intro x hx
    obtain ⟨v, hs, h7⟩ := hl x hx
    obtain ⟨known, hk, ho⟩ := C102.C102_short x.modulator v.standard hs x.arg x.msg v.arg v.nonempty h7 x.iq x.fs v.returned x.iq (fun k => by
      rw [h0, v.band, v.sps]
      have := C102.pulseEnergy_pos b sps hp
      linarith)
    have hx := C102.C102_octets x.modulator v.standard x.arg x.msg v.arg v.nonempty x.iq x.fs v.returned x.iq (C102.close_of_chips _ _ _ _ _ _ _ fun k => by
      rw [h0, v.band, v.sps]
      have := C102.pulseEnergy_pos b sps hp
      linarith)
    rw [hx] at hk
    have hk := congrArg (fun y => y.2.2.2) (Option.some.inj hk)
    simp only at hk
    simp only [Function.comp_apply]
    unfold OqpskSent.mdsss
    rw [hk, ho, Int.toNat_of_nonneg v.standard.rate.1]
  rw [key s hv, key s' hv', e]

/-! Non-vacuity: modulators with different MCS (rates, whitening flags, rate modes) produce such frames. -/
example (b c : UInt8) : ∃ sent : List OfdmSent, (∀ s ∈ sent, s.Valid 3 1) ∧ sent.map (fun s => (s.modulator.params.mcs, s.msg)) = [(6, [b]), (2, [c, b])] := by
  have hs : ∀ p, Supported p → ∀ m : List UInt8, m ≠ [] → m.length ≤ 2047 → ∃ r, ((ofdmModBytesToIQ (.bytes m)).call { params := p }).1 = .ok r := by
    intro p hp m h0 h1
    have r := (bytesToIQ_result (o := { params := p }) hp (.bytes m)).1
    obtain ⟨_, -, -, e⟩ := ofdmBytesResult_octets p (a := .bytes m) (msg := m) rfl (List.length_pos_of_ne_nil h0)
    rw [if_pos h1] at e
    exact ⟨_, r.trans e⟩
  have s1 : Supported ⟨6, 3, 1, 2⟩ := ⟨by decide, by decide, by decide⟩
  have s2 : Supported ⟨2, 3, 1, 0⟩ := ⟨by decide, by decide, by decide⟩
  obtain ⟨r, hr⟩ := hs _ s1 [b] (by simp) (by simp)
  obtain ⟨r', hr'⟩ := hs _ s2 [c, b] (by simp) (by simp)
  refine ⟨[⟨{ params := ⟨6, 3, 1, 2⟩ }, .bytes [b], [b], r.1, r.2⟩, ⟨{ params := ⟨2, 3, 1, 0⟩ }, .bytes [c, b], [c, b], r'.1, r'.2⟩], ?_, rfl⟩
  intro s hs
  rcases List.mem_pair.1 hs with rfl | rfl
  · exact ⟨rfl, rfl, s1, rfl, by simp, hr⟩
  · exact ⟨rfl, rfl, s2, rfl, by simp, hr'⟩

example (b c : UInt8) : ∃ (k : RxF.Known) (sent : List FskSent), (∀ s ∈ sent, s.Valid k) ∧ sent.map (fun s => (s.modulator.params.scramble, s.msg)) = [(true, [b]), (false, [c, b])] := by
  have hs : ∀ (w : Bool) (m : List UInt8), m ≠ [] → m.length ≤ 2047 →
      ∃ r, ((fskBytesToIQ id (.bytes m)).call { params := ⟨50000, 1, 0, .FSK4, true, 1, 0, w, true, 4⟩ }).1 = .ok r := by
    intro w m h0 h1
    have := C69.C69_bytes { params := ⟨50000, 1, 0, .FSK4, true, 1, 0, w, true, 4⟩ } (show 1 ≤ 50000 by decide) (.bytes m) m rfl (List.length_pos_of_ne_nil h0)
    simp only at this
    rw [if_neg (by omega)] at this
    exact ⟨_, this⟩
  obtain ⟨r, hr⟩ := hs true [b] (by simp) (by simp)
  obtain ⟨r', hr'⟩ := hs false [c, b] (by simp) (by simp)
  refine ⟨C101.known ⟨50000, 1, 0, .FSK4, true, 1, 0, true, true, 4⟩, [⟨{ params := ⟨50000, 1, 0, .FSK4, true, 1, 0, true, true, 4⟩ }, .bytes [b], [b], r.1, r.2⟩,
    ⟨{ params := ⟨50000, 1, 0, .FSK4, true, 1, 0, false, true, 4⟩ }, .bytes [c, b], [c, b], r'.1, r'.2⟩], ?_, rfl⟩
  intro s hs
  rcases List.mem_pair.1 hs with rfl | rfl
  · exact ⟨rfl, show 1 ≤ 50000 by decide, by norm_num, by norm_num, rfl, by simp, hr⟩
  · exact ⟨rfl, show 1 ≤ 50000 by decide, by norm_num, by norm_num, rfl, by simp, hr'⟩

example (b c : UInt8) : ∃ sent : List OqpskSent, (∀ s ∈ sent, s.Valid .b868 4) ∧ sent.map (fun s => (s.modulator.params.rm, s.msg)) = [(3, [b]), (0, [c, b])] := by
  have hs : ∀ (rm : Int) (_ : rm = 0 ∨ rm = 3) (m : List UInt8), m ≠ [] → m.length ≤ 2047 → ∃ r, ((oqpskBytesToIQ (.bytes m)).call { params := ⟨.b868, rm, 0, 4⟩ }).1 = .ok r := by
    intro rm hrm m h0 h1
    have := C68.C68_bytes { params := ⟨.b868, rm, 0, 4⟩ } ⟨⟨show (0 : Int) ≤ rm by omega, show rm ≤ 3 by omega⟩, Or.inl rfl, show 1 ≤ 4 by decide⟩ (.bytes m) m rfl
      (List.length_pos_of_ne_nil h0) h1
    simp only at this
    have h4 : fourBitGroups .b868 rm.toNat = false := by rcases hrm with rfl | rfl <;> decide
    rw [if_neg (by rw [h4]; simp)] at this
    exact ⟨_, this⟩
  obtain ⟨r, hr⟩ := hs 3 (by simp) [b] (by simp) (by simp)
  obtain ⟨r', hr'⟩ := hs 0 (by simp) [c, b] (by simp) (by simp)
  refine ⟨[⟨{ params := ⟨.b868, 3, 0, 4⟩ }, .bytes [b], [b], r.1, r.2⟩, ⟨{ params := ⟨.b868, 0, 0, 4⟩ }, .bytes [c, b], [c, b], r'.1, r'.2⟩], ?_, rfl⟩
  intro s hs
  rcases List.mem_pair.1 hs with rfl | rfl
  · exact ⟨rfl, rfl, ⟨⟨show (0 : Int) ≤ 3 by decide, show (3 : Int) ≤ 3 by decide⟩, Or.inl rfl, show 1 ≤ 4 by decide⟩, rfl, by simp, hr⟩
  · exact ⟨rfl, rfl, ⟨⟨show (0 : Int) ≤ 0 by decide, show (0 : Int) ≤ 3 by decide⟩, Or.inl rfl, show 1 ≤ 4 by decide⟩, rfl, by simp, hr'⟩

end SunPhy.C131
