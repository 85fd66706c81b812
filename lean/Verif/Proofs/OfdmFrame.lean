import Verif.Model.MrOfdmSignal
import Verif.Proofs.PyMLemmas
import Verif.Proofs.OfdmStream
import Verif.Proofs.Interleave
import Verif.Props.C12
import Verif.Props.C14
import Mathlib.Tactic.IntervalCases
/-
The MR-OFDM frame: bit-level sizes and the evaluation of `bitsToIQ`.
-/
namespace SunPhy
open Spec OfdmParams

/-! ### Sizes -/

/-- Coded bits per OFDM symbol for a given MCS (before spreading). -/
def splitN (p : OfdmParams) (MCS : Nat) : Nat := dataTones p.option * nBpsc MCS / freqSpreading MCS

/-- The pilot configuration of an option. -/
def optPilots (α : Type) (opt : Nat) : Pilots α :=
  { sets := pilotsIndices opt, nPilots := (((pilotsIndices opt)[0]?).getD []).length, values := .pn9 }

theorem option_cases {p : OfdmParams} (h : Supported p) : p.option = 1 ∨ p.option = 2 ∨ p.option = 3 ∨ p.option = 4 := by
  obtain ⟨h, -, -⟩ := h
  simp only [List.mem_cons, Prod.mk.injEq, List.not_mem_nil, or_false] at h
  omega

theorem mcs_le {p : OfdmParams} (h : Supported p) : p.mcs ≤ 6 := by
  obtain ⟨h, -, -⟩ := h
  simp only [List.mem_cons, Prod.mk.injEq, List.not_mem_nil, or_false] at h
  omega

instance (N padL padR : Nat) (ps : List Int) : Decidable (goodSet N padL padR ps) := by unfold goodSet; infer_instance

theorem optSets_good : ∀ o ∈ [1, 2, 3, 4], pilotsIndices o ≠ [] ∧ ∀ ps ∈ pilotsIndices o,
    ps.length = (((pilotsIndices o)[0]?).getD []).length ∧
    goodSet (fftSize o) ((fftSize o - activeTones o) / 2) ((fftSize o - activeTones o) / 2 - 1) ps := by
  decide +kernel

theorem goodCfg {p : OfdmParams} (h : Supported p) (MCS : Nat) (α : Type) [Zero α] :
    GoodCfg (p.ofdmCfg MCS α) (optPilots α p.option) := by
  have ho := option_cases h
  obtain ⟨h1, h2⟩ := optSets_good p.option (by simp; omega)
  refine ⟨rfl, (fun v hv => by cases hv), ?_, ?_, ?_, ?_, h1, h2⟩ <;>
  · simp only [ofdmCfg, optPilots, OfdmParams.guard]
    rcases ho with h | h | h | h <;> rw [h] <;> decide

theorem split_facts : ∀ o ∈ [1, 2, 3, 4], ∀ MCS ≤ 6,
    0 < dataTones o * nBpsc MCS / freqSpreading MCS ∧
    (dataTones o * nBpsc MCS / freqSpreading MCS) % (mcsModulation MCS).bitsPerSymbol = 0 ∧
    (freqSpreading MCS = 1 ∨ freqSpreading MCS = 2 ∨ freqSpreading MCS = 4) ∧
    freqSpreading MCS * (dataTones o * nBpsc MCS / freqSpreading MCS / (mcsModulation MCS).bitsPerSymbol) =
      fftSize o - (((pilotsIndices o)[0]?).getD []).length - (fftSize o - activeTones o) / 2 - ((fftSize o - activeTones o) / 2 - 1) - 1 ∧
    ((((fftSize o : Int) - ((((pilotsIndices o)[0]?).getD []).length : Nat) - ((fftSize o - activeTones o) / 2 : Nat) -
      ((fftSize o - activeTones o) / 2 - 1 : Nat) - 1) * ((mcsModulation MCS).bitsPerSymbol : Nat)).tdiv (freqSpreading MCS) =
      (dataTones o * nBpsc MCS / freqSpreading MCS : Nat)) ∧
    freqSpreading MCS * (dataTones o * nBpsc MCS / freqSpreading MCS) = dataTones o * nBpsc MCS ∧
    dataTones o * nBpsc MCS % 4 = 0 ∧ 12 ≤ dataTones o * nBpsc MCS := by
  decide +kernel

theorem goodMod {p : OfdmParams} (h : Supported p) {MCS : Nat} (hM : MCS ≤ 6) (α : Type) [Mul α] [Zero α] :
    GoodMod (p.ofdmCfg MCS α) (optPilots α p.option) (splitN p MCS) := by
  have ho := option_cases h
  obtain ⟨f1, f2, f3, f4, f5, -⟩ := split_facts p.option (by simp; omega) MCS hM
  exact ⟨goodCfg h MCS α, f5, f1, f2, f3, f4⟩

theorem lowestMcs_le (o : Nat) : lowestMcs o ≤ 6 := by unfold lowestMcs; split <;> decide

theorem lowest_rate : ∀ o ∈ [1, 2, 3, 4], rateIs34 (lowestMcs o) = false := by decide

/-- Number of OFDM symbols the header occupies. -/
def headerSymbols (p : OfdmParams) : Nat := 2 * p.phrLength / splitN p (lowestMcs p.option)

theorem header_facts : ∀ p ∈ allSupported, 2 * p.phrLength % splitN p (lowestMcs p.option) = 0 ∧ 36 ≤ p.phrLength := by
  decide +kernel

/-! ### Header bits -/

/-- The header bits of a frame with `len` octets. -/
def headerBits (p : OfdmParams) (len : Nat) : Bits :=
  natBits 5 p.mcs ++ [false] ++ natBits 11 len ++ [false, false] ++ natBits 2 p.scrambler ++ [false] ++
    (hcsCalculation (natBits 5 p.mcs ++ [false] ++ natBits 11 len ++ [false, false] ++ natBits 2 p.scrambler ++ [false])).map (· == 1) ++
    List.replicate (p.phrLength - 30) false

theorem phyHeader_ok {p : OfdmParams} (h : Supported p) {n : Nat} (h1 : 1 ≤ n / 8) (h2 : n / 8 ≤ 2047) :
    p.phyHeader n = .ok (headerBits p (n / 8)) ∧ (headerBits p (n / 8)).length = p.phrLength := by
  have hl := (header_facts p (mem_allSupported h)).2
  have e := C14.phrValue_eq p.mcs (n / 8) p.scrambler p.phrLength (mcs_le h) h1 h2 h.2.2 (by omega)
  refine ⟨e, ?_⟩
  obtain ⟨x, ex, hx, -⟩ := C14.C14_layout p.mcs (n / 8) p.scrambler p.phrLength (mcs_le h) h1 h2 h.2.2 (by omega)
  rw [e] at ex
  cases ex
  exact hx

/-- The coded, interleaved header. -/
def headerCoded (p : OfdmParams) (len : Nat) : Bits :=
  p.interleaver (rateHalfOut (rateHalfInit 0) (headerBits p len)) (lowestMcs p.option)

theorem headerCoded_length {p : OfdmParams} (h : Supported p) {n : Nat} (h1 : 1 ≤ n) (h2 : n ≤ 2047) :
    (headerCoded p n).length = headerSymbols p * splitN p (lowestMcs p.option) := by
  have e := (phyHeader_ok h (n := 8 * n) (by omega) (by omega)).2
  rw [show 8 * n / 8 = n by omega] at e
  unfold headerCoded headerSymbols
  rw [interleaver_length, rateHalfOut_length, e]
  have := (header_facts p (mem_allSupported h)).1
  rw [Nat.div_mul_cancel (Nat.dvd_of_mod_eq_zero this)]

/-! ### Payload bits -/

theorem ceilDiv_spec {a b : Nat} (hb : 0 < b) : a ≤ ceilDiv a b * b ∧ ceilDiv a b * b < a + b := by
  unfold ceilDiv
  have h1 := Nat.div_add_mod (a + b - 1) b
  have h2 := Nat.mod_lt (a + b - 1) hb
  rw [Nat.mul_comm] at h1
  constructor <;> omega

/-- Number of symbols before spreading. -/
def payloadN (p : OfdmParams) (len : Nat) : Nat := ceilDiv (len + 6) p.nDbps

theorem rate_facts : ∀ p ∈ allSupported, (rateIs34 p.mcs = true → 4 * p.nDbps = 3 * p.nCbps ∧ p.nDbps % 3 = 0) ∧
    (rateIs34 p.mcs = false → 2 * p.nDbps = p.nCbps) ∧ 6 ≤ p.nDbps := by
  decide +kernel

theorem padding_length {p : OfdmParams} (h : Supported p) (m : Bits) :
    (p.padding m).1.length = payloadN p m.length * p.nDbps ∧ (p.padding m).2 = payloadN p m.length * p.nDbps - (m.length + 6) := by
  have hf := (rate_facts p (mem_allSupported h)).2.2
  have := (ceilDiv_spec (a := m.length + 6) (b := p.nDbps) (by omega)).1
  unfold OfdmParams.padding payloadN
  refine ⟨?_, rfl⟩
  simp only [List.length_append, List.length_replicate]
  omega

theorem setSlice_length {α} (l : List α) (a b : Int) (v : α) : (setSlice l a b v).length = l.length := by simp [setSlice]

theorem Pn9.nextN_length (g : Pn9) (n : Nat) : (g.nextN n).1.length = n := by rw [Pn9.nextN_fst]; simp

theorem scrambler_length (m : Bits) (s : Nat) : (SunPhy.scrambler m s).length = m.length := by
  unfold SunPhy.scrambler
  rw [List.length_zipWith, Pn9.nextN_length, Nat.min_self]

theorem payloadScrambled_length {p : OfdmParams} (h : Supported p) (m : Bits) :
    (p.payloadScrambled m).length = payloadN p m.length * p.nDbps := by
  unfold OfdmParams.payloadScrambled
  simp only
  rw [setSlice_length, scrambler_length, (padding_length h m).1]

/-- The code bits (no failure). -/
def encodeBits (x : Bits) (is34 : Bool) : Bits :=
  if is34 then C12.puncture (rateHalfOut (rateHalfInit 0) x) else rateHalfOut (rateHalfInit 0) x

theorem encoder_ok {x : Bits} {is34 : Bool} (h : is34 = true → x.length % 3 = 0 ∧ x ≠ []) :
    OfdmParams.encoder x is34 = .ok (encodeBits x is34) := by
  unfold OfdmParams.encoder encodeBits
  cases is34 with
  | false => rfl
  | true =>
    obtain ⟨h1, h2⟩ := h rfl
    obtain ⟨out, e, rfl, -⟩ := C12.C12_punctured (rateHalfInit 0) x h1 h2
    simp only [if_true, e]
    rfl

/-- The coded payload. -/
def payloadCode (p : OfdmParams) (m : Bits) : Bits := encodeBits (p.payloadScrambled m) (rateIs34 p.mcs)

theorem payloadN_pos {p : OfdmParams} (h : Supported p) (len : Nat) : 1 ≤ payloadN p len := by
  have hf := (rate_facts p (mem_allSupported h)).2.2
  have := (ceilDiv_spec (a := len + 6) (b := p.nDbps) (by omega)).1
  unfold payloadN
  by_contra hc
  have h0 : ceilDiv (len + 6) p.nDbps = 0 := by omega
  rw [h0, Nat.zero_mul] at this
  omega

theorem payload_enc {p : OfdmParams} (h : Supported p) (m : Bits) :
    p.payloadEncoded m = .ok (payloadCode p m) ∧ (payloadCode p m).length = payloadN p m.length * p.nCbps := by
  obtain ⟨f1, f2, f3⟩ := rate_facts p (mem_allSupported h)
  have hl := payloadScrambled_length h m
  have hp := payloadN_pos h m.length
  have hpos : 6 ≤ payloadN p m.length * p.nDbps := Nat.le_trans f3 (Nat.le_mul_of_pos_left _ hp)
  have h3 : rateIs34 p.mcs = true → (p.payloadScrambled m).length % 3 = 0 ∧ p.payloadScrambled m ≠ [] := by
    intro e
    refine ⟨?_, ?_⟩
    · rw [hl, Nat.mul_mod, (f1 e).2]; simp
    · intro e; rw [e] at hl; simp only [List.length_nil] at hl; omega
  refine ⟨encoder_ok h3, ?_⟩
  unfold payloadCode encodeBits
  cases hr : rateIs34 p.mcs with
  | false =>
    simp only [Bool.false_eq_true, if_false]
    rw [rateHalfOut_length, hl, ← f2 hr, Nat.mul_left_comm]
  | true =>
    obtain ⟨g1, g2⟩ := h3 hr
    obtain ⟨out, -, rfl, hlen⟩ := C12.C12_punctured (rateHalfInit 0) _ g1 g2
    simp only [if_true]
    rw [hl] at hlen
    have : payloadN p m.length * (4 * p.nDbps) = payloadN p m.length * (3 * p.nCbps) := by rw [(f1 hr).1]
    rw [Nat.mul_left_comm, Nat.mul_left_comm _ 3] at this
    omega

/-- The coded, interleaved payload. -/
def payloadCoded (p : OfdmParams) (m : Bits) : Bits := p.interleaver (payloadCode p m) p.mcs

/-- Number of OFDM symbols of the payload. -/
def payloadSymbols (p : OfdmParams) (len : Nat) : Nat := payloadN p len * freqSpreading p.mcs

theorem payloadCoded_length {p : OfdmParams} (h : Supported p) (m : Bits) :
    (payloadCoded p m).length = payloadSymbols p m.length * splitN p p.mcs := by
  have ho := option_cases h
  obtain ⟨-, -, -, -, -, f6, -⟩ := split_facts p.option (by simp; omega) p.mcs (mcs_le h)
  unfold payloadCoded payloadSymbols splitN
  rw [interleaver_length, (payload_enc h m).2, Nat.mul_assoc, f6]
  rfl

/-! ### The frame -/

noncomputable section

/-- Samples of a list of symbols. -/
def symbolsIQ (cols : List (List ℂ)) : List ℂ := cols.flatMap fun col => cyclicPrefix (1 / 4) (ofdmIfft col)

/-- OFDM symbols of the header. -/
def headerSyms (p : OfdmParams) (len : Nat) : List (List ℂ) :=
  streamSymbols (p.ofdmCfg (lowestMcs p.option) ℂ) (complexNumbers (kMod (mcsModulation (lowestMcs p.option)))) (optPilots ℂ p.option)
    (splitN p (lowestMcs p.option)) OfdmState.init (headerCoded p len)

/-- Pilot state after the header, as handed to the payload modulator. -/
def payloadState (p : OfdmParams) : OfdmState :=
  let s := stateAfter (optPilots ℂ p.option) OfdmState.init (headerSymbols p)
  OfdmState.init s.getPilotSetIndex s.getPn9Value

/-- OFDM symbols of the payload. -/
def payloadSyms (p : OfdmParams) (m : Bits) : List (List ℂ) :=
  streamSymbols (p.ofdmCfg p.mcs ℂ) (complexNumbers (kMod (mcsModulation p.mcs))) (optPilots ℂ p.option)
    (splitN p p.mcs) (payloadState p) (payloadCoded p m)

theorem stfTable_length (o : Nat) : (stfTable o).length = fftSize o := by simp [stfTable]
theorem ltfTable_length : ∀ o ∈ [1, 2, 3, 4], (ltfTable o).length = fftSize o := by decide +kernel

theorem ofdmIfft_length (x : List ℂ) : (ofdmIfft x).length = x.length := by simp [ofdmIfft, ifftOrtho, ifftshift]

theorem cyclicPrefix_length_quarter (x : List ℂ) (h4 : x.length % 4 = 0) (_hp : 0 < x.length) :
    (cyclicPrefix (1 / 4) x).length = 5 * (x.length / 4) := by
  unfold cyclicPrefix
  rw [if_pos (by norm_num)]
  simp only [List.length_append, List.length_drop]
  obtain ⟨k, hk⟩ := Nat.dvd_of_mod_eq_zero h4
  have : ⌊((x.length : ℕ) : ℚ) * (1 / 4)⌋ = (k : Int) := by
    rw [hk]; push_cast
    rw [show (4 : ℚ) * k * (1 / 4) = k by ring]
    exact Int.floor_natCast k
  rw [this]
  unfold pyBound
  split <;> omega

theorem symbolsIQ_length {N : Nat} (h4 : N % 4 = 0) (hp : 0 < N) (cols : List (List ℂ)) (h : ∀ c ∈ cols, c.length = N) :
    (symbolsIQ cols).length = cols.length * (5 * (N / 4)) := by
  unfold symbolsIQ
  apply flatMap_length_const
  intro c hc
  have := h c hc
  rw [cyclicPrefix_length_quarter _ (by rw [ofdmIfft_length, this]; exact h4) (by rw [ofdmIfft_length, this]; exact hp), ofdmIfft_length, this]

/-- The STF exists. -/
def stfIQ (p : OfdmParams) : List ℂ :=
  let s := cyclicPrefix (1 / 4) (ofdmIfft (stfTable p.option))
  (s ++ s ++ s ++ List.zipWith (· * ·) s (List.replicate (s.length / 5 * 3) 1 ++ List.replicate (s.length / 5 * 2) (-1))).map (· * (1.25 : ℂ))

theorem fft_facts : ∀ o ∈ [1, 2, 3, 4], fftSize o % 8 = 0 ∧ 0 < fftSize o := by decide

theorem stf_ok {p : OfdmParams} (h : Supported p) : p.stf = .ok (stfIQ p) := by
  obtain ⟨f1, f2⟩ := fft_facts p.option (by have := option_cases h; simp; omega)
  unfold OfdmParams.stf subcarriersToIQ stfIQ
  rw [if_neg (by rw [stfTable_length]; simp)]
  simp only [bind, Except.bind]
  rw [bcast_eq]
  · rfl
  · rw [cyclicPrefix_length_quarter _ (by rw [ofdmIfft_length, stfTable_length]; omega) (by rw [ofdmIfft_length, stfTable_length]; omega),
      ofdmIfft_length, stfTable_length]
    simp only [List.length_append, List.length_replicate]
    omega

/-- The LTF. -/
def ltfIQ (p : OfdmParams) : List ℂ :=
  let s := ofdmIfft ((ltfTable p.option).map fun (v : Int) => ((v : Int) : ℂ))
  s.drop (s.length / 2) ++ s ++ s

theorem ltf_ok {p : OfdmParams} (h : Supported p) : p.ltf = .ok (ltfIQ p) := by
  have hl := ltfTable_length p.option (by have := option_cases h; simp; omega)
  unfold OfdmParams.ltf subcarriersToIQ ltfIQ
  rw [if_neg (by rw [List.length_map, hl]; simp)]
  simp only [bind, Except.bind, cyclicPrefix]
  rw [if_neg (by norm_num)]
  rfl

/-- The complete frame. -/
def frameIQ (p : OfdmParams) (m : Bits) : List ℂ :=
  stfIQ p ++ ltfIQ p ++ symbolsIQ (headerSyms p (m.length / 8)) ++ symbolsIQ (payloadSyms p m)

/-- Sampling frequency. -/
def ofdmFs (p : OfdmParams) : ℚ := fftSize p.option * (1 + 1 / 4) / (120 / 1000000)

theorem init_index {p : OfdmParams} (h : Supported p) : (OfdmState.init).pilotsColumnIndex < (optPilots ℂ p.option).sets.length := by
  have := (goodCfg h 0 ℂ).sets
  exact List.length_pos_of_ne_nil this

theorem header_mod_ok {p : OfdmParams} (h : Supported p) {n : Nat} (h1 : 1 ≤ n) (h2 : n ≤ 2047) :
    (ofdmBitsToIQ (p.ofdmCfg (lowestMcs p.option) ℂ) (kMod (mcsModulation (lowestMcs p.option))) (1 / 4) (headerCoded p n)).call OfdmState.init =
      (.ok (symbolsIQ (headerSyms p n)), stateAfter (optPilots ℂ p.option) OfdmState.init (headerSymbols p)) := by
  have hl := headerCoded_length h h1 h2
  have g := goodMod h (lowestMcs_le p.option) ℂ
  rw [ofdmBitsToIQ_ok g _ _ _ (by rw [hl]; simp) _ _ (init_index h)]
  · rw [hl, Nat.mul_div_cancel _ g.pos]; rfl
  · have f := (header_facts p (mem_allSupported h)).1
    have f2 := (header_facts p (mem_allSupported h)).2
    rw [hl]
    unfold headerSymbols
    rw [Nat.div_mul_cancel (Nat.dvd_of_mod_eq_zero f)]
    omega

theorem payload_mod_ok {p : OfdmParams} (h : Supported p) (m : Bits) :
    (ofdmBitsToIQ (p.ofdmCfg p.mcs ℂ) (kMod (mcsModulation p.mcs)) (1 / 4) (payloadCoded p m)).call (payloadState p) =
      (.ok (symbolsIQ (payloadSyms p m)), stateAfter (optPilots ℂ p.option) (payloadState p) (payloadSymbols p m.length)) := by
  have hl := payloadCoded_length h m
  have g := goodMod h (mcs_le h) ℂ
  rw [ofdmBitsToIQ_ok g _ _ _ (by rw [hl]; simp) _ _ (show (payloadState p).pilotsColumnIndex < _ from stateAfter_index_lt g.cfg.sets _ _)]
  · rw [hl, Nat.mul_div_cancel _ g.pos]; rfl
  · have hl2 := (payload_enc h m).2
    have ho := option_cases h
    obtain ⟨-, -, -, -, -, -, -, f8⟩ := split_facts p.option (by simp; omega) p.mcs (mcs_le h)
    have hp := payloadN_pos h m.length
    unfold payloadCoded
    rw [interleaver_length, hl2]
    have : 12 ≤ payloadN p m.length * p.nCbps := Nat.le_trans f8 (Nat.le_mul_of_pos_left _ hp)
    omega

theorem payloadState_eq (p : OfdmParams) : payloadState p =
    OfdmState.init (stateAfter (optPilots ℂ p.option) OfdmState.init (headerSymbols p)).getPilotSetIndex
      (stateAfter (optPilots ℂ p.option) OfdmState.init (headerSymbols p)).getPn9Value := rfl

theorem headerM_ok {o : OfdmObj} (h : Supported o.params) {n : Nat} (h1 : 1 ≤ n / 8) (h2 : n / 8 ≤ 2047) :
    (ofdmPhrM n).call o = (.ok (symbolsIQ (headerSyms o.params (n / 8)),
      stateAfter (optPilots ℂ o.params.option) OfdmState.init (headerSymbols o.params)),
      { o with PHY_header := some (headerBits o.params (n / 8))
               PHY_header_encoded := some (rateHalfOut (rateHalfInit 0) (headerBits o.params (n / 8)))
               ij := some (o.params.intlIJ (lowestMcs o.params.option))
               PHY_header_interleaved := some (headerCoded o.params (n / 8)) }) := by
  have hr := lowest_rate o.params.option (by have := option_cases h; simp; omega)
  unfold ofdmPhrM ofdmInterleaverM
  simp only [PyM.call_bind, PyM.call_get, PyM.seqR_ok, PyM.call_lift, (phyHeader_ok h h1 h2).1, PyM.call_modify, PyM.call_attr,
    PyM.call_pure, hr]
  rw [show OfdmParams.encoder (headerBits o.params (n / 8)) false = .ok (rateHalfOut (rateHalfInit 0) (headerBits o.params (n / 8))) from rfl]
  simp only [PyM.seqR_ok, PyM.call_bind, PyM.call_get, PyM.call_lift, PyM.call_modify, PyM.call_attr, PyM.call_pure]
  have := header_mod_ok h h1 h2
  unfold headerCoded at this
  rw [this]
  simp only [PyM.seqR_ok, PyM.call_pure]
  rfl

theorem payloadM_ok {o : OfdmObj} (h : Supported o.params) (m : Bits) :
    (ofdmPayloadM m (stateAfter (optPilots ℂ o.params.option) OfdmState.init (headerSymbols o.params))).call o =
      (.ok (symbolsIQ (payloadSyms o.params m)),
      { o with N_PAD := some (o.params.padding m).2
               payload_pad := some (o.params.padding m).1
               payload_scrambled := some (o.params.payloadScrambled m)
               payload_encoded := some (payloadCode o.params m)
               ij := some (o.params.intlIJ o.params.mcs)
               payload_interleaved := some (payloadCoded o.params m) }) := by
  unfold ofdmPayloadM ofdmInterleaverM ofdmPaddingM
  simp only [PyM.call_bind, PyM.call_get, PyM.seqR_ok, PyM.call_lift, PyM.call_modify, PyM.call_attr, PyM.call_pure]
  have e := (payload_enc h m).1
  unfold OfdmParams.payloadEncoded OfdmParams.payloadScrambled at e
  simp only at e
  rw [e]
  simp only [PyM.seqR_ok, PyM.call_bind, PyM.call_get, PyM.call_lift, PyM.call_modify, PyM.call_attr, PyM.call_pure]
  have := payload_mod_ok h m
  unfold payloadCoded at this
  rw [← payloadState_eq, this]
  rfl

/-- `bitsToIQ` on a message of 1..2047 octets (and up to 7 further bits): the frame, independently of the object's history. -/
theorem bitsToIQ_ok {o : OfdmObj} (h : Supported o.params) {a : Arg} {m : Bits} (ha : checkBinaryArray a = .ok m)
    (h1 : 1 ≤ m.length / 8) (h2 : m.length / 8 ≤ 2047) :
    ∃ o', (ofdmModBitsToIQ a).call o = (.ok (frameIQ o.params m, ofdmFs o.params), o') ∧ o'.params = o.params := by
  unfold ofdmModBitsToIQ
  simp only [PyM.call_bind, PyM.call_get, PyM.seqR_ok, PyM.call_lift, ha, stf_ok h, ltf_ok h, headerM_ok h h1 h2, PyM.call_modify,
    PyM.call_attr, PyM.call_pure]
  rw [payloadM_ok (o := { o with
               PHY_header := some (headerBits o.params (m.length / 8))
               PHY_header_encoded := some (rateHalfOut (rateHalfInit 0) (headerBits o.params (m.length / 8)))
               ij := some (o.params.intlIJ (lowestMcs o.params.option))
               PHY_header_interleaved := some (headerCoded o.params (m.length / 8))
               mod_phy := some (stateAfter (optPilots ℂ o.params.option) OfdmState.init (headerSymbols o.params)) }) h m]
  exact ⟨_, rfl, rfl⟩

end
end SunPhy
