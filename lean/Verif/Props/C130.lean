import Verif.Proofs.ConsoleOfdm
import Verif.Proofs.ConsoleOqpsk
import Verif.Proofs.ConsoleRefused
import Verif.Proofs.ConsoleQuiet
import Verif.Proofs.ConsoleModulator
import Verif.Props.C103
import Verif.Props.C28
/-
C130 — what the modulators print, and that printing changes nothing else.
-/
namespace SunPhy.C130
open SunPhy Spec C63

/-- A call `m'` of the printing method and the call `m` of the method as modelled without printing: same value or exception, same object afterwards, earlier output kept. -/
def SameCall {σ α : Type} (m' : PyM (Console σ) α) (m : PyM σ α) : Prop :=
  ∀ c : Console σ, (m'.call c).1 = (m.call c.obj).1 ∧ (m'.call c).2.obj = (m.call c.obj).2 ∧ ∃ lines, (m'.call c).2.out = c.out ++ lines

theorem same_of_shadows {σ α : Type} {m' : PyM (Console σ) α} {m : PyM σ α} (h : Shadows m' m) : SameCall m' m := by
  obtain ⟨l, hl⟩ := h
  intro c
  rw [hl c]
  exact ⟨rfl, rfl, _, rfl⟩

/-- **C130 (nothing else changes).**  With the flag on or off, in any state, for any argument. -/
theorem C130_same (v : Bool) :
    (∀ a, SameCall (ofdmModBitsToIQP v a) (ofdmModBitsToIQ a)) ∧ (∀ a, SameCall (ofdmModBytesToIQP v a) (ofdmModBytesToIQ a)) ∧
    (∀ a, SameCall (oqpskBitsToIQP v a) (oqpskBitsToIQ a)) ∧ (∀ a, SameCall (oqpskBytesToIQP v a) (oqpskBytesToIQ a)) ∧
    (∀ t f CP a pad, SameCall (OfdmRun.bitsToIQP v t f CP a pad) (OfdmRun.bitsToIQ f CP a pad)) :=
  ⟨fun a => same_of_shadows (ofdmModBitsToIQP_shadows v a), fun a => same_of_shadows (ofdmModBytesToIQP_shadows v a),
   fun a => same_of_shadows (oqpskBitsToIQP_shadows v a), fun a => same_of_shadows (oqpskBytesToIQP_shadows v a),
   fun t f CP a pad => same_of_shadows (bitsToIQP_shadows v t f CP a pad)⟩

/-- **C130 (constructor).**  Same object or exception; one line, printed only with the flag on and only by a constructor that succeeds. -/
theorem C130_constructor (v : Bool) (m o i s : PyVal) :
    (mrOfdmInitP v m o i s).1 = mrOfdmInit m o i s ∧
    (v = true → ∀ p, mrOfdmInit m o i s = .ok p →
      (mrOfdmInitP v m o i s).2 = ["\x1b[36mInstanciating a modulator with OFDM Option = " ++ o.show ++ " and MCS = " ++ m.show ++ "\x1b[39m"]) ∧
    (v = false ∨ (∃ e, mrOfdmInit m o i s = .error e) → (mrOfdmInitP v m o i s).2 = []) := by
  have ts : ∀ s : String, toString s = s := fun _ => rfl
  unfold mrOfdmInitP
  cases h : mrOfdmInit m o i s with
  | error e => simp
  | ok p =>
    cases v
    · simp
    · refine ⟨rfl, fun _ _ _ => ?_, by simp⟩
      simp only [if_true, ts, List.cons.injEq, and_true]
      apply String.toList_inj.1
      simp [foreCyan, foreReset]

/-- An argument as printed: a Boolean by name, otherwise the decimal digits of the number that is used. -/
def announced (v : PyVal) (n : Nat) : String :=
  if v = .bool true then "True" else if v = .bool false then "False" else String.ofList (Nat.toDigits 10 n)

theorem show_announced (v : PyVal) (z : Int) (h : v.asInt? = some z) (h0 : 0 ≤ z) : v.show = announced v z.toNat := by
  cases v with
  | int i =>
    simp only [PyVal.asInt?, Option.some.injEq] at h
    subst h
    obtain ⟨n, rfl⟩ := Int.eq_ofNat_of_zero_le h0
    rfl
  | bool b => cases b <;> rfl
  | _ => cases h

/-- **C130 (constructor line).**  With the flag on, a constructor that succeeds prints the option and the MCS that the object will use. -/
theorem C130_announced (m o i s : PyVal) (p : OfdmParams) (h : mrOfdmInit m o i s = .ok p) :
    (mrOfdmInitP true m o i s).2 =
      ["\x1b[36mInstanciating a modulator with OFDM Option = " ++ announced o p.option ++ " and MCS = " ++ announced m p.mcs ++ "\x1b[39m"] := by
  rw [(C130_constructor true m o i s).2.1 rfl p h]
  unfold mrOfdmInit at h
  split at h
  · cases h
  rename_i mcs hm
  split at h
  · cases h
  rename_i r1
  split at h
  · cases h
  rename_i opt ho
  split at h
  · cases h
  rename_i r2
  repeat' split at h
  all_goals first | cases h | skip
  rw [show_announced o opt ho (by omega), show_announced m mcs hm (by omega)]

example : (mrOfdmInitP true (.int 3) (.bool true) (.int 0) (.int 0)).2 = ["\x1b[36mInstanciating a modulator with OFDM Option = True and MCS = 3\x1b[39m"] := by
  rw [C130_announced (.int 3) (.bool true) (.int 0) (.int 0) ⟨3, 1, 0, 0⟩ (by rfl)]
  rfl

/-- **C130 (flag off).**  MR-OFDM, the OFDM modulator and MR-O-QPSK with DSSS print nothing, whatever the outcome. -/
theorem C130_quiet :
    (∀ a c, ((ofdmModBitsToIQP false a).call c).2.out = c.out) ∧ (∀ a c, ((ofdmModBytesToIQP false a).call c).2.out = c.out) ∧
    (∀ a c, c.obj.params.sm = 0 → ((oqpskBitsToIQP false a).call c).2.out = c.out ∧ ((oqpskBytesToIQP false a).call c).2.out = c.out) ∧
    (∀ t f CP a pad c, ((OfdmRun.bitsToIQP false t f CP a pad).call c).2.out = c.out) := by
  refine ⟨ofdmModBitsToIQP_quiet, ofdmModBytesToIQP_quiet, fun a c h => ⟨oqpskBitsToIQP_quiet a c h, ?_⟩, fun t f CP a pad => bitsToIQP_quiet t f CP a pad⟩
  unfold oqpskBytesToIQP
  rw [PyM.call_bind, call_quietly, PyM.call_lift]
  cases toBinaryArray a with
  | error e => rfl
  | ok m => rw [PyM.seqR_ok]; exact oqpskBitsToIQP_quiet _ ⟨c.obj, c.out⟩ h

/-- **C130 (MR-OFDM).**  A verbose call on a supported configuration prints nothing if the argument is refused, the seven lines up to the header if the number of whole octets is not in
1..2047 (the header cannot be built), and the thirteen lines otherwise. -/
theorem C130_ofdm_lines (c : Console OfdmObj) (h : Supported c.obj.params) (a : Arg) :
    ((ofdmModBitsToIQP true a).call c).2.out = c.out ++
      (match checkBinaryArray a with
       | .error _ => []
       | .ok m => (Out.ofdmLines c.obj.params.mcs c.obj.params.option c.obj.params.interleaving m.length).take
          (if 1 ≤ m.length / 8 ∧ m.length / 8 ≤ 2047 then 13 else 7)) := ofdmBitsP_out h a

theorem printed_table : ∀ p ∈ allSupported, fftSize p.option = Out.fftOf p.option ∧ C28.headerCount p = Out.headerSyms p.mcs p.option p.interleaving ∧
    C21.bitsPerSymbol p = Out.dataBits p.mcs p.option ∧ Out.fftOf p.option % 4 = 0 := by decide +kernel

/-- **C130 (MR-OFDM sizes).**  The samples announced for the STF, the LTF and the header are those of the frame; the number of symbols announced for the message counts the symbols carrying
the same bits once (the payload has `spreadOf` times as many). -/
theorem C130_ofdm_sizes (o : OfdmObj) (h : Supported o.params) (a : Arg) (m : Bits) (ha : checkBinaryArray a = .ok m) (h1 : 1 ≤ m.length / 8) (h2 : m.length / 8 ≤ 2047) :
    ∃ N hs k d : Nat,
      (let L := Out.ofdmLines o.params.mcs o.params.option o.params.interleaving m.length
       L[2]? = some s!"    STF signal is {5 * N} elements" ∧ L[5]? = some s!"    LTF signal is {5 * N / 2} elements" ∧
       L[10]? = some (Out.blue ++ s!"header complex (I+jQ) signal is {hs * (5 * N / 4)} samples" ++ "\x1b[39m") ∧
       L[12]? = some s!"Message will use {k} symbols ({d} data bits per symbol)") ∧
      ∃ iq fs o', (ofdmModBitsToIQ a).call o = (.ok (iq, fs), o') ∧
        iq.length = 5 * N + 5 * N / 2 + hs * (5 * N / 4) + Spec.spreadOf o.params.mcs * k * (5 * N / 4) := by
  obtain ⟨iq, fs, o', e, hl, -⟩ := C28.C28_size o h a m ha h1 h2
  obtain ⟨t1, t2, t3, t4⟩ := printed_table _ (mem_allSupported h)
  refine ⟨Out.fftOf o.params.option, Out.headerSyms o.params.mcs o.params.option o.params.interleaving,
    (m.length + 6 + (Out.dataBits o.params.mcs o.params.option - 1)) / Out.dataBits o.params.mcs o.params.option, Out.dataBits o.params.mcs o.params.option,
    ⟨rfl, rfl, rfl, rfl⟩, iq, fs, o', e, ?_⟩
  rw [hl, t1, t2]
  unfold C28.payloadCount
  rw [t3]
  ring

/-- **C130 (MR-O-QPSK).**  The lines of a successful call; with MDSSS three of them appear with the flag off too. -/
theorem C130_oqpsk_lines (v : Bool) (c : Console OqpskObj) (h : Standard c.obj.params) (a : Arg) (m : Bits) (ha : checkBinaryArray a = .ok m)
    (hok : ∃ r, ((oqpskBitsToIQ a).call c.obj).1 = .ok r) :
    ((oqpskBitsToIQP v a).call c).2.out =
      c.out ++ Out.oqpskLines v c.obj.params.band (decide (c.obj.params.sm = 1)) c.obj.params.rm.toNat m.length := by
  obtain ⟨r, hr⟩ := hok
  refine bitsP_oqpsk_out v a m ha c _ h r (Prod.ext ?_ rfl)
  rw [((C130_same v).2.2.1 a c).1, hr]

/-- **C130 (MR-O-QPSK, refused messages).**  A call that is refused prints nothing, except with MDSSS and at most 2047 octets: then the lines up to the stage that fails. -/
theorem C130_oqpsk_refused (v : Bool) (c : Console OqpskObj) (h : Standard c.obj.params) (a : Arg) :
    (∀ e, checkBinaryArray a = .error e → ((oqpskBitsToIQP v a).call c).2.out = c.out) ∧
    (∀ m e, checkBinaryArray a = .ok m → ((oqpskBitsToIQ a).call c.obj).1 = .error e →
      ((oqpskBitsToIQP v a).call c).2.out = c.out ++ (if c.obj.params.sm = 1 ∧ m.length / 8 ≤ 2047 then
        Out.oqpskRefusedLines v c.obj.params.band c.obj.params.rm.toNat m.length else [])) := by
  constructor
  · intro e he
    unfold oqpskBitsToIQP oqpskChipsP
    rw [PyM.call_bind, PyM.call_bind, call_quietly, PyM.call_lift, he, PyM.seqR_error, PyM.seqR_error]
  · intro m e ha he
    have hr : ¬ (m.length / 8 ≤ 2047 ∧ C96.Spreadable c.obj.params m.length) := by
      intro hc
      obtain ⟨iq, r, e1, -⟩ := (C96.C96_bits c.obj h a m ha).1 hc
      rw [e1] at he
      cases he
    obtain ⟨c', e', hc, ho⟩ := chipsP_refused v a m ha c h hr
    unfold oqpskBitsToIQP
    rw [PyM.call_bind, hc, PyM.seqR_error]
    exact ho

/-- **C130 (`Ofdm_modulator`).**  The lines of a successful verbose call (`R` constellation points per symbol). -/
theorem C130_modulator_lines (t : OfdmTexts) (f : ℝ) (CP : ℚ) (c : Console (OfdmRun ℂ)) (hw : Built c.obj.stored) (shape : List Nat) (data : List ℚ) (pad : Bool)
    (hok : ∃ iq, ((OfdmRun.bitsToIQ f CP (.arr shape data) pad).call c.obj).1 = .ok iq) :
    ∃ R, pointRows c.obj.stored.modulation c.obj.stored.splitLength.toNat = some R ∧
      ((OfdmRun.bitsToIQP true t f CP (.arr shape data) pad).call c).2.out =
        c.out ++ Out.modulatorLines t.factor t.pilotSet CP c.obj data.length pad R := by
  have hready := ((C103.C103_accepts f CP c.obj hw pad).1 shape data).1 hok
  obtain ⟨iq, hr⟩ := hok
  refine bitsP_modulator_out t f CP c _ hw shape data pad hready iq (Prod.ext ?_ rfl)
  rw [((C130_same true).2.2.2.2 t f CP (.arr shape data) pad c).1, hr]

/-- **C130 (octets).**  `bytesToIQ` prints what `bitsToIQ` prints for the bits of the octets (nothing if the octets are refused). -/
theorem C130_bytes (v : Bool) (a : Arg) :
    (∀ m, toBinaryArray a = .ok m → (∀ c, (ofdmModBytesToIQP v a).call c = (ofdmModBitsToIQP v (bitsArg m)).call c) ∧
      (∀ c, (oqpskBytesToIQP v a).call c = (oqpskBitsToIQP v (bitsArg m)).call c) ∧ (m ≠ [] → checkBinaryArray (bitsArg m) = .ok m)) ∧
    (∀ e, toBinaryArray a = .error e → (∀ c, ((ofdmModBytesToIQP v a).call c).2.out = c.out) ∧ (∀ c, ((oqpskBytesToIQP v a).call c).2.out = c.out)) := by
  refine ⟨fun m h => ⟨fun c => ?_, fun c => ?_, C03.C03_identity m⟩, fun e h => ⟨fun c => ?_, fun c => ?_⟩⟩
  · unfold ofdmModBytesToIQP; rw [PyM.call_bind, call_quietly, PyM.call_lift, h, PyM.seqR_ok]
  · unfold oqpskBytesToIQP; rw [PyM.call_bind, call_quietly, PyM.call_lift, h, PyM.seqR_ok]
  · unfold ofdmModBytesToIQP; rw [PyM.call_bind, call_quietly, PyM.call_lift, h, PyM.seqR_error]
  · unfold oqpskBytesToIQP; rw [PyM.call_bind, call_quietly, PyM.call_lift, h, PyM.seqR_error]

/-! ### The cases are not empty -/

/-- MDSSS at 780 MHz, rate mode 2, 60 bits: seven lines with the flag on, three without. -/
example : Standard ⟨.b780, 2, 1, 10⟩ ∧ C96.Spreadable ⟨.b780, 2, 1, 10⟩ 60 := ⟨⟨by decide, Or.inr ⟨rfl, rfl⟩, by decide⟩, by unfold C96.Spreadable; decide⟩
example : Out.oqpskLines true .b780 true 2 60 = ["TPC N = 8", "Padding binary message with 4 zeros (60 -> 64)", "Splitting message (72,) -> (3, 24)",
    "Applying Hadamard encoder (3, 24) -> (3, 64)", "Applying SPC encodee (3, 64) -> (4, 64)", "TPC Encoding (60,) -> (4, 64)", "Chip rate : 250.00 kchip/s"] := by decide +kernel
example : Out.oqpskLines false .b780 true 2 60 = ["Splitting message (72,) -> (3, 24)", "Applying Hadamard encoder (3, 24) -> (3, 64)", "Applying SPC encodee (3, 64) -> (4, 64)"] := by
  decide +kernel
example : Out.oqpskLines true .b868 false 1 60 = ["Chip rate : 12.50 kchip/s"] ∧ Out.oqpskLines false .b868 false 1 60 = [] := by decide +kernel

/-- MDSSS at 780 MHz, rate mode 2: 13 bits are refused at the first check, 15 bits at the second one. -/
example : ¬ C96.Spreadable ⟨.b780, 2, 1, 10⟩ 13 ∧ ¬ C96.Spreadable ⟨.b780, 2, 1, 10⟩ 15 := by unfold C96.Spreadable; decide
example : Out.oqpskRefusedLines true .b780 2 13 = ["TPC N = 8", "Padding binary message with 5 zeros (13 -> 18)"] ∧
    Out.oqpskRefusedLines true .b780 2 15 = ["TPC N = 8", "Padding binary message with 7 zeros (15 -> 22)", "Splitting message (24,) -> (3, 8)"] ∧
    Out.oqpskRefusedLines false .b780 2 15 = ["Splitting message (24,) -> (3, 8)"] := by decide +kernel

/-- MCS 2, option 3, interleaving 0, ten octets. -/
example : (Out.ofdmLines 2 3 0 80).drop 6 = ["\x1b[94mGenerating PHY header...", "\x1b[94mheader : 36 bits", "\x1b[94mheader after encoding : 72 bits",
    "\x1b[94mheader after interleaving : 72 bits", "\x1b[94mheader complex (I+jQ) signal is 240 samples\x1b[39m",
    "Adding 10 padding bits (0s) and 6 tail bits (0s) to the message (80 + 10 + 6 -> 96)", "Message will use 4 symbols (24 data bits per symbol)"] := by decide +kernel

/-- The sample modulator of C103 (two pilot sets, the first index is -1) sends two symbols. -/
example (t : OfdmTexts) (q : List ℚ) (hq : q.length = 6) : ∃ iq, ((OfdmRun.bitsToIQ 1 (1 / 4) (.arr [1, 6] q) false).call C103.sample.start).1 = .ok iq :=
  ((C103.C103_accepts 1 (1 / 4) C103.sample.start C103.sample_built false).1 _ _).2 (C103.sample_ready q hq)
example : Out.modulatorLines "1.0" toString (1 / 4) C103.sample.start 6 false 3 =
   ["Splitting message...", "    Splitting message from length 6 to (3, 2) (3 channels before mapping and 2 OFDM symbols)", "Constellation mapping using BPSK...",
    "    Modulation factor is 1.0...", "    New message size (3, 2) -> (3, 2) (3 + pilots as IFFT channels and 2 OFDM symbols)", "Frequency spreading of 1 (no modification)",
    "Adding OFDM pilots, DC Tone and padding...", "  Message without pilots :", "    -------- (3x)", "  Adding padding (1, 1)", "    0------0 (3x)", "  Adding DC Tone", "    0---D--0 (8x)",
    "    Adding pilots at [-1, 2] (set -1)", "    Adding pilots at [-2, 1] (set 0)", "Applying iFFT to the signal...", "Adding cyclic prefix...", "    Signal (8, 2) -> (10, 2)"] := by decide +kernel

end SunPhy.C130
