import Verif.Proofs.ConsoleSame
import Verif.Proofs.OfdmResult
import Verif.Spec.ConsoleLines
import Verif.Props.C18
/-
The lines printed by `Mr_ofdm_modulator`.
-/
namespace SunPhy
open PyM Spec

theorem fftOf_eq {p : OfdmParams} (h : Supported p) : fftSize p.option = Out.fftOf p.option ∧ Out.fftOf p.option % 8 = 0 ∧ 0 < Out.fftOf p.option := by
  have : ∀ o ∈ [1, 2, 3, 4], fftSize o = Out.fftOf o ∧ Out.fftOf o % 8 = 0 ∧ 0 < Out.fftOf o := by decide
  exact this p.option (by have := option_cases h; simp; omega)

theorem stfP_out {p : OfdmParams} (h : Supported p) (c : Console OfdmObj) :
    (stfP true p).call c = (.ok (stfIQ p), ⟨c.obj, c.out ++ ["Creating STF....", stfDrawing, s!"    STF signal is {5 * Out.fftOf p.option} elements"]⟩) := by
  obtain ⟨e, f1, f2⟩ := fftOf_eq h
  have hl : (cyclicPrefix (1 / 4) (ofdmIfft (stfTable p.option))).length = 5 * (Out.fftOf p.option / 4) := by
    rw [cyclicPrefix_length_quarter _ (by rw [ofdmIfft_length, stfTable_length]; omega) (by rw [ofdmIfft_length, stfTable_length]; omega),
      ofdmIfft_length, stfTable_length, e]
  unfold stfP subcarriersToIQ
  rw [if_neg (by rw [stfTable_length]; simp)]
  simp only [call_bind, say_true, call_printLine, seqR_ok, call_lift]
  rw [bcast_eq]
  · simp only [seqR_ok, call_bind, call_printLine, call_pure, List.append_assoc, List.cons_append, List.nil_append]
    have : (cyclicPrefix (1 / 4) (ofdmIfft (stfTable p.option)) ++ (cyclicPrefix (1 / 4) (ofdmIfft (stfTable p.option)) ++ (cyclicPrefix (1 / 4) (ofdmIfft (stfTable p.option)) ++
        List.zipWith (· * ·) (cyclicPrefix (1 / 4) (ofdmIfft (stfTable p.option)))
          (List.replicate ((cyclicPrefix (1 / 4) (ofdmIfft (stfTable p.option))).length / 5 * 3) 1 ++
            List.replicate ((cyclicPrefix (1 / 4) (ofdmIfft (stfTable p.option))).length / 5 * 2) (-1))))).length = 5 * Out.fftOf p.option := by
      simp only [List.length_append, List.length_zipWith, List.length_replicate, hl]
      omega
    rw [this]
    unfold stfIQ
    simp only [List.append_assoc]
  · rw [hl]
    simp only [List.length_append, List.length_replicate]
    omega

theorem ltfP_out {p : OfdmParams} (h : Supported p) (c : Console OfdmObj) :
    (ltfP true p).call c = (.ok (ltfIQ p), ⟨c.obj, c.out ++ ["Generating LTF...", "    LTF signal looks like : |CP----|----|",
      s!"    LTF signal is {5 * Out.fftOf p.option / 2} elements"]⟩) := by
  obtain ⟨e, f1, f2⟩ := fftOf_eq h
  have hl := ltfTable_length p.option (by have := option_cases h; simp; omega)
  unfold ltfP subcarriersToIQ ltfIQ
  rw [if_neg (by rw [List.length_map, hl]; simp)]
  simp only [call_bind, say_true, call_printLine, seqR_ok, call_lift, cyclicPrefix]
  rw [if_neg (by norm_num)]
  simp only [call_pure, List.append_assoc, List.cons_append, List.nil_append]
  have : ((ofdmIfft ((ltfTable p.option).map fun (v : Int) => ((v : Int) : ℂ))).drop ((ofdmIfft ((ltfTable p.option).map fun (v : Int) => ((v : Int) : ℂ))).length / 2) ++
      (ofdmIfft ((ltfTable p.option).map fun (v : Int) => ((v : Int) : ℂ)) ++ ofdmIfft ((ltfTable p.option).map fun (v : Int) => ((v : Int) : ℂ)))).length =
      5 * Out.fftOf p.option / 2 := by
    simp only [List.length_append, List.length_drop, ofdmIfft_length, List.length_map, hl]
    omega
  rw [this]

theorem header_numbers : ∀ p ∈ allSupported, p.phrLength = Out.headerCode p.mcs p.option p.interleaving / 2 ∧ 2 * p.phrLength = Out.headerCode p.mcs p.option p.interleaving ∧
    headerSymbols p = Out.headerSyms p.mcs p.option p.interleaving ∧ p.nDbps = Out.dataBits p.mcs p.option ∧ 6 ≤ p.nDbps := by decide +kernel

theorem phrP_out {c : Console OfdmObj} (h : Supported c.obj.params) {n : Nat} (h1 : 1 ≤ n / 8) (h2 : n / 8 ≤ 2047) :
    ((ofdmPhrP true n).call c).2.out = c.out ++ [
      Out.blue ++ "Generating PHY header...",
      Out.blue ++ s!"header : {Out.headerCode c.obj.params.mcs c.obj.params.option c.obj.params.interleaving / 2} bits",
      Out.blue ++ s!"header after encoding : {Out.headerCode c.obj.params.mcs c.obj.params.option c.obj.params.interleaving} bits",
      Out.blue ++ s!"header after interleaving : {Out.headerCode c.obj.params.mcs c.obj.params.option c.obj.params.interleaving} bits",
      Out.blue ++ s!"header complex (I+jQ) signal is {Out.headerSyms c.obj.params.mcs c.obj.params.option c.obj.params.interleaving * (5 * Out.fftOf c.obj.params.option / 4)} samples" ++ "\x1b[39m"] := by
  obtain ⟨n1, n2, n3, -⟩ := header_numbers _ (mem_allSupported h)
  obtain ⟨e, f1, f2⟩ := fftOf_eq h
  have hr := lowest_rate c.obj.params.option (by have := option_cases h; simp; omega)
  have hlen : (symbolsIQ (headerSyms c.obj.params (n / 8))).length =
      Out.headerSyms c.obj.params.mcs c.obj.params.option c.obj.params.interleaving * (5 * Out.fftOf c.obj.params.option / 4) := by
    obtain ⟨iq, st, o', e', hl⟩ := C18.header_samples h n h1 h2
    rw [headerM_ok h h1 h2] at e'
    have e'' := congrArg (fun r => r.1) e'
    have := congrArg Prod.fst (Except.ok.inj e'')
    simp only at this
    rw [this, hl, n3]
    unfold C18.symbolSamples
    rw [e]
    congr 1
    omega
  have l1 := (phyHeader_ok h h1 h2).2
  have l2 : (rateHalfOut (rateHalfInit 0) (headerBits c.obj.params (n / 8))).length = 2 * c.obj.params.phrLength := by rw [rateHalfOut_length, l1]
  have l3 : (c.obj.params.interleaver (rateHalfOut (rateHalfInit 0) (headerBits c.obj.params (n / 8))) (lowestMcs c.obj.params.option)).length = 2 * c.obj.params.phrLength := by
    rw [interleaver_length, l2]
  have hm := header_mod_ok h h1 h2
  unfold headerCoded at hm
  unfold ofdmPhrP ofdmInterleaverM
  simp only [call_bind, call_quietly, call_get, seqR_ok, call_lift, (phyHeader_ok h h1 h2).1, call_modify, call_attr, call_pure, hr, say_true, call_printLine]
  rw [show OfdmParams.encoder (headerBits c.obj.params (n / 8)) false = .ok (rateHalfOut (rateHalfInit 0) (headerBits c.obj.params (n / 8))) from rfl]
  simp only [call_bind, call_quietly, call_get, seqR_ok, call_lift, call_modify, call_attr, call_pure, say_true, call_printLine]
  rw [hm]
  simp only [call_bind, seqR_ok, call_lift, call_pure, say_true, call_printLine, List.append_assoc, List.cons_append, List.nil_append, l1, l2, l3, hlen]
  rw [n2, n1]
  rfl

theorem Shadows.call {σ α : Type} {m' : PyM (Console σ) α} {m : PyM σ α} (h : Shadows m' m) (c : Console σ) :
    m'.call c = ((m.call c.obj).1, ⟨(m.call c.obj).2, (m'.call c).2.out⟩) := by
  obtain ⟨l, hl⟩ := h
  rw [hl c]

/-- The first seven lines: all that a call prints when the length does not fit the header. -/
theorem phrP_error_out {c : Console OfdmObj} (h : Supported c.obj.params) {n : Nat} (hn : ¬ (1 ≤ n / 8 ∧ n / 8 ≤ 2047)) :
    ((ofdmPhrP true n).call c).2.out = c.out ++ [Out.blue ++ "Generating PHY header..."] := by
  have hl := C14.C14_sizes c.obj.params h
  have e : c.obj.params.phyHeader n = .error .ValueError :=
    (C15.C15_header c.obj.params.mcs (n / 8) c.obj.params.scrambler c.obj.params.phrLength (mcs_le h) h.2.2 (by omega)).2 hn
  unfold ofdmPhrP
  simp only [call_bind, call_quietly, call_get, seqR_ok, call_lift, e, say_true, call_printLine, seqR_error]
  rfl

theorem payloadP_out {c : Console OfdmObj} (h : Supported c.obj.params) (m : Bits) (st : OfdmState) :
    let d := Out.dataBits c.obj.params.mcs c.obj.params.option
    let k := (m.length + 6 + (d - 1)) / d
    ((ofdmPayloadP true m st).call c).2.out = c.out ++ [
      s!"Adding {k * d - (m.length + 6)} padding bits (0s) and 6 tail bits (0s) to the message ({m.length} + {k * d - (m.length + 6)} + 6 -> {k * d})",
      s!"Message will use {k} symbols ({d} data bits per symbol)"] := by
  intro d k
  obtain ⟨-, -, -, n4, n5⟩ := header_numbers _ (mem_allSupported h)
  have hd : d = c.obj.params.nDbps := n4.symm
  have hk : ceilDiv (m.length + 6) c.obj.params.nDbps = k := by
    show (m.length + 6 + c.obj.params.nDbps - 1) / c.obj.params.nDbps = (m.length + 6 + (d - 1)) / d
    rw [hd]
    congr 1
    omega
  obtain ⟨l1, l2⟩ := padding_length h m
  have hp : payloadN c.obj.params m.length = k := hk
  rw [hp, ← hd] at l1
  rw [hp, ← hd] at l2
  have e : (ofdmPaddingP true m).call c = (.ok (c.obj.params.padding m).1, ⟨{ c.obj with N_PAD := some (c.obj.params.padding m).2 }, c.out ++ [
      s!"Adding {k * d - (m.length + 6)} padding bits (0s) and 6 tail bits (0s) to the message ({m.length} + {k * d - (m.length + 6)} + 6 -> {k * d})",
      s!"Message will use {k} symbols ({d} data bits per symbol)"]⟩) := by
    unfold ofdmPaddingP ofdmPaddingM
    simp only [call_bind, call_quietly, call_get, seqR_ok, call_modify, call_attr, call_pure, say_true, call_printLine]
    rw [hk, l1, ← hd, l2]
    simp only [List.append_assoc, List.cons_append, List.nil_append]
  unfold ofdmPayloadP
  rw [call_bind, call_quietly, call_get, seqR_ok, call_bind, e, seqR_ok, call_quietly]

theorem seqR_pure_out {σ α β : Type} (r : Res α × Console σ) (f : α → β) : (seqR r fun a => (pure (f a) : PyM (Console σ) β)).2.out = r.2.out := by
  obtain ⟨r, c⟩ := r
  cases r <;> rfl

/-- Everything a verbose `bitsToIQ` prints, whatever happens. -/
theorem ofdmBitsP_out {c : Console OfdmObj} (h : Supported c.obj.params) (a : Arg) :
    ((ofdmModBitsToIQP true a).call c).2.out = c.out ++
      (match checkBinaryArray a with
       | .error _ => []
       | .ok m => (Out.ofdmLines c.obj.params.mcs c.obj.params.option c.obj.params.interleaving m.length).take
          (if 1 ≤ m.length / 8 ∧ m.length / 8 ≤ 2047 then 13 else 7)) := by
  unfold ofdmModBitsToIQP
  rw [call_bind, call_quietly, call_lift]
  cases checkBinaryArray a with
  | error e => simp [seqR_error]
  | ok m =>
    rw [seqR_ok, call_bind, call_quietly, call_get, seqR_ok]
    dsimp only
    rw [call_bind, stfP_out h, seqR_ok, call_bind, ltfP_out h, seqR_ok, call_bind, Shadows.call (ofdmPhrP_shadows true m.length)]
    dsimp only
    by_cases hn : 1 ≤ m.length / 8 ∧ m.length / 8 ≤ 2047
    · rw [phrP_out (by exact h) hn.1 hn.2, headerM_ok h hn.1 hn.2, if_pos hn, seqR_ok]
      dsimp only
      rw [call_bind, call_quietly, call_modify, seqR_ok, call_bind, call_quietly, call_attr]
      dsimp only
      rw [seqR_ok, call_bind, seqR_pure_out, payloadP_out (by exact h) m]
      simp only [List.append_assoc, List.cons_append, List.nil_append]
      rfl
    · rw [phrP_error_out (by exact h) hn, phrM_error h hn, if_neg hn, seqR_error]
      dsimp only
      simp only [List.append_assoc, List.cons_append, List.nil_append]
      rfl

end SunPhy
