import Verif.Model.NanMessages
import Verif.Props.C115
import Verif.Proofs.NanFskOctets
import Verif.Proofs.NanOqpskBits
import Verif.Props.C69
import Verif.Proofs.OfdmResult
import Verif.Proofs.FskSignal
import Verif.Proofs.RefStream
/-
C144 — what the modulators send when a NaN has switched the bit check off.
-/
namespace SunPhy.C144
open SunPhy Spec OfdmParams
noncomputable section

/-! ### MR-OFDM -/

/-- The bit that an entry of the message counts as, given the whitening bit at its place: an octet of 2 or more defeats the whitening. -/
def counts (key : Bool) (v : Nat) : Bool := if v < 2 then v == 1 else !key

/-- The bit message whose frame is sent. -/
def standIn (p : OfdmParams) (v : List Nat) : Bits := v.mapIdx fun k x => counts (Ref.key (Ref.seed p.scrambler) k) x

theorem counts_xor (key : Bool) (v : Nat) : decide (0 < (b2n key ^^^ v)) = xor key (counts key v) := by
  unfold counts
  by_cases h : v < 2
  · interval_cases v <;> cases key <;> rfl
  · rw [if_neg h]
    have h2 : (b2n key ^^^ v) ≠ 0 := by
      intro e
      rw [Nat.xor_eq_zero_iff] at e
      cases key <;> simp [b2n] at e <;> omega
    rw [decide_eq_true (by omega)]
    cases key <;> rfl

theorem setSlice_map {α β : Type} (f : α → β) (l : List α) (a b : Int) (v : α) : (setSlice l a b v).map f = setSlice (l.map f) a b (f v) := by
  unfold setSlice
  simp only [List.length_map]
  apply List.ext_getElem?
  intro i
  simp only [List.getElem?_map, List.getElem?_zipIdx, Option.map_map]
  cases l[i]? with
  | none => rfl
  | some x =>
    simp only [Option.map_some, Function.comp]
    split <;> rfl

theorem scrambled_eq (p : OfdmParams) (hs : scramblingSeed p.scrambler = Ref.seed p.scrambler) (v : List Nat) :
    (p.payloadScrambledV v).map (fun x => decide (0 < x)) = p.payloadScrambled (standIn p v) := by
  have hl : (standIn p v).length = v.length := by unfold standIn; rw [List.length_mapIdx]
  unfold payloadScrambledV payloadScrambled
  simp only
  rw [setSlice_map]
  have e2 : (p.paddingV v).2 = (p.padding (standIn p v)).2 := by unfold paddingV padding; simp only; rw [hl]
  rw [e2]
  congr 1
  apply List.ext_getElem?
  intro i
  rw [List.getElem?_map, scramblerV_get, scrambler_get, Option.map_map]
  have e1 : (p.padding (standIn p v)).1[i]? = (p.paddingV v).1[i]?.map (counts (Ref.key (scramblingSeed p.scrambler) i)) := by
    unfold paddingV padding
    simp only
    rw [hl, List.append_assoc, List.append_assoc, List.replicate_append_replicate, List.replicate_append_replicate]
    by_cases hi : i < v.length
    · rw [List.getElem?_append_left (by omega), List.getElem?_append_left hi]
      unfold standIn
      rw [List.getElem?_mapIdx, hs]
    · rw [List.getElem?_append_right (by omega), List.getElem?_append_right (by omega), hl, List.getElem?_replicate, List.getElem?_replicate]
      split <;> rfl
  rw [e1, Option.map_map]
  congr 1
  funext x
  exact counts_xor _ _

theorem payload_eq (v : List Nat) (st : OfdmState) (o : OfdmObj) (hs : scramblingSeed o.params.scrambler = Ref.seed o.params.scrambler) :
    ((ofdmPayloadV v st).call o).1 = ((ofdmPayloadM (standIn o.params v) st).call o).1 := by
  have e := scrambled_eq o.params hs v
  unfold payloadScrambled at e
  simp only at e
  unfold ofdmPayloadV ofdmPayloadM ofdmPaddingM encoderV ofdmInterleaverM
  simp only [PyM.call_bind, PyM.call_get, PyM.seqR_ok, PyM.call_lift, PyM.call_modify, PyM.call_attr, PyM.call_pure, e]
  cases encoder _ _ <;> simp only [PyM.call_bind, PyM.call_get, PyM.seqR_ok, PyM.seqR_error, PyM.call_lift, PyM.call_modify, PyM.call_attr, PyM.call_pure]

theorem seqR_fst {σ α β : Type} (x y : Res α × σ) (f : α → PyM σ β) (hf : ∀ r s s', ((f r).call s).1 = ((f r).call s').1) (e : x.1 = y.1) :
    (PyM.seqR x f).1 = (PyM.seqR y f).1 := by
  obtain ⟨x, s⟩ := x
  obtain ⟨y, s'⟩ := y
  simp only at e
  subst e
  cases x with
  | error e => rfl
  | ok v => exact hf v s s'

theorem bitsToIQ_eq (u8 : Entry → Int) (a : ArgS) (v : List Nat) (hv : checkOctets u8 a = .ok v) (o : OfdmObj) (h : Supported o.params) (hne : v ≠ []) :
    ((ofdmModBitsToIQS u8 a).call o).1 = ((ofdmModBitsToIQ (bitsArg (standIn o.params v))).call o).1 := by
  obtain ⟨-, -, -, -, hs, -⟩ := ref_tables o.params (mem_allSupported h)
  have hl : (standIn o.params v).length = v.length := by unfold standIn; rw [List.length_mapIdx]
  have hb := C03.C03_identity (standIn o.params v) (by intro e; rw [e] at hl; exact hne (List.length_eq_zero_iff.1 hl.symm))
  unfold ofdmModBitsToIQS ofdmModBitsToIQ
  simp only [PyM.call_bind, PyM.call_get, PyM.seqR_ok, PyM.call_lift, hv, hb, stf_ok h, ltf_ok h, hl]
  by_cases hn : 1 ≤ v.length / 8 ∧ v.length / 8 ≤ 2047
  · simp only [headerM_ok h hn.1 hn.2, PyM.seqR_ok, PyM.call_bind, PyM.call_modify, PyM.call_attr, PyM.call_pure]
    refine seqR_fst _ _ _ (fun r s s' => ?_) (payload_eq v _ _ hs)
    rfl
  · simp only [phrM_error h hn, PyM.seqR_error]

/-- **C144 (values).**  A one-dimensional list or array with a NaN in it passes the check: integers from 0 to 255 are handed on unchanged, the NaN as whatever octet the machine makes
of it. -/
theorem C144_values (u8 : Entry → Int) (a : NdArrS) (arg : ArgS) (harg : arg = .list a ∨ arg = .ndarray a) (hd : a.ndim = 1) (hn : Entry.nan ∈ a.vals) :
    ∃ v, checkOctets u8 arg = .ok v ∧ v.length = a.vals.length ∧ (∀ k n : Nat, n < 256 → a.vals[k]? = some (.fin n) → v[k]? = some n) ∧
      ∀ k : Nat, a.vals[k]? = some .nan → v[k]? = some (u8 .nan).toNat := by
  unfold checkOctets
  rw [C115.check_eq u8 a arg harg, if_pos ⟨hd, fun h => (by rw [h] at hn; cases hn), .inl hn⟩]
  refine ⟨_, rfl, by simp, ?_, ?_⟩
  · intro k n h hk
    rw [List.getElem?_map, List.getElem?_map, hk]
    have e : truncRat (n : Rat) = n := by
      unfold truncRat
      rw [if_pos (by positivity)]
      exact_mod_cast Rat.floor_intCast (n : Int)
    simp only [Option.map_some, castUint8, e]
    rw [if_pos (by omega)]
    simp
  · intro k hk
    rw [List.getElem?_map, List.getElem?_map, hk]
    rfl

theorem standIn_bits (p : OfdmParams) (v : List Nat) (h : ∀ x ∈ v, x < 2) : standIn p v = v.map (· == 1) := by
  apply List.ext_getElem?
  intro i
  unfold standIn
  rw [List.getElem?_mapIdx, List.getElem?_map]
  cases e : v[i]? with
  | none => rfl
  | some x =>
    simp only [Option.map_some, counts]
    rw [if_pos (h x (List.mem_of_getElem? e))]

theorem octets_ne {u8 : Entry → Int} {a : ArgS} {v : List Nat} (h : checkOctets u8 a = .ok v) : v ≠ [] := by
  have key : ∀ x arg, (arg = ArgS.list x ∨ arg = .ndarray x) → checkOctets u8 arg = .ok v → v ≠ [] := by
    intro x arg harg h
    unfold checkOctets at h
    rw [C115.check_eq u8 x arg harg] at h
    split at h
    · rename_i hc
      rw [← Except.ok.inj h]
      simpa using hc.2.1
    · cases h
  cases a with
  | list x => exact key x _ (.inl rfl) h
  | ndarray x => exact key x _ (.inr rfl) h
  | bytes l => cases h
  | str => cases h
  | other => cases h

theorem map_b2n (v : List Nat) (h : ∀ x ∈ v, x < 2) : (v.map (· == 1)).map b2n = v := by
  rw [List.map_map]
  conv_rhs => rw [← List.map_id v]
  refine List.map_congr_left fun x hx => ?_
  have := h x hx
  interval_cases x <;> rfl

/-- **C144 (bits).**  If the values handed on are all 0 or 1 (as when the machine makes a 0 of the NaN), every modulator answers as to those bits. -/
theorem C144_bits (u8 : Entry → Int) (a : ArgS) (v : List Nat) (hv : checkOctets u8 a = .ok v) (h : ∀ x ∈ v, x < 2) :
    (∀ o : OfdmObj, Supported o.params → ((ofdmModBitsToIQS u8 a).call o).1 = ((ofdmModBitsToIQ (bitsArg (v.map (· == 1)))).call o).1) ∧
    (∀ (rn : Rat → Rat) (o : FskObj), fskBitsToIQS u8 rn o.params a = ((fskBitsToIQ rn (bitsArg (v.map (· == 1)))).call o).1) ∧
    (∀ w ≥ 6, ∀ o : OqpskObj, oqpskBitsToIQS w u8 o.params a = ((oqpskBitsToIQ (bitsArg (v.map (· == 1)))).call o).1) := by
  refine ⟨fun o ho => ?_, fun rn o => ?_, fun w hw o => ?_⟩
  · rw [bitsToIQ_eq u8 a v hv o ho (octets_ne hv), standIn_bits _ _ h]
  · rw [(fskBitsToIQ_result rn _ o).1]
    unfold fskBitsToIQS fskResult
    rw [hv, C03.C03_identity _ (by simpa using octets_ne hv)]
    have := result_bits rn o.params (v.map (· == 1))
    rw [map_b2n v h] at this
    show (fskBinaryV o.params v >>= fun b => fskModulatorV rn o.params b 20) = _
    rw [this]
    simp only
    cases fskBits o.params (v.map (· == 1)) <;> rfl
  · exact bitsToIQS_bits w hw u8 o a _ (by rw [map_b2n v h]; exact hv) (by simpa using octets_ne hv)

/-- **C144 (MR-OFDM).**  The frame sent is that of the bit message in which an octet of 2 or more stands for the complement of the whitening bit at its place: whitened, it is 1. -/
theorem C144_ofdm (u8 : Entry → Int) (a : ArgS) (v : List Nat) (hv : checkOctets u8 a = .ok v) (o : OfdmObj) (h : Supported o.params) :
    ((ofdmModBitsToIQS u8 a).call o).1 = ((ofdmModBitsToIQ (bitsArg (v.mapIdx fun k x => if x < 2 then x == 1 else !Ref.key (Ref.seed o.params.scrambler) k))).call o).1 :=
  bitsToIQ_eq u8 a v hv o h (octets_ne hv)

/-! ### MR-FSK -/

/-- **C144 (MR-FSK, refused).**  Without FEC, or with the recursive encoder, a message with a value other than 0 and 1 (and, with 2FSK, 10 and 11) is refused: by `KeyError` if it has a
whole number of octets and a length that fits the header. -/
theorem C144_fsk_refused (u8 : Entry → Int) (a : ArgS) (v : List Nat) (hv : checkOctets u8 a = .ok v) (p : FskParams) (hc : p.fecEnabled = false ∨ p.fecScheme ≠ 0) (x : Nat) (hx : x ∈ v)
    (hp : ¬ Nan.Passes p.modulation x) (rn : Rat → Rat) :
    (∃ e, fskBitsToIQS u8 rn p a = .error e) ∧ (v.length % 8 = 0 → v.length / 8 ≤ 2047 → fskBitsToIQS u8 rn p a = .error .KeyError) := by
  have e : fskBitsToIQS u8 rn p a = (fskBinaryV p v >>= fun b => fskModulatorV rn p b 20) := by unfold fskBitsToIQS; rw [hv]; rfl
  rw [e]
  refine ⟨?_, fun h8 hn => ?_⟩
  · cases hb : fskBinaryV p v with
    | error e => exact ⟨e, rfl⟩
    | ok b =>
      obtain ⟨w, hw, hp⟩ := binaryV_bad p hc v x hx hp b hb
      exact ⟨_, modulatorV_fails rn p b 20 w hw hp⟩
  · rcases binaryV_octets p v h8 hn with hb | ⟨b, hb, hm⟩
    · rw [hb]; rfl
    · obtain ⟨w, hw, hp⟩ := binaryV_bad p hc v x hx hp b hb
      rw [hb]
      refine (modulatorV_fails rn p b 20 w hw hp).trans ?_
      rw [if_pos hm]

theorem plain_eq (p : FskParams) (hf : p.fecEnabled = false) (v : List Nat) (hn : v.length / 8 ≤ 2047) : fskBinaryV p v = .ok (Nan.plain p v) := by
  have hph := fsk_header_ref p (show v.length / 8 < 2048 by omega)
  have hpl : ((RefF.header p (v.length / 8)).map b2n).length = 16 := rfl
  unfold fskBinaryV Nan.plain
  rw [hph]
  simp only [bind, Except.bind, pure, Except.pure, hf, Bool.false_eq_true, if_false, fskPhrLength, List.map_append, ← fsk_shr_ref]
  cases p.scramble with
  | false =>
    simp only [Bool.false_eq_true, if_false]
    rw [← List.append_assoc]
    congr 2
    rw [List.mapIdx_eq_zipIdx_map]
    simp
  | true =>
    simp only [if_true]
    rw [List.take_left' (by rw [hpl]), List.drop_left' (by rw [hpl]), ← List.append_assoc]
    congr 2
    apply List.ext_getElem?
    intro i
    rw [scramblerV_get, List.getElem?_mapIdx]

theorem finish_exact (p : FskParams) (hr : 1 ≤ p.symbolRate) (d : List ℚ) : finish id p 20 d =
    .ok ((List.range (20 * d.length)).map fun (i : Nat) => Complex.exp (2 * Real.pi * (d.getD (i / 20) 0 : ℚ) * Complex.I * (((i : ℚ) / (p.symbolRate * 20) : ℚ) : ℂ)), 20 * p.symbolRate) := by
  unfold finish
  have hfl : (d.flatMap fun x => List.replicate 20 x).length = 20 * d.length := repeat_length _ _
  simp only [hfl, fskArange_exact (by omega : 0 < p.symbolRate) (by decide : 0 < 20)]
  rw [bcast_eq _ _ _ (by rw [hfl]; simp)]
  have hz : (1 : ℚ) / fskDt id p.symbolRate 20 = 20 * p.symbolRate := by
    rw [fskDt_exact]; push_cast; rw [one_div_one_div]; ring
  show Except.ok (_, id (1 / fskDt id p.symbolRate 20)) = _
  rw [id, hz]
  congr 2
  apply List.ext_getElem?
  intro i
  rw [List.getElem?_zipWith, repeat_getElem? _ _ _ (by decide), List.getElem?_map, List.getElem?_map]
  by_cases h : i < 20 * d.length
  · rw [List.getElem?_range h]
    have h2 : i / 20 < d.length := Nat.div_lt_of_lt_mul h
    simp [h2]
  · rw [List.getElem?_eq_none (l := List.range _) (by simpa using h)]
    simp

/-- **C144 (MR-FSK, thirds).**  2FSK without FEC: a message whose values are 0, 1, 10 and 11 is sent, 10 at a third of the frequency of a 1 and 11 at that of a 1 (after whitening,
which exchanges 10 and 11). -/
theorem C144_fsk_thirds (u8 : Entry → Int) (a : ArgS) (v : List Nat) (hv : checkOctets u8 a = .ok v) (p : FskParams) (hm : p.modulation = .FSK2) (hf : p.fecEnabled = false)
    (hr : 1 ≤ p.symbolRate) (hn : v.length / 8 ≤ 2047) (hp : ∀ x ∈ v, Nan.Passes .FSK2 x) :
    fskBitsToIQS u8 id p a = .ok ((List.range (20 * (Nan.plain p v).length)).map fun (i : Nat) =>
      Complex.exp (2 * Real.pi * Complex.I * ((Nan.frequency ((Nan.plain p v).getD (i / 20) 0) * (p.modIndex * p.symbolRate / 2) * ((i : ℚ) / (20 * p.symbolRate)) : ℚ) : ℂ)), 20 * p.symbolRate) := by
  have hall : ∀ x ∈ Nan.plain p v, Nan.Passes .FSK2 x := by
    intro x hx
    unfold Nan.plain at hx
    rcases List.mem_append.1 hx with h | h
    · obtain ⟨b, -, rfl⟩ := List.mem_map.1 h
      cases b
      · exact .inl rfl
      · exact .inr (.inl rfl)
    · obtain ⟨i, hi, rfl⟩ := List.mem_mapIdx.1 h
      split
      · have hq := hp _ (List.getElem_mem hi)
        refine passes_xor .FSK2 (Ref.key 0x1FF i) _ ?_
        rw [← Nat.xor_assoc, Nat.xor_self, Nat.zero_xor]; exact hq
      · exact hp _ (List.getElem_mem hi)
  have e : fskBitsToIQS u8 id p a = fskModulatorV id p (Nan.plain p v) 20 := by
    unfold fskBitsToIQS; rw [hv]
    show (fskBinaryV p v >>= fun b => fskModulatorV id p b 20) = _
    rw [plain_eq p hf v hn]; rfl
  rw [e]
  generalize Nan.plain p v = w at hall ⊢
  have h1 : fskStepBits p.modulation = 1 := by rw [hm]; rfl
  rw [modulatorV_eq _ _ _ _ (by rw [h1]; omega), h1]
  have hk : (chunks 1 w).mapM keyOf = .ok (w.map Nan.frequency) := by
    have e1 : chunks 1 w = w.map fun x => [x] := by
      apply List.ext_getElem?
      intro i
      unfold chunks
      rw [List.getElem?_map, List.getElem?_map, Nat.div_one]
      by_cases hi : i < w.length
      · rw [List.getElem?_range hi, List.getElem?_eq_getElem hi, Option.map_some, Option.map_some, Nat.mul_one]
        congr 1
        rw [List.drop_eq_getElem_cons hi]; rfl
      · rw [List.getElem?_eq_none (by simpa using hi), List.getElem?_eq_none (l := w) (by omega)]; rfl
    rw [e1, List.mapM_map]
    refine mapM_eq_ok _ _ _ fun x hx => ?_
    rcases hall x hx with rfl | rfl | ⟨-, rfl | rfl⟩ <;> simp [keyOf, fskKeyDeviation, decimalDigits, Nan.frequency]
  rw [hk]
  refine (finish_exact p hr _).trans ?_
  rw [List.length_map, List.length_map]
  congr 2
  refine List.map_congr_left fun i hi => ?_
  have hi' : i / 20 < w.length := by have := List.mem_range.1 hi; omega
  rw [List.map_map, List.getD_eq_getElem?_getD, List.getElem?_map, List.getD_eq_getElem?_getD, List.getElem?_eq_getElem hi']
  simp only [Option.map_some, Option.getD_some, Function.comp, fskFdev, hm]
  congr 1
  push_cast
  ring

/-- **C144 (MR-FSK, non-recursive encoder).**  With FEC and the non-recursive encoder every message is sent, whatever its octets: an octet counts modulo 2, except that the two coded bits at
the place of an octet of 2 or more are 0. -/
theorem C144_fsk_nonrecursive (u8 : Entry → Int) (a : ArgS) (v : List Nat) (hv : checkOctets u8 a = .ok v) (p : FskParams) (hf : p.fecEnabled = true) (hs : p.fecScheme = 0)
    (hr : 1 ≤ p.symbolRate) (hn : v.length / 8 ≤ 2047) (hi : p.interleaving = true → v.length % 8 = 0) :
    fskBitsToIQS u8 id p a = .ok (RefF.samples p (Nan.frame p v), 20 * p.symbolRate) := by
  have e : fskBitsToIQS u8 id p a = fskModulator id p (Nan.frame p v) 20 := by
    unfold fskBitsToIQS; rw [hv]
    show (fskBinaryV p v >>= fun b => fskModulatorV id p b 20) = _
    rw [binaryV_zero p hf hs v hn hi]
    exact modulator_bits id p _ 20
  have hbl : (Nan.body p v).length % 2 = 0 := by
    have h1 : (Nan.blanked p v).length % 2 = 0 := by unfold Nan.blanked RefF.coded; simp only [List.length_mapIdx, List.length_map, List.length_range]; omega
    unfold Nan.body
    split
    · unfold RefF.interleave; rw [List.length_map, List.length_range]; exact h1
    · exact h1
  have hlen : (Nan.frame p v).length % fskStepBits p.modulation = 0 := by
    cases hm : p.modulation with
    | FSK2 => simp only [fskStepBits]; omega
    | FSK4 =>
      unfold Nan.frame RefF.preamble RefF.sfd
      rw [hm]
      simp only [fskStepBits, List.length_append, List.length_map, List.length_range]
      omega
  rw [e, fskModulator_ok id p _ 20 (by decide) hlen (by rw [fskArange_exact (by omega) (by decide)]), C69.samples_ref p hr]
  congr 2
  rw [fskDt_exact]; push_cast; rw [id, one_div_one_div]; ring

/-! ### Not vacuous -/

/-- `[nan, 7, 1, 0, 10, 11, 0, 1]` where the machine makes a 0 of a NaN. -/
theorem example_octets : checkOctets (fun _ => 0) (.list ⟨1, [.nan, .fin 7, .fin 1, .fin 0, .fin 10, .fin 11, .fin 0, .fin 1]⟩) = .ok [0, 7, 1, 0, 10, 11, 0, 1] := by decide +kernel
/-- A message that 2FSK without FEC sends. -/
theorem example_thirds : checkOctets (fun _ => 0) (.list ⟨1, [.nan, .fin 10, .fin 1, .fin 0, .fin 10, .fin 11, .fin 0, .fin 1]⟩) = .ok [0, 10, 1, 0, 10, 11, 0, 1] ∧
    ∀ x ∈ [0, 10, 1, 0, 10, 11, 0, 1], Nan.Passes .FSK2 x := by
  refine ⟨by decide +kernel, ?_⟩
  unfold Nan.Passes
  decide
/-- A message with a NaN that is one of bits. -/
theorem example_bits : checkOctets (fun _ => 0) (.ndarray ⟨1, [.nan, .fin 1, .fin 1, .fin 0]⟩) = .ok [0, 1, 1, 0] := by decide +kernel

-- the octet 7 is refused by MR-FSK without FEC
example : fskBitsToIQS (fun _ => 0) id ⟨50000, 1, 0, .FSK2, false, 0, 0, true, true, 4⟩ (.list ⟨1, [.nan, .fin 7, .fin 1, .fin 0, .fin 10, .fin 11, .fin 0, .fin 1]⟩) = .error .KeyError :=
  (C144_fsk_refused _ _ _ example_octets _ (.inl rfl) 7 (by decide) (by unfold Nan.Passes; decide) id).2 (by decide) (by decide)
-- and sent with the non-recursive encoder
example : ∃ iq, fskBitsToIQS (fun _ => 0) id ⟨50000, 1, 0, .FSK2, true, 0, 0, true, true, 4⟩ (.list ⟨1, [.nan, .fin 7, .fin 1, .fin 0, .fin 10, .fin 11, .fin 0, .fin 1]⟩) = .ok (iq, 1000000) := by
  have h := C144_fsk_nonrecursive _ _ _ example_octets ⟨50000, 1, 0, .FSK2, true, 0, 0, true, true, 4⟩ rfl rfl (by decide) (by decide) (fun _ => by decide)
  have e : (20 : ℚ) * ((50000 : ℕ) : ℚ) = 1000000 := by norm_num
  exact ⟨_, h.trans (by rw [← e])⟩
-- the frame with the octet 7 is neither the one with a 0 nor the one with a 1 in its place
example : (let p : FskParams := ⟨50000, 1, 0, .FSK2, true, 0, 0, false, false, 1⟩
    Nan.frame p [0, 7, 1, 0, 1, 1, 0, 1] ≠ Nan.frame p [0, 0, 1, 0, 1, 1, 0, 1] ∧ Nan.frame p [0, 7, 1, 0, 1, 1, 0, 1] ≠ Nan.frame p [0, 1, 1, 0, 1, 1, 0, 1]) := by decide +kernel
-- with a supported configuration of MR-OFDM the octets 7, 10 and 11 stand for bits
example : Supported ⟨3, 1, 0, 0⟩ ∧ standIn ⟨3, 1, 0, 0⟩ [0, 7, 1, 0, 10, 11, 0, 1] ≠ [false, false, true, false, false, false, false, true] := by
  refine ⟨by unfold Supported; decide, ?_⟩
  intro e
  have h1 : (standIn ⟨3, 1, 0, 0⟩ [0, 7, 1, 0, 10, 11, 0, 1])[1]? = some false := by rw [e]; rfl
  unfold standIn counts at h1
  rw [List.getElem?_mapIdx] at h1
  simp only [List.getElem?_cons_succ, List.getElem?_cons_zero, Option.map_some, Option.some.injEq] at h1
  have h2 : (standIn ⟨3, 1, 0, 0⟩ [0, 7, 1, 0, 10, 11, 0, 1])[4]? = some false := by rw [e]; rfl
  unfold standIn counts at h2
  rw [List.getElem?_mapIdx] at h2
  simp only [List.getElem?_cons_succ, List.getElem?_cons_zero, Option.map_some, Option.some.injEq] at h2
  revert h1 h2
  simp only [Ref.key, Ref.seed]
  simp (config := { decide := true }) [Ref.lfsr]

end
end SunPhy.C144
