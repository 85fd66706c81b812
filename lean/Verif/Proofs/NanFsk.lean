import Verif.Model.NanMessages
import Verif.Props.C37
import Verif.Props.C38
import Verif.Proofs.NanScrambler
import Verif.Proofs.FskSignal
import Verif.Spec.NanMessages
/-
MR-FSK on messages of octets (`Model/NanMessages.lean`).
-/
namespace SunPhy.C144
open SunPhy Spec

theorem chunks_map {α β : Type} (g : α → β) (n : Nat) (l : List α) : chunks n (l.map g) = (chunks n l).map (·.map g) := by
  unfold chunks
  rw [List.length_map, List.map_map]
  refine List.map_congr_left fun i _ => ?_
  simp only [Function.comp, ← List.map_drop, ← List.map_take]

/-! ### interleaver -/

theorem block_form (b : List Nat) : fskInterleaveBlockV b = (List.range 32).map fun j => b.getD (2 * fskT (j / 2) + j % 2) 0 := by
  simp [fskInterleaveBlockV, List.range, List.range.loop, fskT, List.replicate]

theorem block_bits (b : Bits) : fskInterleaveBlockV (b.map b2n) = (fskInterleaveBlock b).map b2n := by
  rw [block_form, C37.block_form, List.map_map]
  refine List.map_congr_left fun j _ => ?_
  simp only [Function.comp, List.getD_eq_getElem?_getD, List.getElem?_map]
  cases b[2 * fskT (j / 2) + j % 2]? <;> rfl

theorem interleaver_bits (x : Bits) : fskInterleaverV (x.map b2n) = (fskInterleaver x).map (·.map b2n) := by
  unfold fskInterleaverV fskInterleaver reshapeRows
  rw [List.length_map, chunks_map]
  split
  · rfl
  · show Except.ok _ = Except.ok _
    beta_reduce
    rw [List.flatMap_map, List.map_flatMap, show (fun a : Bits => fskInterleaveBlockV (a.map b2n)) = fun a => (fskInterleaveBlock a).map b2n from funext block_bits]

theorem interleaverV_ok {x : List Nat} (h : x.length % 32 = 0) : fskInterleaverV x = .ok ((chunks 32 x).flatMap fskInterleaveBlockV) := by
  unfold fskInterleaverV reshapeRows
  rw [if_neg (by omega)]
  rfl

theorem interleaverV_length {x : List Nat} (h : x.length % 32 = 0) : ((chunks 32 x).flatMap fskInterleaveBlockV).length = x.length := by
  rw [flatMap_length_const _ 32 _ (fun b _ => by rw [block_form]; simp), chunks_length]
  omega

theorem interleaverV_mem {x : List Nat} (h : x.length % 32 = 0) {y : Nat} (hy : y ∈ x) : y ∈ (chunks 32 x).flatMap fskInterleaveBlockV := by
  rw [← chunks_flatten (by decide : 0 < 32) x h, List.mem_flatten] at hy
  obtain ⟨c, hc, hy⟩ := hy
  rw [List.mem_flatMap]
  refine ⟨c, hc, ?_⟩
  obtain ⟨j, hj, rfl⟩ := List.getElem_of_mem hy
  rw [mem_chunks_length hc] at hj
  rw [block_form, List.mem_map]
  have h1 := C37.fskT_lt (j / 2) (by omega)
  refine ⟨2 * fskT (j / 2) + j % 2, List.mem_range.2 (by omega), ?_⟩
  rw [show (2 * fskT (j / 2) + j % 2) / 2 = fskT (j / 2) by omega, show (2 * fskT (j / 2) + j % 2) % 2 = j % 2 by omega, C37.fskT_invol _ (by omega),
    show 2 * (j / 2) + j % 2 = j by omega, List.getD_eq_getElem?_getD, List.getElem?_eq_getElem]
  rfl

/-! ### encoder -/

theorem encodeV_cons (s M b : Nat) (bs : List Nat) : fskEncodeV s M (b :: bs) =
    ((fskIterV s M b).2.2 :: (fskIterV s M b).2.1 :: (fskEncodeV s (fskIterV s M b).1 bs).1, (fskEncodeV s (fskIterV s M b).1 bs).2) := rfl

theorem encodeV_length (s M : Nat) (x : List Nat) : (fskEncodeV s M x).1.length = 2 * x.length := by
  induction x generalizing M with
  | nil => rfl
  | cons b x ih => simp only [encodeV_cons, List.length_cons, ih]; omega

theorem iter_bits01 : ∀ s < 2, ∀ M < 8, ∀ b, fskIterV s M (b2n b) = ((fskIter s M b).1, b2n (fskIter s M b).2.1, b2n (fskIter s M b).2.2) := by decide +kernel

theorem iter_bits (s : Nat) {M : Nat} (h : M < 8) (b : Bool) : fskIterV s M (b2n b) = (fskStep s M b, b2n (fskU0 s M b), b2n (fskU1 s M b)) := by
  unfold fskStep fskU0 fskU1
  by_cases h0 : s = 0
  · subst h0; exact iter_bits01 0 (by decide) M h b
  · rw [fskIter_scheme h0, show fskIterV s = fskIterV 1 by funext M b; simp [fskIterV, h0]]
    exact iter_bits01 1 (by decide) M h b

theorem encode_bits (s : Nat) {M : Nat} (h : M < 8) (x : Bits) : fskEncodeV s M (x.map b2n) = ((fskEncode s M x).1.map b2n, (fskEncode s M x).2) := by
  induction x generalizing M with
  | nil => rfl
  | cons b x ih => rw [List.map_cons, encodeV_cons, iter_bits s h, ih (fskStep_lt s h b), fskEncode_cons]; rfl

theorem fec_bits (s : Nat) (x : Bits) : fskFecV s (x.map b2n) = .ok ((fskFec s x).map b2n) := by
  have h1 := fskState_lt s (by decide : 0 < 8) x
  have ht : fskTailV s (fskEncode s 0 x).2 = .ok ((fskTailBits s (fskEncode s 0 x).2).map b2n) := by
    unfold fskTailV fskTailBits
    rw [if_pos h1]
    split <;> rfl
  have h2 := fskState_lt s h1 (fskTailBits s (fskEncode s 0 x).2)
  unfold fskFecV
  simp only [encode_bits s (by decide : 0 < 8) x, ht, bind, Except.bind, pure, Except.pure, encode_bits s h1, encode_bits s h2, List.length_map]
  unfold fskFec
  simp only [if_true, List.map_append]

/-! ### the whole bit stream -/

theorem binary_bits (p : FskParams) (m : Bits) : fskBinaryV p (m.map b2n) = (fskBits p m).map (·.map b2n) := by
  unfold fskBinaryV fskBits fskCoded fskWhiten
  rw [List.length_map]
  cases p.phr (m.length / 8) with
  | error e => rfl
  | ok h =>
    simp only [bind, Except.bind, pure, Except.pure, ← List.map_append]
    cases p.fecEnabled with
    | false =>
      simp only [Bool.false_eq_true, if_false]
      cases p.scramble with
      | false => simp only [Bool.false_eq_true, if_false]; rw [← List.map_append]; rfl
      | true =>
        simp only [if_true, fskPhrLength]
        rw [← List.map_take, ← List.map_drop, scramblerV_bits, ← List.map_append, ← List.map_append]; rfl
    | true =>
      simp only [if_true, fec_bits]
      have key : ∀ y : Bits, Except.ok (ε := PyErr) (p.shr.map b2n ++ (if p.scramble = true then List.take (fskPhrLength * 2 * 8) (y.map b2n) ++
          scramblerV (List.drop (fskPhrLength * 2 * 8) (y.map b2n)) else y.map b2n)) =
          Except.map (·.map b2n) (.ok (p.shr ++ if p.scramble = true then List.take 32 y ++ scrambler (List.drop 32 y) else y)) := by
        intro y
        cases p.scramble with
        | false => simp only [Bool.false_eq_true, if_false]; rw [← List.map_append]; rfl
        | true =>
          simp only [if_true, fskPhrLength]
          rw [← List.map_take, ← List.map_drop, scramblerV_bits, ← List.map_append, ← List.map_append]; rfl
      cases p.interleaving with
      | false => simp only [Bool.false_eq_true, if_false]; exact key _
      | true =>
        simp only [if_true, interleaver_bits]
        cases fskInterleaver (fskFec p.fecScheme (h ++ m)) with
        | error e => rfl
        | ok y => exact key y

/-! ### modulator -/

noncomputable section
open Complex

/-- Everything after the frequencies. -/
def finish (rn : Rat → Rat) (p : FskParams) (sps : Nat) (freqs : List ℚ) : Res (List ℂ × ℚ) := do
  let f : List ℚ := freqs.flatMap fun x => List.replicate sps x
  let t : List ℚ := (List.range (fskArangeLen rn p.symbolRate sps f.length)).map fun (i : Nat) => (i : ℚ) / (p.symbolRate * sps)
  let iq ← bcast (fun (f t : ℚ) => exp (2 * Real.pi * f * I * t)) f t
  return (iq, rn (1 / fskDt rn p.symbolRate sps))

/-- Key of a symbol. -/
def keyOf (val : List Nat) : Res ℚ := fskKeyDeviation (val.flatMap decimalDigits)

theorem stepV (m : FskMod) : fskStepV m = fskStepBits m := by cases m <;> rfl

theorem modulatorV_odd (rn : Rat → Rat) (p : FskParams) (x : List Nat) (sps : Nat) (h : x.length % fskStepBits p.modulation ≠ 0) :
    fskModulatorV rn p x sps = .error .ValueError := by
  unfold fskModulatorV reshapeRows
  rw [stepV, if_pos (.inr h)]; rfl

theorem modulatorV_eq (rn : Rat → Rat) (p : FskParams) (x : List Nat) (sps : Nat) (h : x.length % fskStepBits p.modulation = 0) :
    fskModulatorV rn p x sps = ((chunks (fskStepBits p.modulation) x).mapM keyOf >>= fun devs => finish rn p sps (devs.map fun d => d * fskFdev p)) := by
  have hp := fskStepBits_pos p.modulation
  unfold fskModulatorV reshapeRows
  rw [stepV, if_neg (by omega)]; rfl

/-- Deviation of a symbol of bits in units of `fdev`. -/
def dev3 (m : FskMod) (b : Bits) : ℚ := match m with | .FSK2 => fskDev .FSK2 b | .FSK4 => (fskDev .FSK4 b : ℚ) / 3

theorem key_bits (m : FskMod) (b : Bits) (h : b.length = fskStepBits m) : keyOf (b.map b2n) = .ok (dev3 m b) := by
  cases m with
  | FSK2 =>
    match b, h with
    | [x], _ => cases x <;> simp [keyOf, fskKeyDeviation, decimalDigits, b2n, dev3, fskDev, fskDeviation]
  | FSK4 =>
    match b, h with
    | [x, y], _ => cases x <;> cases y <;> simp [keyOf, fskKeyDeviation, decimalDigits, b2n, dev3, fskDev, fskDeviation]

theorem modulator_bits (rn : Rat → Rat) (p : FskParams) (b : Bits) (sps : Nat) : fskModulatorV rn p (b.map b2n) sps = fskModulator rn p b sps := by
  by_cases h : b.length % fskStepBits p.modulation = 0
  · rw [modulatorV_eq _ _ _ _ (by rw [List.length_map]; exact h), chunks_map]
    have hk : ((chunks (fskStepBits p.modulation) b).map (·.map b2n)).mapM keyOf = .ok ((chunks (fskStepBits p.modulation) b).map (dev3 p.modulation)) := by
      rw [List.mapM_map]
      exact mapM_eq_ok _ _ _ fun c hc => key_bits _ _ (mem_chunks_length hc)
    rw [hk]
    unfold fskModulator
    rw [fskSymbols_eq, if_pos h]
    simp only [bind, Except.bind, pure, Except.pure]
    rw [mapM_eq_ok _ (fskDev p.modulation) _ (fun b hb => fskDeviation_ok _ _ (mem_chunks_length hb))]
    simp only
    have e : ((chunks (fskStepBits p.modulation) b).map (dev3 p.modulation)).map (fun d => d * fskFdev p) =
        ((chunks (fskStepBits p.modulation) b).map (fskDev p.modulation)).map fun (d : Int) => (d : ℚ) * (p.symbolRate * p.modIndex / 2) := by
      rw [List.map_map, List.map_map]
      refine List.map_congr_left fun c _ => ?_
      simp only [Function.comp]
      unfold fskFdev
      cases p.modulation <;> simp only [dev3]
      ring
    rw [e]
    rfl
  · rw [modulatorV_odd _ _ _ _ (by rw [List.length_map]; exact h), fskModulator_odd _ _ _ _ h]

theorem result_bits (rn : Rat → Rat) (p : FskParams) (m : Bits) : (fskBinaryV p (m.map b2n) >>= fun b => fskModulatorV rn p b 20) =
    (fskBits p m >>= fun b => fskModulator rn p b 20) := by
  rw [binary_bits]
  cases fskBits p m with
  | error e => rfl
  | ok b => exact modulator_bits rn p b 20

/-! ### values that are no bits -/

theorem digits_ne (v : Nat) : 1 ≤ (decimalDigits v).length := by unfold decimalDigits; split <;> [skip; split] <;> simp

theorem digits_one (v d : Nat) (h : decimalDigits v = [d]) : v = d := by
  unfold decimalDigits at h
  split at h
  · simpa using h
  · split at h <;> simp at h

theorem digits_two (v d e : Nat) (h : decimalDigits v = [d, e]) : v = 10 * d + e := by
  unfold decimalDigits at h
  split at h
  · simp at h
  · split at h
    · simp at h; omega
    · simp at h

theorem key_error (k : List Nat) (e : PyErr) (h : fskKeyDeviation k = .error e) : e = .KeyError := by
  unfold fskKeyDeviation at h
  split at h; · cases h
  split at h; · cases h
  split at h; · cases h
  split at h; · cases h
  split at h; · cases h
  split at h; · cases h
  cases h; rfl

theorem key_ok (k : List Nat) (d : ℚ) (h : fskKeyDeviation k = .ok d) : k ∈ [[0], [1], [0, 1], [0, 0], [1, 0], [1, 1]] := by
  unfold fskKeyDeviation at h
  simp only [List.mem_cons, List.not_mem_nil, or_false]
  split at h; · simp_all
  split at h; · simp_all
  split at h; · simp_all
  split at h; · simp_all
  split at h; · simp_all
  split at h; · simp_all
  cases h

/-- A symbol with a value that does not pass has no frequency. -/
theorem key_fails (m : FskMod) (val : List Nat) (hl : val.length = fskStepBits m) (v : Nat) (hv : v ∈ val) (hp : ¬ Nan.Passes m v) : keyOf val = .error .KeyError := by
  cases hk : keyOf val with
  | error e => rw [key_error _ e hk]
  | ok d =>
    exfalso
    have hm := key_ok _ d hk
    apply hp
    cases m with
    | FSK2 =>
      match val, hl with
      | [x], _ =>
        rw [List.mem_singleton] at hv; subst hv
        simp only [List.flatMap_cons, List.flatMap_nil, List.append_nil, List.mem_cons, List.not_mem_nil, or_false] at hm
        unfold Nan.Passes
        rcases hm with h | h | h | h | h | h
        · have := digits_one _ _ h; tauto
        · have := digits_one _ _ h; tauto
        · have := digits_two _ _ _ h; unfold decimalDigits at h; subst this; simp at h
        · have := digits_two _ _ _ h; unfold decimalDigits at h; subst this; simp at h
        · have := digits_two _ _ _ h; simp; tauto
        · have := digits_two _ _ _ h; simp; tauto
    | FSK4 =>
      match val, hl with
      | [x, y], _ =>
        simp only [List.flatMap_cons, List.flatMap_nil, List.append_nil, List.mem_cons, List.not_mem_nil, or_false] at hm hv
        have h1 := digits_ne x
        have h2 := digits_ne y
        have two : ∀ d e : Nat, decimalDigits x ++ decimalDigits y = [d, e] → x = d ∧ y = e := by
          intro d e h
          have hl := congrArg List.length h
          simp only [List.length_append, List.length_cons, List.length_nil] at hl
          obtain ⟨u, hu⟩ := List.length_eq_one_iff.1 (show (decimalDigits x).length = 1 by omega)
          obtain ⟨w, hw⟩ := List.length_eq_one_iff.1 (show (decimalDigits y).length = 1 by omega)
          rw [hu, hw] at h
          simp at h
          rw [digits_one _ _ hu, digits_one _ _ hw]
          exact h
        have one : ∀ d : Nat, decimalDigits x ++ decimalDigits y ≠ [d] := by
          intro d h
          have hl := congrArg List.length h
          simp only [List.length_append, List.length_cons, List.length_nil] at hl
          omega
        unfold Nan.Passes
        rcases hm with h | h | h | h | h | h
        · exact absurd h (one _)
        · exact absurd h (one _)
        all_goals
          obtain ⟨a, b⟩ := two _ _ h
          rcases hv with rfl | rfl <;> omega

theorem mapM_fails {α β : Type} (f : α → Res β) (l : List α) (he : ∀ x e, f x = .error e → e = .KeyError) (x : α) (hx : x ∈ l) (hf : f x = .error .KeyError) :
    l.mapM f = .error .KeyError := by
  induction l with
  | nil => cases hx
  | cons a l ih =>
    rw [List.mapM_cons]
    cases ha : f a with
    | error e => rw [he a e ha]; rfl
    | ok b =>
      rcases List.mem_cons.1 hx with rfl | h
      · rw [hf] at ha; cases ha
      · simp only [bind, Except.bind]
        rw [ih h]

/-- One value that does not pass refuses the whole message. -/
theorem modulatorV_fails (rn : Rat → Rat) (p : FskParams) (x : List Nat) (sps v : Nat) (hv : v ∈ x) (hp : ¬ Nan.Passes p.modulation v) :
    fskModulatorV rn p x sps = .error (if x.length % fskStepBits p.modulation = 0 then .KeyError else .ValueError) := by
  by_cases h : x.length % fskStepBits p.modulation = 0
  · rw [if_pos h, modulatorV_eq _ _ _ _ h]
    rw [← chunks_flatten (fskStepBits_pos p.modulation) x h, List.mem_flatten] at hv
    obtain ⟨c, hc, hv⟩ := hv
    rw [mapM_fails keyOf _ (fun y e => key_error _ e) c hc (key_fails p.modulation c (mem_chunks_length hc) v hv hp)]
    rfl
  · rw [if_neg h, modulatorV_odd _ _ _ _ h]

end

end SunPhy.C144
