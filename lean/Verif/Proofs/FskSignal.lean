import Verif.Model.MrFskSignal
import Verif.Proofs.FskFrame
import Verif.Proofs.Lists
/-
The samples produced by `_FSKModulator`.
-/
namespace SunPhy
open Complex

/-- Bits per symbol. -/
def fskStepBits : FskMod → Nat
  | .FSK2 => 1
  | .FSK4 => 2

/-- Deviation of the symbols, as a total function (0 outside the table). -/
def fskDev (m : FskMod) (b : Bits) : Int := match fskDeviation m b with | .ok d => d | .error _ => 0

theorem fskDeviation_ok (m : FskMod) (b : Bits) (h : b.length = fskStepBits m) : fskDeviation m b = .ok (fskDev m b) := by
  cases m with
  | FSK2 =>
    match b, h with
    | [x], _ => cases x <;> rfl
  | FSK4 =>
    match b, h with
    | [x, y], _ => cases x <;> cases y <;> rfl

theorem fskStepBits_pos (m : FskMod) : 0 < fskStepBits m := by cases m <;> decide

theorem fskSymbols_eq (m : FskMod) (msg : Bits) :
    fskSymbols m msg = if msg.length % fskStepBits m = 0 then .ok (chunks (fskStepBits m) msg) else .error .ValueError := by
  have e : fskSymbols m msg = reshapeRows (fskStepBits m) msg := by cases m <;> rfl
  have hp := fskStepBits_pos m
  rw [e]
  unfold reshapeRows
  by_cases h : msg.length % fskStepBits m = 0
  · rw [if_neg (by omega), if_pos h]
  · rw [if_pos (by omega), if_neg h]

theorem repeat_length {α} (l : List α) (k : Nat) : (l.flatMap fun x => List.replicate k x).length = k * l.length := by
  rw [flatMap_length_const _ k _ (fun x _ => List.length_replicate), Nat.mul_comm]

theorem repeat_getElem? {α} (l : List α) (k i : Nat) (hk : 0 < k) : (l.flatMap fun x => List.replicate k x)[i]? = l[i / k]? := by
  induction l generalizing i with
  | nil => simp
  | cons a l ih =>
    rw [List.flatMap_cons]
    by_cases h : i < k
    · rw [List.getElem?_append_left (by simpa using h), Nat.div_eq_of_lt h]; simp [h]
    · rw [List.getElem?_append_right (by simpa using h), List.length_replicate, ih]
      have : i / k = (i - k) / k + 1 := by
        rw [show i = (i - k) + k by omega, Nat.add_div_right _ hk]; simp
      rw [this, List.getElem?_cons_succ]

noncomputable section

/-- The samples for a list of deviations. -/
def fskSamples (p : FskParams) (devs : List Int) (sps : Nat) : List ℂ :=
  (List.range (sps * devs.length)).map fun (i : Nat) =>
    exp (2 * Real.pi * (((devs.getD (i / sps) 0 : Int) : ℚ) * (p.symbolRate * p.modIndex / 2) : ℚ) * I * ((i : ℚ) / (p.symbolRate * sps) : ℚ))

/-- Deviations of all the symbols of a bit sequence. -/
def fskDevs (p : FskParams) (message : Bits) : List Int := (chunks (fskStepBits p.modulation) message).map (fskDev p.modulation)

theorem fskDevs_length (p : FskParams) (message : Bits) : (fskDevs p message).length = message.length / fskStepBits p.modulation := by
  simp [fskDevs, chunks_length]

theorem zipWith_samples (p : FskParams) (devs : List Int) (sps : Nat) (hs : 0 < sps) :
    List.zipWith (fun (f t : ℚ) => exp (2 * Real.pi * f * I * t))
      ((devs.map fun (d : Int) => (d : ℚ) * (p.symbolRate * p.modIndex / 2)).flatMap fun x => List.replicate sps x)
      ((List.range (sps * devs.length)).map fun (i : Nat) => (i : ℚ) / (p.symbolRate * sps)) = fskSamples p devs sps := by
  apply List.ext_getElem?
  intro i
  unfold fskSamples
  rw [List.getElem?_zipWith, repeat_getElem? _ _ _ hs, List.getElem?_map, List.getElem?_map, List.getElem?_map]
  by_cases h : i < sps * devs.length
  · rw [List.getElem?_range h]
    have h2 : i / sps < devs.length := Nat.div_lt_of_lt_mul h
    simp [h2]
  · rw [List.getElem?_eq_none (l := List.range _) (by simpa using h)]
    simp

/-- The value of `_FSKModulator` whenever the time axis has the right number of entries. -/
theorem fskModulator_ok (rn : Rat → Rat) (p : FskParams) (message : Bits) (sps : Nat) (hs : 0 < sps)
    (hm : message.length % fskStepBits p.modulation = 0)
    (hl : fskArangeLen rn p.symbolRate sps (sps * (fskDevs p message).length) = sps * (fskDevs p message).length) :
    fskModulator rn p message sps = .ok (fskSamples p (fskDevs p message) sps, rn (1 / fskDt rn p.symbolRate sps)) := by
  unfold fskModulator
  rw [fskSymbols_eq, if_pos hm]
  simp only [bind, Except.bind, pure, Except.pure]
  rw [mapM_eq_ok _ (fskDev p.modulation) _ (fun b hb => fskDeviation_ok _ _ (mem_chunks_length hb))]
  simp only
  have e : (((chunks (fskStepBits p.modulation) message).map (fskDev p.modulation)).map fun (d : Int) =>
      (d : ℚ) * (p.symbolRate * p.modIndex / 2)).flatMap (fun x => List.replicate sps x) =
      ((fskDevs p message).map fun (d : Int) => (d : ℚ) * (p.symbolRate * p.modIndex / 2)).flatMap (fun x => List.replicate sps x) := rfl
  simp only [e]
  have hfl : (((fskDevs p message).map fun (d : Int) => (d : ℚ) * (p.symbolRate * p.modIndex / 2)).flatMap (fun x => List.replicate sps x)).length =
      sps * (fskDevs p message).length := by rw [repeat_length, List.length_map]
  unfold bcast
  rw [if_pos (by rw [List.length_map, List.length_range, hfl, hl]), hfl, hl, zipWith_samples _ _ _ hs]

/-- Otherwise numpy cannot broadcast and the call raises `ValueError` (more than one sample). -/
theorem fskModulator_fail (rn : Rat → Rat) (p : FskParams) (message : Bits) (sps : Nat)
    (hm : message.length % fskStepBits p.modulation = 0)
    (hl : fskArangeLen rn p.symbolRate sps (sps * (fskDevs p message).length) ≠ sps * (fskDevs p message).length)
    (h1 : sps * (fskDevs p message).length ≠ 1) (h2 : fskArangeLen rn p.symbolRate sps (sps * (fskDevs p message).length) ≠ 1) :
    fskModulator rn p message sps = .error .ValueError := by
  unfold fskModulator
  rw [fskSymbols_eq, if_pos hm]
  simp only [bind, Except.bind, pure, Except.pure]
  rw [mapM_eq_ok _ (fskDev p.modulation) _ (fun b hb => fskDeviation_ok _ _ (mem_chunks_length hb))]
  simp only
  have e : (((chunks (fskStepBits p.modulation) message).map (fskDev p.modulation)).map fun (d : Int) =>
      (d : ℚ) * (p.symbolRate * p.modIndex / 2)).flatMap (fun x => List.replicate sps x) =
      ((fskDevs p message).map fun (d : Int) => (d : ℚ) * (p.symbolRate * p.modIndex / 2)).flatMap (fun x => List.replicate sps x) := rfl
  simp only [e]
  have hfl : (((fskDevs p message).map fun (d : Int) => (d : ℚ) * (p.symbolRate * p.modIndex / 2)).flatMap (fun x => List.replicate sps x)).length =
      sps * (fskDevs p message).length := by rw [repeat_length, List.length_map]
  generalize (((fskDevs p message).map fun (d : Int) => (d : ℚ) * (p.symbolRate * p.modIndex / 2)).flatMap (fun x => List.replicate sps x)) = F at hfl ⊢
  rw [hfl]
  have htl : ((List.range (fskArangeLen rn p.symbolRate sps (sps * (fskDevs p message).length))).map
      fun (i : Nat) => (i : ℚ) / (p.symbolRate * sps)).length = fskArangeLen rn p.symbolRate sps (sps * (fskDevs p message).length) := by simp
  generalize ((List.range (fskArangeLen rn p.symbolRate sps (sps * (fskDevs p message).length))).map
      fun (i : Nat) => (i : ℚ) / (p.symbolRate * sps)) = T at htl ⊢
  have hb : bcast (fun (f t : ℚ) => exp (2 * Real.pi * f * I * t)) F T = .error .ValueError := by
    unfold bcast
    rw [if_neg (by omega)]
    split
    · simp at hfl; omega
    · simp at htl; omega
    · rfl
  rw [hb]

theorem fskModulator_odd (rn : Rat → Rat) (p : FskParams) (message : Bits) (sps : Nat)
    (hm : message.length % fskStepBits p.modulation ≠ 0) : fskModulator rn p message sps = .error .ValueError := by
  unfold fskModulator
  rw [fskSymbols_eq, if_neg hm]; rfl

theorem fskDt_exact (rate sps : Nat) : fskDt id rate sps = 1 / ((rate : ℚ) * sps) := by
  unfold fskDt; simp only [id]; rw [div_div]

theorem fskArange_exact {rate sps : Nat} (hr : 0 < rate) (hs : 0 < sps) (n : Nat) : fskArangeLen id rate sps n = n := by
  unfold fskArangeLen
  simp only [id]
  have h : fskDt id rate sps ≠ 0 := by
    rw [fskDt_exact]
    have : (rate : ℚ) ≠ 0 := by positivity
    have : (sps : ℚ) ≠ 0 := by positivity
    positivity
  rw [mul_div_cancel_left₀ _ h]
  have : ((n : ℚ)).ceil = (n : Int) := by
    rw [show (n : ℚ) = ((n : Int) : ℚ) by push_cast; rfl, Rat.ceil_intCast]
  rw [this]; rfl

/-- `bitsToIQ` as a function of parameters and argument. -/
def fskResult (rn : Rat → Rat) (p : FskParams) (a : Arg) : Res (List ℂ × ℚ) :=
  match checkBinaryArray a with
  | .error e => .error e
  | .ok m => match fskBits p m with
    | .error e => .error e
    | .ok b => fskModulator rn p b 20

theorem fskBitsToIQ_result (rn : Rat → Rat) (a : Arg) (o : FskObj) :
    ((fskBitsToIQ rn a).call o).1 = fskResult rn o.params a ∧ ((fskBitsToIQ rn a).call o).2.params = o.params := by
  obtain ⟨h1, h2⟩ := fskBinary_result a o
  unfold fskBitsToIQ fskResult
  rw [PyM.call_bind]
  generalize hr : (fskBinary a).call o = r at h1 h2
  obtain ⟨r, s⟩ := r
  simp only at h1 h2
  cases hc : checkBinaryArray a with
  | error e => rw [hc] at h1; simp only at h1; subst h1; rw [PyM.seqR_error]; exact ⟨rfl, h2⟩
  | ok m =>
    rw [hc] at h1
    simp only at h1
    cases hb : fskBits o.params m with
    | error e => rw [hb] at h1; subst h1; rw [PyM.seqR_error]; simp only; rw [hb]; exact ⟨rfl, h2⟩
    | ok b =>
      rw [hb] at h1
      subst h1
      rw [PyM.seqR_ok, PyM.call_bind, PyM.call_get, PyM.seqR_ok, PyM.call_lift, h2]
      simp only
      rw [hb]
      exact ⟨rfl, trivial⟩

/-- `bytesToIQ` as a function of parameters and argument. -/
def fskBytesResult (rn : Rat → Rat) (p : FskParams) (a : Arg) : Res (List ℂ × ℚ) :=
  match toBinaryArray a with
  | .error e => .error e
  | .ok m => fskResult rn p (bitsArg m)

theorem fskBytesToIQ_result (rn : Rat → Rat) (a : Arg) (o : FskObj) :
    ((fskBytesToIQ rn a).call o).1 = fskBytesResult rn o.params a ∧ ((fskBytesToIQ rn a).call o).2.params = o.params := by
  unfold fskBytesToIQ fskBytesResult
  cases ha : toBinaryArray a with
  | error e => simp only [PyM.call_bind, PyM.call_lift, PyM.seqR_error, and_self]
  | ok m =>
    simp only [PyM.call_bind, PyM.call_lift, PyM.seqR_ok]
    exact fskBitsToIQ_result rn _ o

end
end SunPhy
