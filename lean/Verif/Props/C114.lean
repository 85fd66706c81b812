import Verif.Model.MrOqpskRaw
import Verif.Props.C68
/-
C114 — MR-O-QPSK modulators constructed from Python values of any type.
-/
namespace SunPhy.C114
open SunPhy Spec

/-- The value is a number equal to the integer `z`: `1`, `True`, `1.0`, … -/
def Equals (v : PyObj) (z : Int) : Prop := v = .int z ∨ (∃ b, v = .bool b ∧ z = if b then 1 else 0) ∨ v = .float z

/-- The value is an integer (or bool, which is an integer in Python) with value `z`. -/
def IsInt (v : PyObj) (z : Int) : Prop := v = .int z ∨ ∃ b, v = .bool b ∧ z = if b then 1 else 0

theorem eqInt_iff (v : PyObj) (z : Int) : v.eqInt z = true ↔ Equals v z := by
  unfold Equals
  cases v with
  | int i => simp [PyObj.eqInt]
  | bool b => simp only [PyObj.eqInt, beq_iff_eq, reduceCtorEq, false_or, or_false, PyObj.bool.injEq]; exact ⟨fun h => ⟨b, rfl, h.symm⟩, fun ⟨c, h1, h2⟩ => by rw [h1, h2]⟩
  | float q => simp [PyObj.eqInt]
  | str s => simp [PyObj.eqInt]
  | other t h => simp [PyObj.eqInt]

theorem index_iff (v : PyObj) (z : Int) : v.index = .ok z ↔ IsInt v z := by
  unfold IsInt
  cases v with
  | int i => simp [PyObj.index]
  | bool b => simp [PyObj.index, eq_comm]
  | float q => simp [PyObj.index]
  | str s => simp [PyObj.index]
  | other t h => simp [PyObj.index]

theorem index_error (v : PyObj) (h : ¬ ∃ z, IsInt v z) : v.index = .error .TypeError := by
  cases v with
  | int i => exact absurd ⟨i, .inl rfl⟩ h
  | bool b => exact absurd ⟨_, .inr ⟨b, rfl, rfl⟩⟩ h
  | _ => rfl

theorem Equals.truth {v : PyObj} {z : Int} (h : Equals v z) : v.truth = (z != 0) := by
  rcases h with rfl | ⟨b, rfl, rfl⟩ | rfl
  · rfl
  · cases b <;> rfl
  · simp [PyObj.truth, bne, BEq.beq]

theorem Equals.eqInt {v : PyObj} {z : Int} (h : Equals v z) (y : Int) : v.eqInt y = (z == y) := by
  rcases h with rfl | ⟨b, rfl, rfl⟩ | rfl
  · rfl
  · rfl
  · simp [PyObj.eqInt, BEq.beq]

theorem Equals.lookup {v : PyObj} {z : Int} (h : Equals v z) (b : Band) (rm : Int) : v.lookup01 (dataRate 0 b rm) (dataRate 1 b rm) = dataRate z b rm := by
  unfold PyObj.lookup01
  rw [h.eqInt, h.eqInt]
  by_cases h0 : z = 0
  · subst h0; rfl
  by_cases h1 : z = 1
  · subst h1; rfl
  rw [if_neg (by simpa using h0), if_neg (by simpa using h1)]
  unfold dataRate
  rw [if_neg h0, if_neg h1]
  rcases h with rfl | ⟨b, rfl, rfl⟩ | rfl <;> rfl

theorem bind_ok {α β : Type} {x : Res α} {f : α → Res β} {r : β} (h : (x >>= f) = .ok r) : ∃ v, x = .ok v ∧ f v = .ok r := by
  cases x with
  | error e => cases h
  | ok v => exact ⟨v, rfl, h⟩

/-- Chips and samples of the integer model, spelled out stage by stage. -/
theorem typed_eq (o : OqpskObj) (a : Arg) : ((oqpskBitsToIQ a).call o).1 = oqpskBitsResult o.params a := (oqpskBitsToIQ_result a o).1

theorem phr_sm (b : Band) (rm z : Int) (s : Nat) (n : Nat) : OqpskParams.phr ⟨b, rm, if (z != 0) = true then 1 else 0, 0⟩ n = OqpskParams.phr ⟨b, rm, z, s⟩ n := by
  unfold OqpskParams.phr
  have : ((if (z != 0) = true then (1 : Int) else 0) != 0) = (z != 0) := by
    by_cases h : z = 0
    · subst h; rfl
    · simp [h]
  simp only [this]

/-- **C114 (well-typed arguments).**  With a band, a spreading mode equal to an integer, an integer rate mode and a non-negative integer number of samples per symbol, `bitsToIQ` is that of
the integer model: `True` is `1`, `False` is `0`, and the spreading mode may also be a float. -/
theorem C114_typed (o : OqpskRaw) (b : Band) (z rm : Int) (n : Nat) (hb : o.band = .band b) (hz : Equals o.sm z) (hr : IsInt o.rm rm) (hn : IsInt o.sps n) (a : Arg)
    (fresh : OqpskObj) (hf : fresh.params = ⟨b, rm, z, n⟩) : oqpskRawBitsToIQ o a = ((oqpskBitsToIQ a).call fresh).1 := by
  rw [typed_eq, hf]
  unfold oqpskRawBitsToIQ oqpskBitsResult
  cases ha : checkBinaryArray a with
  | error e => rfl
  | ok m =>
    simp only [bind, Except.bind]
    rw [hb, (index_iff _ _).2 hr, hz.truth]
    simp only [BandArg.key]
    unfold oqpskFrame
    rw [phr_sm b rm z n]
    unfold oqpskPhrChips
    rw [show OqpskParams.shr ⟨b, 0, 0, 0⟩ = OqpskParams.shr ⟨b, rm, z, n⟩ from rfl]
    cases dsss (bde (OqpskParams.shr ⟨b, rm, z, n⟩) false) (shrSpreading b) with
    | error e => rfl
    | ok cshr =>
    simp only
    cases OqpskParams.phr ⟨b, rm, z, n⟩ (m.length / 8) with
    | error e => rfl
    | ok phr =>
    simp only
    cases oqpskInterleaver (oqpskFec phr false) false with
    | error e => rfl
    | ok il =>
    simp only
    cases dsss (bde il ((bde (OqpskParams.shr ⟨b, rm, z, n⟩) false).getLastD false)) (phrSpreading b) with
    | error e => rfl
    | ok cphr =>
    simp only
    have e1 : oqpskCodeRaw rm o.sm m = oqpskPsduBits ⟨b, rm, z, n⟩ m := by
      unfold oqpskCodeRaw oqpskPsduBits
      simp only [hz.eqInt, beq_iff_eq]
    rw [e1]
    cases oqpskPsduBits ⟨b, rm, z, n⟩ m with
    | error e => rfl
    | ok t =>
    simp only
    have e2 : oqpskSpreadRaw b rm o.sm t = oqpskSpread ⟨b, rm, z, n⟩ t := by
      unfold oqpskSpreadRaw oqpskSpread
      simp only [hz.eqInt, beq_iff_eq, bind, Except.bind]
      split
      · cases psduBdeDsss b rm with
        | error e => rfl
        | ok u =>
        simp only
        cases psduSpreadingDsss b rm with
        | error e => rfl
        | ok c => cases c <;> rfl
      · cases mdsssFactor b rm <;> rfl
    rw [e2]
    cases oqpskSpread ⟨b, rm, z, n⟩ t with
    | error e => rfl
    | ok s =>
    simp only
    unfold oqpskModulatorRaw oqpskModulator
    rw [hz.lookup, (index_iff _ _).2 hn]
    simp only [bind, Except.bind]
    cases dataRate z b rm with
    | error e => rfl
    | ok v =>
      simp only
      rw [if_neg (by omega), Int.toNat_natCast, Int.cast_natCast]
      rfl

/-- **C114 (constructor).**  Only the spreading mode is looked at: unless it equals 1, any four values are accepted. -/
theorem C114_constructor (band : BandArg) (rm sm sps : PyObj) :
    (¬ Equals sm 1 → oqpskInitRaw band rm sm sps = .ok ⟨band, rm, sm, sps⟩) ∧
    (Equals sm 1 → oqpskInitRaw band rm sm sps = match band with
      | .band b => if b ∈ [.b780, .b915, .b917, .b2450] then .ok ⟨band, rm, sm, sps⟩ else .error .UnsupportedError
      | .hashable => .error .KeyError
      | .unhashable => .error .TypeError) := by
  constructor
  · intro h
    rw [← eqInt_iff] at h
    unfold oqpskInitRaw
    rw [if_neg h]
    rfl
  · intro h
    unfold oqpskInitRaw
    rw [if_pos ((eqInt_iff _ _).2 h)]
    cases band with
    | band b => cases b <;> rfl
    | hashable => rfl
    | unhashable => rfl

theorem lookup_error {v : PyObj} (h0 : ¬ Equals v 0) (h1 : ¬ Equals v 1) {α : Type} (x y : Res α) : ∃ e, v.lookup01 x y = .error e := by
  unfold PyObj.lookup01
  rw [if_neg (by rw [eqInt_iff]; exact h0), if_neg (by rw [eqInt_iff]; exact h1)]
  split <;> exact ⟨_, rfl⟩

/-- **C114 (success).**  `bitsToIQ` returns samples only if the band is a `Frequency_band`, the spreading mode equals 0 or 1, the rate mode is an integer in 0..3 and the number of samples per
symbol is a positive integer; and then they are the samples of the integer model. -/
theorem C114_success (o : OqpskRaw) (a : Arg) (r : List ℂ × ℚ) (h : oqpskRawBitsToIQ o a = .ok r) :
    ∃ (b : Band) (z rm : Int) (n : Nat), o.band = .band b ∧ Equals o.sm z ∧ (z = 0 ∨ z = 1) ∧ IsInt o.rm rm ∧ 0 ≤ rm ∧ rm ≤ 3 ∧ IsInt o.sps n ∧ 1 ≤ n ∧
      ∀ fresh : OqpskObj, fresh.params = ⟨b, rm, z, n⟩ → ((oqpskBitsToIQ a).call fresh).1 = .ok r := by
  have hraw := h
  unfold oqpskRawBitsToIQ at h
  obtain ⟨m, -, h⟩ := bind_ok h
  obtain ⟨b, hb, h⟩ := bind_ok h
  obtain ⟨cshr, -, h⟩ := bind_ok h
  obtain ⟨rm, hrm, h⟩ := bind_ok h
  obtain ⟨phr, -, h⟩ := bind_ok h
  obtain ⟨il, -, h⟩ := bind_ok h
  obtain ⟨cphr, -, h⟩ := bind_ok h
  obtain ⟨t, -, h⟩ := bind_ok h
  obtain ⟨s, -, h⟩ := bind_ok h
  unfold oqpskModulatorRaw at h
  obtain ⟨rate, hrate, h⟩ := bind_ok h
  obtain ⟨n, hn, h⟩ := bind_ok h
  by_cases hneg : n < 0
  · rw [if_pos hneg] at h; cases h
  have hband : o.band = .band b := by
    revert hb
    cases o.band <;> intro hb
    · exact congrArg BandArg.band (Except.ok.inj hb)
    · cases hb
    · cases hb
  have hz : ∃ z : Int, Equals o.sm z ∧ (z = 0 ∨ z = 1) := by
    by_contra hc
    obtain ⟨e, he⟩ := lookup_error (v := o.sm) (fun h => hc ⟨0, h, .inl rfl⟩) (fun h => hc ⟨1, h, .inr rfl⟩) (dataRate 0 b rm) (dataRate 1 b rm)
    rw [he] at hrate
    cases hrate
  obtain ⟨z, hz, hz01⟩ := hz
  have hn' : IsInt o.sps (n.toNat : Int) := by rw [Int.toNat_of_nonneg (by omega)]; exact (index_iff _ _).1 hn
  have hr' := (index_iff _ _).1 hrm
  have key : ∀ fresh : OqpskObj, fresh.params = ⟨b, rm, z, n.toNat⟩ → ((oqpskBitsToIQ a).call fresh).1 = .ok r := by
    intro fresh hf
    rw [← C114_typed o b z rm n.toNat hband hz hr' hn' a fresh hf]
    exact hraw
  have hrange : 0 ≤ rm ∧ rm ≤ 3 := by
    by_contra hc
    obtain ⟨e, he⟩ := (C63.C46_no_signal { params := ⟨b, rm, z, n.toNat⟩ } (by simp only; omega) a).1
    rw [key _ rfl] at he
    cases he
  refine ⟨b, z, rm, n.toNat, hband, hz, hz01, hr', hrange.1, hrange.2, hn', ?_, key⟩
  by_contra hc
  have h0 : n.toNat = 0 := by omega
  rw [h0] at h
  simp only at h
  rw [if_neg hneg] at h
  obtain ⟨s', hs', -⟩ := bind_ok h
  cases hs'

/-- **C114 (exceptions).**  What `bitsToIQ` raises for an acceptable message: a band that is no `Frequency_band` gives `KeyError` (`TypeError` if it cannot be hashed), then a rate mode that is
no integer gives `TypeError`; where the call with one sample per symbol succeeds, a number of samples per symbol that is no integer gives `TypeError` and one that is not positive `ValueError`. -/
theorem C114_exceptions (o : OqpskRaw) (a : Arg) (m : Bits) (ha : checkBinaryArray a = .ok m) :
    (o.band = .hashable → oqpskRawBitsToIQ o a = .error .KeyError) ∧
    (o.band = .unhashable → oqpskRawBitsToIQ o a = .error .TypeError) ∧
    (∀ b, o.band = .band b → (¬ ∃ rm, IsInt o.rm rm) → oqpskRawBitsToIQ o a = .error .TypeError) ∧
    (∀ r, oqpskRawBitsToIQ { o with sps := .int 1 } a = .ok r →
      ((¬ ∃ n, IsInt o.sps n) → oqpskRawBitsToIQ o a = .error .TypeError) ∧ (∀ n, IsInt o.sps n → n ≤ 0 → oqpskRawBitsToIQ o a = .error .ValueError)) := by
  refine ⟨fun h => ?_, fun h => ?_, fun b hb hr => ?_, fun r h => ?_⟩
  · unfold oqpskRawBitsToIQ; rw [ha, h]; rfl
  · unfold oqpskRawBitsToIQ; rw [ha, h]; rfl
  · unfold oqpskRawBitsToIQ
    rw [ha, hb, index_error _ hr]
    simp only [bind, Except.bind, BandArg.key]
    rw [(shr_ok ⟨b, 0, 0, 0⟩).1]
  · unfold oqpskRawBitsToIQ at h
    obtain ⟨m', hm', h⟩ := bind_ok h
    obtain ⟨b, hb, h⟩ := bind_ok h
    obtain ⟨cshr, hcshr, h⟩ := bind_ok h
    obtain ⟨rm, hrm, h⟩ := bind_ok h
    obtain ⟨phr, hphr, h⟩ := bind_ok h
    obtain ⟨il, hil, h⟩ := bind_ok h
    obtain ⟨cphr, hcphr, h⟩ := bind_ok h
    obtain ⟨t, ht, h⟩ := bind_ok h
    obtain ⟨s, hs, h⟩ := bind_ok h
    unfold oqpskModulatorRaw at h
    obtain ⟨rate, hrate, h⟩ := bind_ok h
    have e : oqpskRawBitsToIQ o a = oqpskModulatorRaw b rm o.sm (cshr ++ cphr ++ OqpskParams.insertPilots ⟨b, 0, 0, 0⟩ s) o.sps := by
      unfold oqpskRawBitsToIQ
      rw [hm']
      simp only [bind, Except.bind] at *
      rw [hb]; simp only
      rw [hcshr]; simp only
      rw [hrm]; simp only
      rw [hphr]; simp only
      rw [hil]; simp only
      rw [hcphr]; simp only
      rw [ht]; simp only
      rw [hs]
    rw [e]
    unfold oqpskModulatorRaw
    rw [hrate]
    refine ⟨fun hn => ?_, fun n hn hle => ?_⟩
    · rw [index_error _ hn]; rfl
    · rw [(index_iff _ _).2 hn]
      simp only [bind, Except.bind]
      by_cases hneg : n < 0
      · rw [if_pos hneg]
      · rw [if_neg hneg, show n.toNat = 0 by omega]
        rfl

/-- **C114 (spreading mode).**  Where the call succeeds with spreading mode 1, a spreading mode that equals neither 0 nor 1 raises `KeyError`, or `TypeError` if it is a value that cannot be a
dictionary key. -/
theorem C114_spreading (o : OqpskRaw) (a : Arg) (r : List ℂ × ℚ) (h : oqpskRawBitsToIQ { o with sm := .int 1 } a = .ok r) (h0 : ¬ Equals o.sm 0) (h1 : ¬ Equals o.sm 1) :
    ((∃ t, o.sm = .other t false) → oqpskRawBitsToIQ o a = .error .TypeError) ∧ ((¬ ∃ t, o.sm = .other t false) → oqpskRawBitsToIQ o a = .error .KeyError) := by
  obtain ⟨b', z', rm', n', _, _, _, hir, hr0, hr3, _⟩ := C114_success _ a r h
  unfold oqpskRawBitsToIQ at h
  obtain ⟨m', hm', h⟩ := bind_ok h
  obtain ⟨b, hb, h⟩ := bind_ok h
  obtain ⟨cshr, hcshr, h⟩ := bind_ok h
  obtain ⟨rm, hrm, h⟩ := bind_ok h
  obtain ⟨phr, hphr, h⟩ := bind_ok h
  obtain ⟨il, hil, h⟩ := bind_ok h
  obtain ⟨cphr, hcphr, h⟩ := bind_ok h
  obtain ⟨t, ht, h⟩ := bind_ok h
  obtain ⟨s, hs, h⟩ := bind_ok h
  have hrr : rm = rm' := by
    have := (index_iff _ _).2 hir
    exact Except.ok.inj (hrm.symm.trans this)
  subst hrr
  have hlt : m'.length / 8 < 2048 := by
    by_contra hc
    rw [oqpsk_phr_error _ (by omega)] at hphr
    cases hphr
  obtain ⟨c2, hc2, -⟩ := phr_ok_iff ⟨b, rm, if o.sm.truth then 1 else 0, 0⟩ hr0 hr3 _ hlt
  unfold oqpskPhrChips at hc2
  have e0 : o.sm.eqInt 0 = false := by rw [← Bool.not_eq_true, eqInt_iff]; exact h0
  have e1 : o.sm.eqInt 1 = false := by rw [← Bool.not_eq_true, eqInt_iff]; exact h1
  have ht' : oqpskCodeRaw rm o.sm m' = .ok t := by
    rw [← ht]; unfold oqpskCodeRaw; rw [e0]; rfl
  have hs' : oqpskSpreadRaw b rm o.sm t = .ok s := by
    rw [← hs]; unfold oqpskSpreadRaw; rw [e0]; rfl
  have hl : o.sm.lookup01 (dataRate 0 b rm) (dataRate 1 b rm) = match o.sm with
      | .other _ false => .error .TypeError
      | _ => .error .KeyError := by
    unfold PyObj.lookup01
    rw [e0, e1]; rfl
  have e : oqpskRawBitsToIQ o a = o.sm.lookup01 (dataRate 0 b rm) (dataRate 1 b rm) >>= fun _ => match o.sm with
      | .other _ false => .error .TypeError
      | _ => .error .KeyError := by
    unfold oqpskRawBitsToIQ oqpskModulatorRaw
    rw [hm']
    simp only [bind, Except.bind] at *
    rw [hb]; simp only
    rw [hcshr]; simp only
    rw [hrm]; simp only
    generalize OqpskParams.phr ⟨b, rm, if o.sm.truth then 1 else 0, 0⟩ (m'.length / 8) = P at hc2 ⊢
    cases P with
    | error e => cases hc2
    | ok P =>
    simp only at hc2 ⊢
    generalize oqpskInterleaver (oqpskFec P false) false = P2 at hc2 ⊢
    cases P2 with
    | error e => cases hc2
    | ok P2 =>
    simp only at hc2 ⊢
    rw [show OqpskParams.shr ⟨b, 0, 0, 0⟩ = OqpskParams.shr ⟨b, rm, if o.sm.truth then 1 else 0, 0⟩ from rfl, hc2]; simp only
    rw [ht']; simp only
    rw [hs']; simp only
    rw [hl]
    cases o.sm with
    | other t h => cases h <;> rfl
    | _ => rfl
  rw [e, hl]
  constructor
  · rintro ⟨t, hh⟩
    rw [hh]; rfl
  · intro hh
    revert hh
    cases o.sm with
    | other t h => cases h with
      | false => exact fun hh => absurd ⟨t, rfl⟩ hh
      | true => exact fun _ => rfl
    | _ => exact fun _ => rfl

/-- The same for `bytesToIQ`. -/
theorem C114_typed_bytes (o : OqpskRaw) (b : Band) (z rm : Int) (n : Nat) (hb : o.band = .band b) (hz : Equals o.sm z) (hr : IsInt o.rm rm) (hn : IsInt o.sps n) (a : Arg)
    (fresh : OqpskObj) (hf : fresh.params = ⟨b, rm, z, n⟩) : oqpskRawBytesToIQ o a = ((oqpskBytesToIQ a).call fresh).1 := by
  unfold oqpskRawBytesToIQ oqpskBytesToIQ
  rw [PyM.call_bind, PyM.call_lift]
  cases toBinaryArray a with
  | error e => rfl
  | ok m => exact C114_typed o b z rm n hb hz hr hn _ fresh hf

/-! Non-vacuity. -/
example : ∃ r, oqpskRawBitsToIQ ⟨.band .b868, .bool true, .float 0, .int 4⟩ (bitsArg (List.replicate 40 true)) = .ok r := by
  have h := C68.C68_reference { params := ⟨.b868, 1, 0, 4⟩ } ⟨by decide, by decide, by decide⟩ (bitsArg (List.replicate 40 true)) _ (C03.C03_identity _ (by decide)) 5 (by decide) (by decide)
    (by decide)
  simp only at h
  rw [if_neg (by decide)] at h
  refine ⟨_, Eq.trans (C114_typed ⟨.band .b868, .bool true, .float 0, .int 4⟩ .b868 0 1 4 rfl (.inr (.inr (by norm_num))) (.inr ⟨true, rfl, rfl⟩) (.inl rfl) _ { params := ⟨.b868, 1, 0, 4⟩ } rfl) h⟩
example : ¬ Equals (.str "1") 0 ∧ ¬ Equals (.str "1") 1 ∧ ¬ Equals (.other true false) 1 ∧ ¬ Equals (.float (1 / 2)) 0 := by
  refine ⟨?_, ?_, ?_, ?_⟩ <;> rw [← eqInt_iff] <;> simp [PyObj.eqInt]
example : ∃ r, oqpskRawBitsToIQ { (⟨.band .b915, .int 2, .str "1", .int 4⟩ : OqpskRaw) with sm := .int 1 } (bitsArg (List.replicate 40 true)) = .ok r := by
  have h := C68.C68_reference { params := ⟨.b915, 2, 1, 4⟩ } ⟨by decide, by decide, by decide⟩ (bitsArg (List.replicate 40 true)) _ (C03.C03_identity _ (by decide)) 5 (by decide) (by decide)
    (by decide)
  simp only at h
  rw [if_neg (by decide)] at h
  refine ⟨_, Eq.trans (C114_typed ⟨.band .b915, .int 2, .int 1, .int 4⟩ .b915 1 2 4 rfl (.inl rfl) (.inl rfl) (.inl rfl) _ { params := ⟨.b915, 2, 1, 4⟩ } rfl) h⟩
example : oqpskInitRaw .hashable (.str "x") (.other false true) (.float (1 / 2)) = .ok ⟨.hashable, .str "x", .other false true, .float (1 / 2)⟩ := rfl
example : Equals (.bool true) 1 ∧ Equals (.float 1) 1 ∧ IsInt (.bool false) 0 ∧ ¬ ∃ z, IsInt (.float 1) z := by
  refine ⟨.inr (.inl ⟨true, rfl, rfl⟩), .inr (.inr (by norm_num)), .inr ⟨false, rfl, rfl⟩, ?_⟩
  rintro ⟨z, h | ⟨b, h, -⟩⟩ <;> cases h

end SunPhy.C114
