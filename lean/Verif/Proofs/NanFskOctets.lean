import Verif.Proofs.NanFsk
import Verif.Proofs.RefFsk
import Verif.Spec.NanMessages
/-
MR-FSK on octets of 2 and more.
-/
namespace SunPhy.C144
open SunPhy Spec

theorem mem_encodeV (s M : Nat) (hs : s ≠ 0) (x : List Nat) (y : Nat) (hy : y ∈ x) : y ∈ (fskEncodeV s M x).1 := by
  induction x generalizing M with
  | nil => cases hy
  | cons b x ih =>
    rw [encodeV_cons]
    rcases List.mem_cons.1 hy with rfl | h
    · have : (fskIterV s M y).2.1 = y := by unfold fskIterV; rw [if_pos hs]; rfl
      rw [this]; simp
    · exact List.mem_cons_of_mem _ (List.mem_cons_of_mem _ (ih _ h))

theorem tailV_length (s M : Nat) (t : List Nat) (h : fskTailV s M = .ok t) : t.length = 3 := by
  unfold fskTailV at h
  split at h
  · split at h
    · cases h; rw [List.length_map]; rename_i h1 _; have := fskTail_length s M; unfold fskTailBits at this; rw [if_pos h1] at this; exact this
    · cases h
  · cases h; rfl

theorem fecV_cases (s : Nat) (x : List Nat) : fskFecV s x = .error .KeyError ∨
    ∃ e, fskFecV s x = .ok e ∧ e.length = 2 * (x.length + 3 + (fskPadBits x.length).length) ∧ (s ≠ 0 → ∀ y ∈ x, y ∈ e) := by
  unfold fskFecV
  simp only [bind, Except.bind, pure, Except.pure]
  cases ht : fskTailV s (fskEncodeV s 0 x).2 with
  | error e =>
    left
    unfold fskTailV at ht
    split at ht
    · split at ht
      · cases ht
      · cases ht; rfl
    · cases ht
  | ok t =>
    right
    refine ⟨_, rfl, ?_, fun hs y hy => ?_⟩
    · simp only [List.length_append, encodeV_length, List.length_map, tailV_length _ _ _ ht]; ring
    · exact List.mem_append_left _ (List.mem_append_left _ (mem_encodeV s 0 hs x y hy))

theorem passes_xor (m : FskMod) (k : Bool) (v : Nat) (h : Nan.Passes m (b2n k ^^^ v)) : Nan.Passes m v := by
  have e : b2n k ^^^ (b2n k ^^^ v) = v := by rw [← Nat.xor_assoc, Nat.xor_self, Nat.zero_xor]
  rw [← e]
  generalize b2n k ^^^ v = w at h
  unfold Nan.Passes at *
  cases k
  · simpa [b2n] using h
  · rcases h with rfl | rfl | ⟨hm, rfl | rfl⟩
    · right; left; rfl
    · left; rfl
    · right; right; exact ⟨hm, .inr rfl⟩
    · right; right; exact ⟨hm, .inl rfl⟩

/-- Whitening keeps values without a frequency. -/
theorem whiten_bad (m : FskMod) (d : List Nat) (v : Nat) (hv : v ∈ d) (hp : ¬ Nan.Passes m v) (st : Nat) (sc : Bool) :
    ∃ w ∈ (if sc = true then d.take st ++ scramblerV (d.drop st) else d), ¬ Nan.Passes m w := by
  cases sc with
  | false => exact ⟨v, by simpa using hv, hp⟩
  | true =>
    simp only [if_true]
    rw [← List.take_append_drop st d, List.mem_append] at hv
    rcases hv with h | h
    · exact ⟨v, List.mem_append_left _ h, hp⟩
    · obtain ⟨i, hi, rfl⟩ := List.getElem_of_mem h
      refine ⟨b2n (Ref.key 511 i) ^^^ (d.drop st)[i], List.mem_append_right _ ?_, fun h => hp (passes_xor _ _ _ h)⟩
      refine List.mem_of_getElem? (i := i) ?_
      rw [scramblerV_get, List.getElem?_eq_getElem hi]; rfl

theorem scramblerV_length (x : List Nat) (s : Nat) : (scramblerV x s).length = x.length := by
  unfold scramblerV
  rw [List.length_zipWith, Pn9.nextN_length, Nat.min_self]

theorem whiten_length (d : List Nat) (st : Nat) (sc : Bool) : (if sc = true then d.take st ++ scramblerV (d.drop st) else d).length = d.length := by
  split
  · rw [List.length_append, scramblerV_length, ← List.length_append, List.take_append_drop]
  · rfl

theorem shr_even (p : FskParams) (h : p.modulation = .FSK4) : p.shr.length % 2 = 0 := by
  rw [fsk_shr_ref]
  unfold RefF.preamble RefF.sfd
  rw [h]
  simp
  omega

/-- A value without a frequency stays in the frame. -/
theorem binaryV_bad (p : FskParams) (hc : p.fecEnabled = false ∨ p.fecScheme ≠ 0) (x : List Nat) (v : Nat) (hv : v ∈ x) (hp : ¬ Nan.Passes p.modulation v) (b : List Nat)
    (h : fskBinaryV p x = .ok b) : ∃ w ∈ b, ¬ Nan.Passes p.modulation w := by
  unfold fskBinaryV at h
  cases hh : p.phr (x.length / 8) with
  | error e => rw [hh] at h; cases h
  | ok hd =>
    rw [hh] at h
    simp only [bind, Except.bind, pure, Except.pure] at h
    cases hf : p.fecEnabled with
    | false =>
      rw [hf] at h
      simp only [Bool.false_eq_true, if_false] at h
      rw [← Except.ok.inj h]
      obtain ⟨w, hw, hw'⟩ := whiten_bad p.modulation (hd.map b2n ++ x) v (List.mem_append_right _ hv) hp (fskPhrLength * 1 * 8) p.scramble
      exact ⟨w, List.mem_append_right _ hw, hw'⟩
    | true =>
      have hs : p.fecScheme ≠ 0 := by rcases hc with h | h; · rw [hf] at h; cases h
                                      · exact h
      rw [hf] at h
      simp only [if_true] at h
      rcases fecV_cases p.fecScheme (hd.map b2n ++ x) with he | ⟨e, he, -, hm⟩
      · rw [he] at h; cases h
      · rw [he] at h
        have hve := hm hs v (List.mem_append_right _ hv)
        cases hi : p.interleaving with
        | false =>
          rw [hi] at h
          simp only [Bool.false_eq_true, if_false] at h
          rw [← Except.ok.inj h]
          obtain ⟨w, hw, hw'⟩ := whiten_bad p.modulation e v hve hp (fskPhrLength * 2 * 8) p.scramble
          exact ⟨w, List.mem_append_right _ hw, hw'⟩
        | true =>
          rw [hi] at h
          simp only [if_true] at h
          by_cases hl : e.length % 32 = 0
          · rw [interleaverV_ok hl] at h
            rw [← Except.ok.inj h]
            obtain ⟨w, hw, hw'⟩ := whiten_bad p.modulation _ v (interleaverV_mem hl hve) hp (fskPhrLength * 2 * 8) p.scramble
            exact ⟨w, List.mem_append_right _ hw, hw'⟩
          · have : fskInterleaverV e = .error .ValueError := by unfold fskInterleaverV reshapeRows; rw [if_pos (.inr hl)]; rfl
            rw [this] at h; cases h

/-- Frames of whole octets have whole symbols. -/
theorem binaryV_octets (p : FskParams) (x : List Nat) (h8 : x.length % 8 = 0) (hn : x.length / 8 ≤ 2047) :
    fskBinaryV p x = .error .KeyError ∨ ∃ b, fskBinaryV p x = .ok b ∧ b.length % fskStepBits p.modulation = 0 := by
  have hph := fsk_header_ref p (show x.length / 8 < 2048 by omega)
  have hpl : (RefF.header p (x.length / 8)).length = 16 := rfl
  have hfin : ∀ d : List Nat, ∀ st, d.length % 2 = 0 → (p.shr.map b2n ++ if p.scramble = true then d.take st ++ scramblerV (d.drop st) else d).length % fskStepBits p.modulation = 0 := by
    intro d st hd
    rw [List.length_append, whiten_length, List.length_map]
    cases hm : p.modulation with
    | FSK2 => exact Nat.mod_one _
    | FSK4 => have := shr_even p hm; simp only [fskStepBits]; omega
  unfold fskBinaryV
  rw [hph]
  simp only [bind, Except.bind, pure, Except.pure]
  cases hf : p.fecEnabled with
  | false =>
    simp only [Bool.false_eq_true, if_false]
    refine .inr ⟨_, rfl, hfin _ _ ?_⟩
    rw [List.length_append, List.length_map, hpl]; omega
  | true =>
    simp only [if_true]
    rcases fecV_cases p.fecScheme ((RefF.header p (x.length / 8)).map b2n ++ x) with he | ⟨e, he, hel, -⟩
    · left; rw [he]
    · right
      rw [he]
      simp only
      cases hi : p.interleaving with
      | false =>
        simp only [Bool.false_eq_true, if_false]
        exact ⟨_, rfl, hfin _ _ (by rw [hel]; omega)⟩
      | true =>
        simp only [if_true]
        have hl : e.length % 32 = 0 := by
          rw [hel, fskPad_length, List.length_append, List.length_map, hpl]
          split <;> omega
        rw [interleaverV_ok hl]
        exact ⟨_, rfl, hfin _ _ (by rw [interleaverV_length hl]; omega)⟩

/-! ### the non-recursive encoder -/

theorem low2 (M : Nat) : (M >>> 2) &&& 1 = M / 4 % 2 := by rw [Nat.shiftRight_eq_div_pow, Nat.and_one_is_mod]
theorem low1 (M : Nat) : (M >>> 1) &&& 1 = M / 2 % 2 := by rw [Nat.shiftRight_eq_div_pow, Nat.and_one_is_mod]

theorem reg_value (b M0 M1 : Nat) (h0 : M0 < 2) (h1 : M1 < 2) : (b <<< 2) ||| (M0 <<< 1) ||| M1 = 4 * b + 2 * M0 + M1 := by
  rw [Nat.or_assoc]
  have e : (M0 <<< 1) ||| M1 = 2 * M0 + M1 := by interval_cases M0 <;> interval_cases M1 <;> rfl
  rw [e, ← Nat.shiftLeft_add_eq_or_of_lt (by omega : 2 * M0 + M1 < 2 ^ 2), Nat.shiftLeft_eq]
  ring

theorem xor_big (b M0 : Nat) (hb : 2 ≤ b) (h0 : M0 < 2) : 2 ≤ b ^^^ M0 := by
  by_contra h
  have e : b = (b ^^^ M0) ^^^ M0 := by rw [Nat.xor_assoc, Nat.xor_self, Nat.xor_zero]
  have h1 : b ^^^ M0 < 2 := by omega
  have h2 := Nat.xor_lt_two_pow (n := 1) h1 h0
  omega

/-- An octet of 2 or more: coded bits 0, register like its last bit. -/
theorem iterV_big (M b : Nat) (hb : 2 ≤ b) : fskIterV 0 M b = (4 * b + 2 * (M / 4 % 2) + M / 2 % 2, 0, 0) := by
  unfold fskIterV nrnscIterV
  rw [if_neg (by decide)]
  simp only [Nat.and_one_is_mod, Nat.shiftRight_eq_div_pow, Nat.reducePow, ne_eq, not_true_eq_false, if_false]
  have m2 : M / 4 % 2 < 2 := by omega
  have m1 : M / 2 % 2 < 2 := by omega
  have m0 : M % 2 < 2 := by omega
  rw [reg_value _ _ _ m2 m1]
  have e1 := xor_big _ _ (xor_big _ _ (xor_big b _ hb m2) m1) m0
  have e2 := xor_big _ _ (xor_big b _ hb m1) m0
  rw [show ((b ^^^ M / 4 % 2 ^^^ M / 2 % 2 ^^^ M % 2) == 0) = false by rw [beq_eq_false_iff_ne]; omega,
    show ((b ^^^ M / 2 % 2 ^^^ M % 2) == 0) = false by rw [beq_eq_false_iff_ne]; omega]
  rfl

/-- A bit: as usual, whatever is left of earlier octets in the register. -/
theorem iterV_small (M : Nat) (b : Bool) : fskIterV 0 M (b2n b) = (fskStep 0 (M % 8) b, b2n (fskU0 0 (M % 8) b), b2n (fskU1 0 (M % 8) b)) := by
  rw [← iter_bits 0 (by omega)]
  unfold fskIterV nrnscIterV
  rw [if_neg (by decide)]
  simp only [Nat.and_one_is_mod, Nat.shiftRight_eq_div_pow, Nat.reducePow, ne_eq, not_true_eq_false, if_false]
  rw [show M % 8 / 4 % 2 = M / 4 % 2 by omega, show M % 8 / 2 % 2 = M / 2 % 2 by omega, show M % 8 % 2 = M % 2 by omega]

theorem step_low (M : Nat) (b : Bool) : fskStep 0 (M % 8) b = 4 * b2n b + 2 * (M / 4 % 2) + M / 2 % 2 := by
  unfold fskStep fskIter nrnscIter
  rw [if_neg (by decide)]
  simp only [low2, low1]
  rw [reg_value _ _ _ (by omega) (by omega)]
  omega

/-- Output of the encoder: the coded bits of the last bits of the octets, 0 for an octet of 2 or more; the register is right modulo 8. -/
theorem encodeV_zero (M : Nat) (x : List Nat) : (fskEncodeV 0 M x).1 = ((fskEncode 0 (M % 8) (x.map fun v => v % 2 == 1)).1.mapIdx fun i b =>
      b2n (if 2 ≤ x.getD (i / 2) 0 then false else b)) ∧ (fskEncodeV 0 M x).2 % 8 = (fskEncode 0 (M % 8) (x.map fun v => v % 2 == 1)).2 := by
  induction x generalizing M with
  | nil => exact ⟨rfl, rfl⟩
  | cons v x ih =>
    have hreg : (fskIterV 0 M v).1 % 8 = fskStep 0 (M % 8) (v % 2 == 1) := by
      rw [step_low]
      by_cases hv : 2 ≤ v
      · rw [iterV_big M v hv]
        simp only
        rcases Nat.mod_two_eq_zero_or_one v with h | h <;> rw [h] <;> simp [b2n] <;> omega
      · have : v = b2n (v % 2 == 1) := by interval_cases v <;> rfl
        rw [this, iterV_small, step_low]
        generalize (v % 2 == 1) = c
        cases c <;> simp [b2n] <;> omega
    have hout : (fskIterV 0 M v).2.1 = b2n (if 2 ≤ v then false else fskU0 0 (M % 8) (v % 2 == 1)) ∧
        (fskIterV 0 M v).2.2 = b2n (if 2 ≤ v then false else fskU1 0 (M % 8) (v % 2 == 1)) := by
      by_cases hv : 2 ≤ v
      · rw [iterV_big M v hv, if_pos hv, if_pos hv]; exact ⟨rfl, rfl⟩
      · rw [if_neg hv, if_neg hv]
        obtain ⟨c, rfl⟩ : ∃ c, v = b2n c := ⟨v % 2 == 1, by interval_cases v <;> rfl⟩
        rw [iterV_small, show (b2n c % 2 == 1) = c by cases c <;> rfl]
        exact ⟨rfl, rfl⟩
    obtain ⟨i1, i2⟩ := ih (fskIterV 0 M v).1
    rw [hreg] at i1 i2
    rw [List.map_cons, encodeV_cons, fskEncode_cons]
    refine ⟨?_, i2⟩
    simp only
    rw [i1, hout.1, hout.2, List.mapIdx_cons, List.mapIdx_cons]
    simp only [Nat.zero_div, List.getD_cons_zero, Nat.zero_add, show 1 / 2 = 0 from rfl]
    refine congrArg₂ _ rfl (congrArg₂ _ rfl ?_)
    apply List.ext_getElem?
    intro i
    rw [List.getElem?_mapIdx, List.getElem?_mapIdx]
    rw [show (i + 1 + 1) / 2 = i / 2 + 1 by omega, List.getD_cons_succ]

theorem low_b2n (t : Bits) : (t.map b2n).map (fun v => v % 2 == 1) = t := by
  rw [List.map_map]
  conv_rhs => rw [← List.map_id t]
  refine List.map_congr_left fun b _ => ?_
  cases b <;> rfl

theorem getD_small (t : Bits) (i : Nat) : ¬ 2 ≤ (t.map b2n).getD i 0 := by
  rw [List.getD_eq_getElem?_getD, List.getElem?_map]
  cases t[i]? with
  | none => simp
  | some b => cases b <;> simp [b2n]

/-- Bits after octets: only the register modulo 8 matters. -/
theorem encodeV_after (M : Nat) (t : Bits) : (fskEncodeV 0 M (t.map b2n)).1 = (fskEncode 0 (M % 8) t).1.map b2n ∧
    (fskEncodeV 0 M (t.map b2n)).2 % 8 = (fskEncode 0 (M % 8) t).2 := by
  obtain ⟨h1, h2⟩ := encodeV_zero M (t.map b2n)
  rw [low_b2n] at h1 h2
  refine ⟨?_, h2⟩
  rw [h1]
  apply List.ext_getElem?
  intro i
  rw [List.getElem?_mapIdx, List.getElem?_map]
  simp only [getD_small t, if_false]

theorem fecV_zero (hd : Bits) (hh : hd.length = 16) (v : List Nat) : fskFecV 0 (hd.map b2n ++ v) =
    .ok (((fskFec 0 (hd ++ v.map fun x => x % 2 == 1)).mapIdx fun i b => if 32 ≤ i ∧ 2 ≤ v.getD ((i - 32) / 2) 0 then false else b).map b2n) := by
  have hlow : (hd.map b2n ++ v).map (fun v => v % 2 == 1) = hd ++ v.map fun x => x % 2 == 1 := by rw [List.map_append, low_b2n]
  obtain ⟨a1, a2⟩ := encodeV_zero 0 (hd.map b2n ++ v)
  rw [hlow, Nat.zero_mod] at a1 a2
  have hcond : ∀ i, (2 ≤ (hd.map b2n ++ v).getD (i / 2) 0) ↔ 32 ≤ i ∧ 2 ≤ v.getD ((i - 32) / 2) 0 := by
    intro i
    by_cases hi : i / 2 < 16
    · rw [List.getD_append _ _ _ _ (by rw [List.length_map]; omega)]
      constructor
      · intro h; exact absurd h (getD_small _ _)
      · intro h; omega
    · rw [List.getD_append_right _ _ _ _ (by rw [List.length_map]; omega), List.length_map, hh, show i / 2 - 16 = (i - 32) / 2 by omega]
      constructor
      · intro h; exact ⟨by omega, h⟩
      · exact fun h => h.2
  have b1 := encodeV_after (fskEncodeV 0 0 (hd.map b2n ++ v)).2 nrnscTailBits
  have c1 := encodeV_after (fskEncodeV 0 (fskEncodeV 0 0 (hd.map b2n ++ v)).2 (nrnscTailBits.map b2n)).2 (fskPadBits (hd.map b2n ++ v).length)
  rw [b1.2, a2] at c1
  rw [a2] at b1
  unfold fskFecV fskTailV
  simp only [ne_eq, not_true_eq_false, if_false, bind, Except.bind, pure, Except.pure]
  rw [a1, b1.1, c1.1]
  congr 1
  unfold fskFec fskTailBits
  simp only [ne_eq, not_true_eq_false, if_true, if_false]
  have hl : (hd.map b2n ++ v).length = (hd ++ v.map fun x => x % 2 == 1).length := by simp
  have hl' : (hd.map b2n ++ v).length = 16 + v.length := by simp [hh]
  rw [hl]
  generalize hX : (hd ++ v.map fun x => x % 2 == 1) = X at *
  have hout := fskEncode_length 0 0 X
  generalize (fskEncode 0 0 X).1 = o1 at *
  generalize (fskEncode 0 (fskEncode 0 0 X).2 nrnscTailBits).1 = o2 at *
  generalize (fskEncode 0 (fskEncode 0 (fskEncode 0 0 X).2 nrnscTailBits).2 (fskPadBits X.length)).1 = o3 at *
  rw [List.append_assoc, List.append_assoc, ← List.map_append]
  apply List.ext_getElem?
  intro i
  rw [List.getElem?_map, List.getElem?_mapIdx]
  by_cases hi : i < o1.length
  · rw [List.getElem?_append_left (by rw [List.length_mapIdx]; exact hi), List.getElem?_append_left hi, List.getElem?_mapIdx, Option.map_map]
    congr 1
    funext b
    simp only [Function.comp, hcond]
  · rw [List.getElem?_append_right (by rw [List.length_mapIdx]; omega), List.getElem?_append_right (by omega), List.length_mapIdx, List.getElem?_map, Option.map_map]
    congr 1
    funext b
    simp only [Function.comp]
    rw [if_neg]
    rintro ⟨h1, h2⟩
    rw [List.getD_eq_getElem?_getD, List.getElem?_eq_none (by omega)] at h2
    simp at h2

/-- The frame of the non-recursive encoder. -/
theorem binaryV_zero (p : FskParams) (hf : p.fecEnabled = true) (hs : p.fecScheme = 0) (v : List Nat) (hn : v.length / 8 ≤ 2047) (hi : p.interleaving = true → v.length % 8 = 0) :
    fskBinaryV p v = .ok ((Nan.frame p v).map b2n) := by
  have hph := fsk_header_ref p (show v.length / 8 < 2048 by omega)
  have hpl : (RefF.header p (v.length / 8)).length = 16 := rfl
  have hcod : fskFec 0 (RefF.header p (v.length / 8) ++ v.map fun x => x % 2 == 1) = RefF.coded 0 (RefF.header p (v.length / 8) ++ v.map fun x => x % 2 == 1) (RefF.pad (v.length / 8)) := by
    refine coded_ref 0 _ _ ?_
    have := fsk_pad_ref (RefF.header p (v.length / 8) ++ v.map fun x => x % 2 == 1) (v.map fun x => x % 2 == 1) (by rw [List.length_append, hpl])
    rw [List.length_map] at this
    exact this.symm
  have hbl : ((fskFec 0 (RefF.header p (v.length / 8) ++ v.map fun x => x % 2 == 1)).mapIdx fun i b => if 32 ≤ i ∧ 2 ≤ v.getD ((i - 32) / 2) 0 then false else b) = Nan.blanked p v := by
    rw [hcod]; rfl
  have hlen : p.interleaving = true → (Nan.blanked p v).length % 32 = 0 := by
    intro h
    rw [← hbl, List.length_mapIdx]
    exact (C37.C37_multiple 0 _).2 (by rw [List.length_append, hpl, List.length_map]; have := hi h; omega)
  have key : ∀ y : Bits, Except.ok (ε := PyErr) (p.shr.map b2n ++ (if p.scramble = true then List.take (fskPhrLength * 2 * 8) (y.map b2n) ++
      scramblerV (List.drop (fskPhrLength * 2 * 8) (y.map b2n)) else y.map b2n)) = .ok ((p.shr ++ fskWhiten p y).map b2n) := by
    intro y
    unfold fskWhiten
    rw [hf]
    simp only [if_true, fskPhrLength]
    cases p.scramble with
    | false => simp only [Bool.false_eq_true, if_false]; rw [← List.map_append]
    | true =>
      simp only [if_true]
      rw [← List.map_take, ← List.map_drop, scramblerV_bits, ← List.map_append, ← List.map_append]
  have hfin : p.shr ++ fskWhiten p (Nan.body p v) = Nan.frame p v := by
    rw [whiten_ref, fsk_shr_ref, hf]; rfl
  unfold fskBinaryV
  rw [hph, hs]
  simp only [bind, Except.bind, pure, Except.pure, hf, if_true, fecV_zero _ hpl, hbl]
  rw [← hfin]
  unfold Nan.body
  cases hil : p.interleaving with
  | false => simp only [Bool.false_eq_true, if_false]; exact key _
  | true =>
    simp only [if_true, interleaver_bits, interleave_ref (hlen hil)]
    exact key _

end SunPhy.C144
