import Verif.Proofs.NanOqpsk
/-
The encoder of MR-O-QPSK on octets.
-/
namespace SunPhy
open Spec

/-- The register after the first `n` values. -/
def regAt (w : Nat) (v : List Nat) : Nat → Nat
  | 0 => 0
  | n + 1 => (regAt w v n >>> 1) ||| ((v.getD n 0 <<< 5) % 2 ^ w)

theorem regAt_bit (w : Nat) (v : List Nat) (n : Nat) : ∀ i, (regAt w v n).testBit i = true ↔
    ∃ s < n, s + 6 ≤ i + n ∧ i + n < w + s + 1 ∧ (v.getD s 0).testBit (i + n - (s + 6)) = true := by
  induction n with
  | zero => intro i; simp [regAt]
  | succ n ih =>
    intro i
    rw [regAt, Nat.testBit_or, Nat.testBit_shiftRight, Nat.testBit_mod_two_pow, Nat.testBit_shiftLeft, Bool.or_eq_true, ih]
    constructor
    · rintro (⟨s, h1, h2, h3, h4⟩ | h)
      · refine ⟨s, by omega, by omega, by omega, ?_⟩
        rw [← h4]; congr 1; omega
      · simp only [ge_iff_le, Bool.and_eq_true, decide_eq_true_eq] at h
        refine ⟨n, by omega, by omega, by omega, ?_⟩
        rw [← h.2.2]; congr 1; omega
    · rintro ⟨s, h1, h2, h3, h4⟩
      rcases Nat.lt_succ_iff_lt_or_eq.1 h1 with hs | rfl
      · refine .inl ⟨s, hs, by omega, by omega, ?_⟩
        rw [← h4]; congr 1; omega
      · refine .inr ?_
        simp only [ge_iff_le, Bool.and_eq_true, decide_eq_true_eq]
        refine ⟨by omega, by omega, ?_⟩
        rw [← h4]; congr 1; omega

theorem memory_bit (w : Nat) (v : List Nat) (m : Nat) : (Nan.memory w v).getD m false = true ↔
    m < v.length ∧ ∃ j ≤ m, j + 5 < w ∧ (v.getD (m - j) 0).testBit j = true := by
  unfold Nan.memory
  rw [List.getD_eq_getElem?_getD, List.getElem?_map]
  by_cases h : m < v.length
  · rw [List.getElem?_range h]
    simp only [Option.map_some, Option.getD_some, List.any_eq_true, List.mem_range, Bool.and_eq_true, decide_eq_true_eq, h, true_and]
    constructor
    · rintro ⟨j, h1, h2⟩; exact ⟨j, by omega, h2⟩
    · rintro ⟨j, h1, h2⟩; exact ⟨j, by omega, h2⟩
  · rw [List.getElem?_eq_none (by simpa using h)]
    simp [h]

/-- The six lowest bits of the register are what is remembered of the last six places. -/
theorem regAt_memory (w : Nat) (v : List Nat) (n : Nat) (hn : n ≤ v.length) (i : Nat) (hi : i ≤ 5) :
    (regAt w v n).testBit i = delayed (Nan.memory w v) n (6 - i) := by
  rw [Bool.eq_iff_iff, regAt_bit]
  unfold delayed
  split
  · rename_i h
    rw [memory_bit]
    constructor
    · rintro ⟨s, h1, h2, h3, h4⟩
      refine ⟨by omega, n - (6 - i) - s, by omega, by omega, ?_⟩
      rw [show n - (6 - i) - (n - (6 - i) - s) = s by omega, show n - (6 - i) - s = i + n - (s + 6) by omega]
      exact h4
    · rintro ⟨h1, j, h2, h3, h4⟩
      refine ⟨n - (6 - i) - j, by omega, by omega, by omega, ?_⟩
      rw [show i + n - (n - (6 - i) - j + 6) = j by omega]
      exact h4
  · rename_i h
    simp only [Bool.false_eq_true, iff_false]
    rintro ⟨s, h1, h2, h3, h4⟩
    omega

theorem shift_and (u i : Nat) : (u >>> i) &&& 1 = (u.testBit i).toNat := by
  rw [Nat.testBit_eq_decide_div_mod_eq, Nat.and_one_is_mod, Nat.shiftRight_eq_div_pow]
  have := Nat.mod_lt (u / 2 ^ i) (show 0 < 2 by decide)
  by_cases h : u / 2 ^ i % 2 = 1
  · rw [h]; rfl
  · rw [show u / 2 ^ i % 2 = 0 by omega]; rfl

theorem xor_four (v : Nat) (a b c d : Bool) : v ^^^ a.toNat ^^^ b.toNat ^^^ c.toNat ^^^ d.toNat = v ^^^ (a ^^ (b ^^ (c ^^ (d ^^ false)))).toNat := by
  rw [Nat.xor_assoc, Nat.xor_assoc, Nat.xor_assoc]
  congr 1
  cases a <;> cases b <;> cases c <;> cases d <;> rfl

theorem iter_at (w : Nat) (v : List Nat) (n : Nat) (hn : n ≤ v.length) (x : Nat) :
    (oqpskIterV w (regAt w v n) x).2 = (x ^^^ (tapSum [2, 3, 5, 6] (Nan.memory w v) n).toNat, x ^^^ (tapSum [1, 2, 3, 6] (Nan.memory w v) n).toNat) := by
  have z := shift_and (regAt w v n) 0
  rw [Nat.shiftRight_zero] at z
  unfold oqpskIterV tapSum
  simp only [shift_and, z, List.map_cons, List.map_nil, List.foldr_cons, List.foldr_nil]
  rw [regAt_memory w v n hn 5 (by decide), regAt_memory w v n hn 4 (by decide), regAt_memory w v n hn 3 (by decide), regAt_memory w v n hn 1 (by decide),
    regAt_memory w v n hn 0 (by decide), xor_four, xor_four]

theorem encodeV_from (w : Nat) (v : List Nat) (k : Nat) : ∀ n, n + k = v.length → oqpskEncodeV w (regAt w v n) (v.drop n) =
    (List.range' n k).flatMap fun i => [v.getD i 0 ^^^ (tapSum [2, 3, 5, 6] (Nan.memory w v) i).toNat, v.getD i 0 ^^^ (tapSum [1, 2, 3, 6] (Nan.memory w v) i).toNat] := by
  induction k with
  | zero => intro n h; rw [List.drop_of_length_le (by omega)]; rfl
  | succ k ih =>
    intro n h
    have hlt : n < v.length := by omega
    have hg : v[n] = v.getD n 0 := by rw [List.getD_eq_getElem?_getD, List.getElem?_eq_getElem hlt]; rfl
    rw [List.drop_eq_getElem_cons hlt, oqpskEncodeV, iter_at w v n (by omega), hg, List.range'_succ, List.flatMap_cons, ← ih (n + 1) (by omega)]
    rfl

theorem pairs_eq (f g : Nat → Nat) (k : Nat) : ((List.range k).flatMap fun i => [f i, g i]) = (List.range (2 * k)).map fun q => if q % 2 = 0 then f (q / 2) else g (q / 2) := by
  induction k with
  | zero => rfl
  | succ k ih =>
    rw [List.range_succ, List.flatMap_append, ih, show 2 * (k + 1) = 2 * k + 1 + 1 by ring, List.range_succ, List.range_succ]
    simp only [List.flatMap_cons, List.flatMap_nil, List.append_nil, List.map_append, List.map_cons, List.map_nil, List.append_assoc, List.cons_append, List.nil_append]
    rw [if_pos (by omega), if_neg (by omega), show 2 * k / 2 = k by omega, show (2 * k + 1) / 2 = k by omega]

/-- The encoder in closed form. -/
theorem encodeV_eq (w : Nat) (v : List Nat) : oqpskEncodeV w 0 v = Nan.coded w v := by
  have := encodeV_from w v v.length 0 (by omega)
  rw [show regAt w v 0 = 0 from rfl, List.drop_zero, ← List.range_eq_range', pairs_eq] at this
  rw [this]
  unfold Nan.coded
  apply List.map_congr_left
  intro q _
  split <;> rfl

theorem fecV_eq (w : Nat) (v : List Nat) : oqpskFecV w v = Nan.coded w (Nan.padded v) := by
  unfold oqpskFecV
  simp only
  rw [encodeV_eq]
  congr 1
  unfold Nan.padded ceilDiv blocks63
  congr 2
  omega

theorem coded_length (w : Nat) (v : List Nat) : (Nan.coded w v).length = 2 * v.length := by unfold Nan.coded; simp

theorem padded_length (v : List Nat) : 63 ≤ (Nan.padded v).length := by
  unfold Nan.padded blocks63
  rw [List.length_append, List.length_replicate]
  omega

/-- The interleaver in closed form. -/
theorem interleaverV_eq (w : Nat) (v : List Nat) : oqpskInterleaverV (oqpskFecV w v) = .ok (Nan.sent w v) := by
  have hlen : (oqpskFecV w v).length = 2 * (Nan.padded v).length := by rw [fecV_eq, coded_length]
  have hp := padded_length v
  unfold oqpskInterleaverV Nan.sent
  simp only
  rw [hlen]
  apply mapM_eq_ok
  intro k hk
  have hk := List.mem_range.1 hk
  unfold pyGet
  have hi : oqpskIntlIndex true k = 18 * ((125 - (k : Int)) % 7) + (125 - (k : Int)) / 7 := rfl
  have hj : ((if oqpskIntlIndex true k < 0 then oqpskIntlIndex true k + ((oqpskFecV w v).length : Int) else oqpskIntlIndex true k) : Int) =
      (18 * ((125 - (k : Int)) % 7) + (125 - (k : Int)) / 7) % ((2 * (Nan.padded v).length : Nat) : Int) := by
    rw [hlen, hi]
    generalize (Nan.padded v).length = n at *
    have hb : -((2 * n : Nat) : Int) ≤ 18 * ((125 - (k : Int)) % 7) + (125 - (k : Int)) / 7 ∧ 18 * ((125 - (k : Int)) % 7) + (125 - (k : Int)) / 7 < ((2 * n : Nat) : Int) := by omega
    generalize 18 * ((125 - (k : Int)) % 7) + (125 - (k : Int)) / 7 = i at *
    by_cases hneg : i < 0
    · rw [if_pos hneg, ← Int.add_emod_right, Int.emod_eq_of_lt (by omega) (by omega)]
    · rw [if_neg hneg, Int.emod_eq_of_lt (by omega) (by omega)]
  simp only
  rw [hj]
  have h0 := Int.emod_nonneg (18 * ((125 - (k : Int)) % 7) + (125 - (k : Int)) / 7) (b := ((2 * (Nan.padded v).length : Nat) : Int)) (by omega)
  have h1 := Int.emod_lt_of_pos (18 * ((125 - (k : Int)) % 7) + (125 - (k : Int)) / 7) (b := ((2 * (Nan.padded v).length : Nat) : Int)) (by omega)
  generalize (18 * ((125 - (k : Int)) % 7) + (125 - (k : Int)) / 7) % ((2 * (Nan.padded v).length : Nat) : Int) = j at *
  rw [if_neg (by omega), ← fecV_eq, List.getElem?_eq_getElem (by omega), List.getD_eq_getElem _ _ (by omega)]

/-! ### Bits -/

theorem encodeV_bits (w : Nat) (hw : 6 ≤ w) (m : Bits) : ∀ u, oqpskEncodeV w u (m.map b2n) = (oqpskEncode u m).1.map b2n := by
  induction m with
  | nil => intro u; rfl
  | cons b m ih =>
    intro u
    have hs : (b2n b <<< 5) % 2 ^ w = b2n b <<< 5 := by
      apply Nat.mod_eq_of_lt
      have : 2 ^ 6 ≤ 2 ^ w := Nat.pow_le_pow_right (by decide) hw
      cases b <;> simp [b2n] at this ⊢ <;> omega
    have hz := shift_and u 0
    rw [Nat.shiftRight_zero] at hz
    have h4 : ∀ a b c d e : Bool, b2n ((b2n a ^^^ b.toNat ^^^ c.toNat ^^^ d.toNat ^^^ e.toNat) == 1) = b2n a ^^^ b.toNat ^^^ c.toNat ^^^ d.toNat ^^^ e.toNat := by decide
    rw [List.map_cons, oqpskEncodeV, oqpskEncode]
    unfold oqpskIterV oqpskIter
    simp only [List.map_cons, hs, ih, shift_and, hz, h4]

theorem fecV_bits (w : Nat) (hw : 6 ≤ w) (m : Bits) : oqpskFecV w (m.map b2n) = (oqpskFec m true).map b2n := by
  unfold oqpskFecV oqpskFec oqpskPad
  simp only [List.length_map, if_true]
  rw [← encodeV_bits w hw, List.map_append, List.map_replicate]
  rfl

theorem interleaverV_bits (x : Bits) : oqpskInterleaverV (x.map b2n) = (oqpskInterleaver x true).map fun y => y.map b2n := by
  unfold oqpskInterleaverV oqpskInterleaver
  rw [List.length_map]
  generalize List.range x.length = l
  have hg : ∀ i, pyGet (x.map b2n) i = (pyGet x i).map b2n := by
    intro i
    unfold pyGet
    simp only [List.length_map, List.getElem?_map]
    by_cases h : (if i < 0 then i + (x.length : Int) else i) < 0
    · rw [if_pos h, if_pos h]; rfl
    · rw [if_neg h, if_neg h]
      cases x[((if i < 0 then i + (x.length : Int) else i)).toNat]? <;> rfl
  induction l with
  | nil => rfl
  | cons k l ih =>
    rw [List.mapM_cons, List.mapM_cons, ih, hg]
    cases pyGet x (oqpskIntlIndex true k) with
    | error e => rfl
    | ok a => cases List.mapM (fun k => pyGet x (oqpskIntlIndex true k)) l <;> rfl

end SunPhy
