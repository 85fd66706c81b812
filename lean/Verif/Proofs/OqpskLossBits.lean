import Verif.Proofs.OqpskLoss
import Verif.Props.C96
/-
Which bits of a message of any number of bits the MR-O-QPSK interleaver transmits.
-/
namespace SunPhy
open Spec

theorem enc_backB : ∀ s < 64, ∀ s' < 64, ∀ b b', encStep s b = encStep s' b' → (encB s b == 1) = (encB s' b' == 1) → s = s' ∧ b = b' := by
  have key : ∀ s < 64, ∀ s' < 64, ∀ b b', encStep s b ≠ encStep s' b' ∨ (encB s b == 1) ≠ (encB s' b' == 1) ∨ (s = s' ∧ b = b') := by decide +kernel
  intro s hs s' hs' b b' h1 h2
  rcases key s hs s' hs' b b' with h | h | h
  · exact absurd h1 h
  · exact absurd h2 h
  · exact h

/-- Agreement of the coded bits from the second bit of a pair on. -/
theorem tail_agree_odd (x x' : Bits) (hl : x.length = x'.length) (K : Nat) (hK : K + 7 ≤ x.length) (h0 : rateHalfState 0 x = 0) (h0' : rateHalfState 0 x' = 0) :
    (rateHalfOut 0 x).drop (2 * (K + 6) + 1) = (rateHalfOut 0 x').drop (2 * (K + 6) + 1) ↔ x.drop K = x'.drop K := by
  constructor
  · intro h
    refine (tail_agree x x' hl K (by omega) h0 h0').1 ?_
    have h7 : x.drop (K + 1) = x'.drop (K + 1) := by
      refine (tail_agree x x' hl (K + 1) (by omega) h0 h0').1 ?_
      have := congrArg (List.drop 1) h
      rw [List.drop_drop, List.drop_drop] at this
      exact this
    -- the pair of coded bits of step `K + 6`
    have out (x : Bits) (hK : K + 7 ≤ x.length) : ∃ b, (x.drop (K + 6)) = b :: x.drop (K + 7) ∧
        (rateHalfOut 0 x).drop (2 * (K + 6)) = rateHalfOut (rateHalfState 0 (x.take (K + 6))) (b :: x.drop (K + 7)) := by
      refine ⟨x[K + 6], by rw [List.drop_eq_getElem_cons (by omega)], ?_⟩
      rw [← List.drop_eq_getElem_cons]
      conv_lhs => rw [← List.take_append_drop (K + 6) x, rateHalfOut_append]
      rw [List.drop_left' (by rw [rateHalfOut_length]; simp; omega)]
    obtain ⟨b, eb, o⟩ := out x hK
    obtain ⟨b', eb', o'⟩ := out x' (by omega)
    have st (x : Bits) (b : Bool) (eb : x.drop (K + 6) = b :: x.drop (K + 7)) (h0 : rateHalfState 0 x = 0) :
        rateHalfState (encStep (rateHalfState 0 (x.take (K + 6))) b) (x.drop (K + 7)) = 0 := by
      have : rateHalfState 0 (x.take (K + 6) ++ x.drop (K + 6)) = 0 := by rw [List.take_append_drop]; exact h0
      rw [eb, rateHalfState_append] at this
      exact this
    rw [← List.drop_drop, ← List.drop_drop, o, o', rateHalf_cons, rateHalf_cons] at h
    rw [o, o', rateHalf_cons, rateHalf_cons]
    rw [List.drop_succ_cons, List.drop_zero, List.drop_succ_cons, List.drop_zero] at h
    injection h with hB h
    have s1 : rateHalfState 0 (x.take (K + 6)) < 64 := rateHalfState_lt (by decide) _
    have s2 : rateHalfState 0 (x'.take (K + 6)) < 64 := rateHalfState_lt (by decide) _
    obtain ⟨e1, e2⟩ := rateHalf_back _ _ (encStep_lt _ s1 b) (encStep_lt _ s2 b') (st x b eb h0) (st x' b' eb' h0') h
    obtain ⟨e3, e4⟩ := enc_backB _ s1 _ s2 b b' e1 hB
    rw [e3, e4, e2]
  · intro h
    have := congrArg (List.drop 1) ((tail_agree x x' hl K (by omega) h0 h0').2 h)
    rw [List.drop_drop, List.drop_drop] at this
    exact this

/-- Position read for output `k` of `n` coded bits. -/
def anyPos (n k : Nat) : Nat :=
  let i := oqpskIntlIndex true k
  (if i < 0 then i + n else i).toNat

/-- How many coded bits before the whole blocks of the end are also read. -/
def extra (e : Nat) : Nat := if e ≤ 3 then 0 else if e ≤ 6 then 1 else 2

theorem small_index : ∀ r < 14, 17 ≤ oqpskIntlIndex true r ∧ (r = 6 → oqpskIntlIndex true r = 17) ∧ (r ≠ 6 → 18 ≤ oqpskIntlIndex true r) ∨ (r = 13 ∧ oqpskIntlIndex true r = 16) := by
  decide +kernel

theorem anyPos_cases (NB e k : Nat) (hN : 1 ≤ NB) (he : e < 8) (h : k < 126 * NB + 2 * e) :
    anyPos (126 * NB + 2 * e) k < 126 * NB + 2 * e ∧
    (anyPos (126 * NB + 2 * e) k < 126 ∨ 108 * NB + 18 + 2 * e ≤ anyPos (126 * NB + 2 * e) k + extra e) ∧
    (oqpskIntlIndex true k < 0 → 0 ≤ oqpskIntlIndex true k + (126 * NB + 2 * e : Nat)) := by
  have ek : k = 126 * (k / 126) + k % 126 := by omega
  have hb := psduIndex_block (k / 126) (k % 126)
  rw [← ek] at hb
  have hr := psduIndex_range (k % 126) (by omega)
  unfold anyPos
  rw [hb]
  simp only
  by_cases hq : k / 126 < NB
  · refine ⟨?_, ?_, ?_⟩
    · split <;> omega
    · split <;> omega
    · omega
  · have hq2 : k / 126 = NB := by omega
    have hs := small_index (k % 126) (by omega)
    have hex : (k % 126 = 6 → 1 ≤ extra e) ∧ (k % 126 = 13 → extra e = 2) := by
      unfold extra
      constructor
      · intro h6
        rw [if_neg (by omega)]; split <;> omega
      · intro h6
        rw [if_neg (by omega), if_neg (by omega)]
    generalize oqpskIntlIndex true (k % 126) = v at *
    generalize extra e = x at *
    rw [hq2]
    have hv : 18 ≤ v ∨ (v = 17 ∧ 1 ≤ x) ∨ (v = 16 ∧ x = 2) := by
      rcases hs with ⟨a1, a2, a3⟩ | ⟨a1, a2⟩
      · by_cases h6 : k % 126 = 6
        · exact Or.inr (Or.inl ⟨a2 h6, hex.1 h6⟩)
        · exact Or.inl (a3 h6)
      · exact Or.inr (Or.inr ⟨a2, hex.2 a1⟩)
    refine ⟨?_, ?_, ?_⟩
    · split <;> omega
    · split <;> omega
    · omega

theorem anyPos_surj (NB e p : Nat) (hN : 1 ≤ NB) (he : e < 8) (hp : p < 126 * NB + 2 * e) (h : p < 126 ∨ 108 * NB + 18 + 2 * e ≤ p + extra e) :
    ∃ k < 126 * NB + 2 * e, anyPos (126 * NB + 2 * e) k = p := by
  have inv : ∀ i : Nat, i < 126 → ∃ r : Nat, r < 126 ∧ oqpskIntlIndex true r = (i : Int) := by
    intro i hi
    refine ⟨125 - (7 * (i % 18) + i / 18), by omega, ?_⟩
    rw [psduIndex]
    omega
  by_cases h0 : p < 126
  · obtain ⟨r, hr, e'⟩ := inv p h0
    refine ⟨r, by omega, ?_⟩
    unfold anyPos
    rw [e']
    simp only
    rw [if_neg (by omega)]; omega
  · by_cases h2 : 108 * NB + 18 + 2 * e ≤ p
    · obtain ⟨r, hr, e'⟩ := inv (18 * ((126 * NB + 2 * e - p + 17) / 18) - (126 * NB + 2 * e - p)) (by omega)
      refine ⟨126 * ((126 * NB + 2 * e - p + 17) / 18) + r, by omega, ?_⟩
      unfold anyPos
      rw [psduIndex_block, e']
      simp only
      rw [if_pos (by omega)]
      omega
    · have key : ∃ r : Nat, r < 2 * e ∧ oqpskIntlIndex true r = ((p : Int) - (108 * NB + 2 * e)) := by
        unfold extra at h
        by_cases h17 : p = 108 * NB + 17 + 2 * e
        · have : 4 ≤ e := by
            by_contra hc
            rw [if_pos (by omega)] at h; omega
          exact ⟨6, by omega, by rw [(show oqpskIntlIndex true 6 = 17 by decide +kernel)]; omega⟩
        · have : e = 7 := by
            by_contra hc
            by_cases h3 : e ≤ 3
            · rw [if_pos h3] at h; omega
            · rw [if_neg h3, if_pos (by omega)] at h; omega
          have h16 : p = 108 * NB + 16 + 2 * e := by
            rw [if_neg (by omega), if_neg (by omega)] at h; omega
          exact ⟨13, by omega, by rw [(show oqpskIntlIndex true 13 = 16 by decide +kernel)]; omega⟩
      obtain ⟨r, hr, e'⟩ := key
      refine ⟨126 * NB + r, by omega, ?_⟩
      unfold anyPos
      rw [psduIndex_block, e']
      simp only
      have : extra e ≤ 2 := by unfold extra; split; omega; split <;> omega
      rw [if_pos (by omega)]
      omega

theorem anyInterleaver_eq (NB e : Nat) (hN : 1 ≤ NB) (he : e < 8) (data : Bits) (h : data.length = 126 * NB + 2 * e) :
    oqpskInterleaver data true = .ok ((List.range (126 * NB + 2 * e)).map fun k => data.getD (anyPos (126 * NB + 2 * e) k) false) := by
  unfold oqpskInterleaver
  rw [h]
  apply mapM_eq_ok
  intro k hk
  have hk := List.mem_range.1 hk
  obtain ⟨h1, -, h3⟩ := anyPos_cases NB e k hN he hk
  unfold pyGet
  unfold anyPos at h1 ⊢
  rw [h]
  simp only at *
  rw [if_neg (by split <;> omega), List.getD_eq_getElem?_getD, List.getElem?_eq_getElem (by omega)]
  rfl

theorem any_lost (NB e : Nat) (hN : 1 ≤ NB) (he : e < 8) (data data' : Bits) (h : data.length = 126 * NB + 2 * e) (h' : data'.length = 126 * NB + 2 * e) :
    oqpskInterleaver data true = oqpskInterleaver data' true ↔
      ∀ i < 126 * NB + 2 * e, i < 126 ∨ 108 * NB + 18 + 2 * e ≤ i + extra e → data[i]? = data'[i]? := by
  rw [anyInterleaver_eq NB e hN he data h, anyInterleaver_eq NB e hN he data' h']
  constructor
  · intro e1 i hi hc
    have e1 := Except.ok.inj e1
    obtain ⟨k, hk, rfl⟩ := anyPos_surj NB e i hN he hi hc
    have := congrArg (fun l => l[k]?) e1
    simp only [List.getElem?_map, List.getElem?_range hk, Option.map_some, Option.some.injEq, List.getD_eq_getElem?_getD] at this
    rw [List.getElem?_eq_getElem (by omega), List.getElem?_eq_getElem (by omega)] at this ⊢
    exact congrArg some this
  · intro hall
    congr 1
    apply List.map_congr_left
    intro k hk
    have hk := List.mem_range.1 hk
    obtain ⟨h1, h2, -⟩ := anyPos_cases NB e k hN he hk
    rw [List.getD_eq_getElem?_getD, List.getD_eq_getElem?_getD, hall _ h1 h2]

theorem pad_any (m : Bits) : oqpskPad m true = m ++ List.replicate (63 * blocks63 (m.length / 8) - 8 * (m.length / 8)) false := by
  unfold oqpskPad blocks63 ceilDiv
  simp only [if_true, List.append_assoc, ← List.replicate_add]
  congr 2
  omega

/-- First bit of the end of the message that is read. -/
def endFrom (n : Nat) : Nat := 54 * blocks63 (n / 8) + 3 + n % 8 - if 4 ≤ n % 8 then 1 else 0

/-- Two messages of the same size have the same interleaved coded PSDU exactly when they agree outside the bits that are not read. -/
theorem psdu_loss_bits (m m' : Bits) (hl : m.length = m'.length) :
    oqpskInterleaver (oqpskFec m true) true = oqpskInterleaver (oqpskFec m' true) true ↔
      ∀ i < m.length, (i < 63 ∨ endFrom m.length ≤ i) → m[i]? = m'[i]? := by
  have hNB := C96.blocks_pos (m.length / 8)
  have p1 := pad_any m
  have p1' := pad_any m'
  rw [← hl] at p1'
  have he : m.length % 8 < 8 := Nat.mod_lt _ (by decide)
  have hbl : 8 * (m.length / 8) + 6 ≤ 63 * blocks63 (m.length / 8) := by unfold blocks63; omega
  have lx : (oqpskPad m true).length = 63 * blocks63 (m.length / 8) + m.length % 8 := by rw [p1]; simp; omega
  have lx' : (oqpskPad m' true).length = 63 * blocks63 (m.length / 8) + m.length % 8 := by rw [p1']; simp; omega
  have fl := C96.fec_length m
  have fl' := C96.fec_length m'
  rw [← hl] at fl'
  rw [any_lost (blocks63 (m.length / 8)) (m.length % 8) hNB he _ _ fl fl']
  have z0 : ∀ m : Bits, ∀ n, 6 ≤ n → rateHalfState 0 (m ++ List.replicate n false) = 0 := by
    intro m n hn
    obtain ⟨k, rfl⟩ : ∃ k, n = 6 + k := ⟨n - 6, by omega⟩
    rw [List.replicate_add, ← List.append_assoc, rateHalfState_append, rateHalfState_append, flush6 _ (rateHalfState_lt (by decide) _), zeros_keep_zero]
  have hx0 : rateHalfState 0 (oqpskPad m true) = 0 := by rw [p1]; exact z0 _ _ (by omega)
  have hx0' : rateHalfState 0 (oqpskPad m' true) = 0 := by rw [p1']; exact z0 _ _ (by omega)
  have in1 : ∀ i < m.length, (oqpskPad m true)[i]? = m[i]? ∧ (oqpskPad m' true)[i]? = m'[i]? := by
    intro i hi
    rw [p1, p1', List.getElem?_append_left hi, List.getElem?_append_left (by omega)]
    exact ⟨rfl, rfl⟩
  have in2 : ∀ i, m.length ≤ i → (oqpskPad m true)[i]? = (oqpskPad m' true)[i]? := by
    intro i hi
    rw [p1, p1', List.getElem?_append_right hi, List.getElem?_append_right (by omega), hl]
  -- back from the padded messages to the messages
  have back : ((oqpskPad m true).take 63 = (oqpskPad m' true).take 63 ∧ (oqpskPad m true).drop (endFrom m.length) = (oqpskPad m' true).drop (endFrom m.length)) ↔
      ∀ i < m.length, (i < 63 ∨ endFrom m.length ≤ i) → m[i]? = m'[i]? := by
    rw [agree_take _ _ (by omega), agree_drop _ _ (by omega)]
    constructor
    · rintro ⟨h1, h2⟩ i hi hc
      obtain ⟨e, e'⟩ := in1 i hi
      rw [← e, ← e']
      rcases hc with hc | hc
      · exact h1 i (by omega) hc
      · exact h2 i (by omega) hc
    · intro h
      constructor
      · intro i hi hc
        by_cases him : i < m.length
        · rw [(in1 i him).1, (in1 i him).2]; exact h i him (Or.inl hc)
        · exact in2 i (by omega)
      · intro i hi hc
        by_cases him : i < m.length
        · rw [(in1 i him).1, (in1 i him).2]; exact h i him (Or.inr hc)
        · exact in2 i (by omega)
  rw [← back]
  have hd : (oqpskFec m true).length = (oqpskFec m' true).length := by rw [fl, fl']
  have b1 := head_agree (oqpskPad m true) (oqpskPad m' true) 63 (by omega) (by omega)
  have hcod : C96.codedBits m.length = 126 * blocks63 (m.length / 8) + 2 * (m.length % 8) := rfl
  -- the coded bits at the end
  have hx2 : extra (m.length % 8) ≤ 2 := by unfold extra; split; omega; split <;> omega
  have endA : (oqpskFec m true).drop (108 * blocks63 (m.length / 8) + 18 + 2 * (m.length % 8) - extra (m.length % 8)) =
      (oqpskFec m' true).drop (108 * blocks63 (m.length / 8) + 18 + 2 * (m.length % 8) - extra (m.length % 8)) ↔
      (oqpskPad m true).drop (endFrom m.length) = (oqpskPad m' true).drop (endFrom m.length) := by
    rw [oqpskFec_eq, oqpskFec_eq]
    unfold extra endFrom
    by_cases h3 : m.length % 8 ≤ 3
    · have b2 := tail_agree (oqpskPad m true) (oqpskPad m' true) (by omega) (54 * blocks63 (m.length / 8) + 3 + m.length % 8) (by omega) hx0 hx0'
      rw [if_pos h3, if_neg (by omega)]
      rw [show 2 * (54 * blocks63 (m.length / 8) + 3 + m.length % 8 + 6) = 108 * blocks63 (m.length / 8) + 18 + 2 * (m.length % 8) - 0 by omega] at b2
      exact b2
    · rw [if_neg h3, if_pos (show 4 ≤ m.length % 8 by omega)]
      by_cases h6 : m.length % 8 ≤ 6
      · rw [if_pos h6]
        have b2 := tail_agree_odd (oqpskPad m true) (oqpskPad m' true) (by omega) (54 * blocks63 (m.length / 8) + 3 + m.length % 8 - 1) (by omega) hx0 hx0'
        rw [show 2 * (54 * blocks63 (m.length / 8) + 3 + m.length % 8 - 1 + 6) + 1 = 108 * blocks63 (m.length / 8) + 18 + 2 * (m.length % 8) - 1 by omega] at b2
        exact b2
      · rw [if_neg h6]
        have b2 := tail_agree (oqpskPad m true) (oqpskPad m' true) (by omega) (54 * blocks63 (m.length / 8) + 3 + m.length % 8 - 1) (by omega) hx0 hx0'
        rw [show 2 * (54 * blocks63 (m.length / 8) + 3 + m.length % 8 - 1 + 6) = 108 * blocks63 (m.length / 8) + 18 + 2 * (m.length % 8) - 2 by omega] at b2
        exact b2
  rw [← endA, ← b1, ← oqpskFec_eq, ← oqpskFec_eq, agree_take _ _ hd, agree_drop _ _ hd, fl, hcod]
  constructor
  · intro h
    exact ⟨fun i hi hc => h i hi (Or.inl (by omega)), fun i hi hc => h i hi (Or.inr (by omega))⟩
  · rintro ⟨h1, h2⟩ i hi (hc | hc)
    · exact h1 i hi (by omega)
    · exact h2 i hi (by omega)

end SunPhy
