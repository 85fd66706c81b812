import Verif.Proofs.OqpskIntl
import Verif.Props.C50
/-
Which input bits of the convolutional encoder are determined by the coded bits that the MR-O-QPSK interleaver transmits.
-/
namespace SunPhy

theorem encA_inj : ∀ v < 64, ∀ b b', (encA v b == 1) = (encA v b' == 1) → b = b' := by decide +kernel

/-- The coded bits determine the data bits, given the initial register. -/
theorem rateHalf_seg_inj (x : Bits) : ∀ (x' : Bits) {v : Nat}, v < 64 → rateHalfOut v x = rateHalfOut v x' → x = x' := by
  induction x with
  | nil =>
    intro x' v _ h
    cases x' with
    | nil => rfl
    | cons b z => rw [rateHalf_nil, rateHalf_cons] at h; cases h
  | cons a y ih =>
    intro x' v hv h
    cases x' with
    | nil => rw [rateHalf_nil, rateHalf_cons] at h; cases h
    | cons b z =>
      rw [rateHalf_cons, rateHalf_cons] at h
      injection h with h1 h
      injection h with _ h
      have := encA_inj v hv a b h1
      subst this
      rw [ih z (encStep_lt v hv a) h]

theorem enc_back : ∀ s < 64, ∀ s' < 64, ∀ b b', encStep s b = encStep s' b' → (encA s b == 1) = (encA s' b' == 1) → s = s' ∧ b = b' := by
  have key : ∀ s < 64, ∀ s' < 64, ∀ b b', encStep s b ≠ encStep s' b' ∨ (encA s b == 1) ≠ (encA s' b' == 1) ∨ (s = s' ∧ b = b') := by decide +kernel
  intro s hs s' hs' b b' h1 h2
  rcases key s hs s' hs' b b' with h | h | h
  · exact absurd h1 h
  · exact absurd h2 h
  · exact h

/-- The last coded bits determine the register and the data bits they cover, when both paths end in the zero register. -/
theorem rateHalf_back (y : Bits) : ∀ (y' : Bits) {s s' : Nat}, s < 64 → s' < 64 → rateHalfState s y = 0 → rateHalfState s' y' = 0 →
    rateHalfOut s y = rateHalfOut s' y' → s = s' ∧ y = y' := by
  induction y with
  | nil =>
    intro y' s s' _ _ h0 h0' h
    cases y' with
    | nil => exact ⟨Eq.trans h0 h0'.symm, rfl⟩
    | cons b z => rw [rateHalf_nil, rateHalf_cons] at h; cases h
  | cons a y ih =>
    intro y' s s' hs hs' h0 h0' h
    cases y' with
    | nil => rw [rateHalf_nil, rateHalf_cons] at h; cases h
    | cons b z =>
      rw [rateHalf_cons, rateHalf_cons] at h
      injection h with h1 h
      injection h with _ h
      obtain ⟨e1, e2⟩ := ih z (encStep_lt s hs a) (encStep_lt s' hs' b) h0 h0' h
      obtain ⟨e3, e4⟩ := enc_back s hs s' hs' a b e1 h1
      exact ⟨e3, by rw [e4, e2]⟩

theorem reg6_inj : ∀ a b c d e f a' b' c' d' e' f', reg6 a b c d e f = reg6 a' b' c' d' e' f' →
    a = a' ∧ b = b' ∧ c = c' ∧ d = d' ∧ e = e' ∧ f = f' := by
  intro a b c d e f a' b' c' d' e' f' h
  unfold reg6 at h
  have hb : ∀ x : Bool, b2n x ≤ 1 := by decide
  have inj : ∀ x y : Bool, b2n x = b2n y → x = y := by decide
  have := hb a; have := hb b; have := hb c; have := hb d; have := hb e; have := hb f
  have := hb a'; have := hb b'; have := hb c'; have := hb d'; have := hb e'; have := hb f'
  refine ⟨inj _ _ ?_, inj _ _ ?_, inj _ _ ?_, inj _ _ ?_, inj _ _ ?_, inj _ _ ?_⟩ <;> omega

theorem len6 {z : Bits} (h : z.length = 6) : ∃ a b c d e f, z = [a, b, c, d, e, f] := by
  match z, h with
  | [a, b, c, d, e, f], _ => exact ⟨a, b, c, d, e, f, rfl⟩

/-- After six bits the register is these six bits. -/
theorem state_six (w z w' z' : Bits) (hz : z.length = 6) (hz' : z'.length = 6) :
    rateHalfState 0 (w ++ z) = rateHalfState 0 (w' ++ z') ↔ z = z' := by
  have e : ∀ x : Bits, rateHalfState 0 x = regOf x.reverse := by
    intro x
    have := rateHalfState_reg [] x
    rw [List.append_nil] at this
    exact this
  rw [e, e, List.reverse_append, List.reverse_append]
  obtain ⟨a, b, c, d, f, g, rfl⟩ := len6 hz
  obtain ⟨a', b', c', d', f', g', rfl⟩ := len6 hz'
  constructor
  · intro h
    obtain ⟨h1, h2, h3, h4, h5, h6⟩ := reg6_inj _ _ _ _ _ _ _ _ _ _ _ _ h
    change g = g' at h1
    change f = f' at h2
    change d = d' at h3
    change c = c' at h4
    change b = b' at h5
    change a = a' at h6
    subst h1 h2 h3 h4 h5 h6; rfl
  · intro h
    injection h with h1 h
    injection h with h2 h
    injection h with h3 h
    injection h with h4 h
    injection h with h5 h
    injection h with h6 h
    subst h1 h2 h3 h4 h5 h6; rfl

/-- Agreement of the coded bits from `2K` on. -/
theorem tail_agree (x x' : Bits) (hl : x.length = x'.length) (K : Nat) (hK : K + 6 ≤ x.length) (h0 : rateHalfState 0 x = 0) (h0' : rateHalfState 0 x' = 0) :
    (rateHalfOut 0 x).drop (2 * (K + 6)) = (rateHalfOut 0 x').drop (2 * (K + 6)) ↔ x.drop K = x'.drop K := by
  have split (x : Bits) (hK : K + 6 ≤ x.length) : x = x.take K ++ (x.drop K).take 6 ++ x.drop (K + 6) := by
    rw [List.append_assoc]
    have : (x.drop K).take 6 ++ x.drop (K + 6) = x.drop K := by rw [← List.drop_drop, List.take_append_drop]
    rw [this, List.take_append_drop]
  have out (x : Bits) (hK : K + 6 ≤ x.length) : (rateHalfOut 0 x).drop (2 * (K + 6)) = rateHalfOut (rateHalfState 0 (x.take K ++ (x.drop K).take 6)) (x.drop (K + 6)) := by
    conv_lhs => rw [split x hK, rateHalfOut_append]
    rw [List.drop_left' (by rw [rateHalfOut_length]; simp; omega)]
  have fin (x : Bits) (hK : K + 6 ≤ x.length) (h0 : rateHalfState 0 x = 0) : rateHalfState (rateHalfState 0 (x.take K ++ (x.drop K).take 6)) (x.drop (K + 6)) = 0 := by
    rw [← rateHalfState_append, ← split x hK]; exact h0
  have s6 (x : Bits) (hK : K + 6 ≤ x.length) : ((x.drop K).take 6).length = 6 := by simp; omega
  rw [out x hK, out x' (by omega)]
  have dr (x : Bits) : x.drop K = (x.drop K).take 6 ++ x.drop (K + 6) := by rw [← List.drop_drop, List.take_append_drop]
  constructor
  · intro h
    obtain ⟨e1, e2⟩ := rateHalf_back _ _ (rateHalfState_lt (by decide) _) (rateHalfState_lt (by decide) _) (fin x hK h0) (fin x' (by omega) h0') h
    rw [dr x, dr x', (state_six _ _ _ _ (s6 x hK) (s6 x' (by omega))).1 e1, e2]
  · intro h
    have e6 : (x.drop K).take 6 = (x'.drop K).take 6 := by rw [h]
    have e7 : x.drop (K + 6) = x'.drop (K + 6) := by rw [← List.drop_drop, ← List.drop_drop, h]
    rw [(state_six _ _ _ _ (s6 x hK) (s6 x' (by omega))).2 e6, e7]

theorem head_agree (x x' : Bits) (K : Nat) (hK : K ≤ x.length) (hK' : K ≤ x'.length) :
    (rateHalfOut 0 x).take (2 * K) = (rateHalfOut 0 x').take (2 * K) ↔ x.take K = x'.take K := by
  have out (x : Bits) (hK : K ≤ x.length) : (rateHalfOut 0 x).take (2 * K) = rateHalfOut 0 (x.take K) := by
    conv_lhs => rw [← List.take_append_drop K x, rateHalfOut_append]
    rw [List.take_left' (by rw [rateHalfOut_length]; simp; omega)]
  rw [out x hK, out x' hK']
  exact ⟨rateHalf_seg_inj _ _ (by decide), fun h => by rw [h]⟩

theorem agree_take {α} (l l' : List α) (h : l.length = l'.length) (K : Nat) : l.take K = l'.take K ↔ ∀ i < l.length, i < K → l[i]? = l'[i]? := by
  constructor
  · intro e i _ hK
    have := congrArg (fun l => l[i]?) e
    simpa [List.getElem?_take, hK] using this
  · intro hall
    apply List.ext_getElem?
    intro i
    rw [List.getElem?_take, List.getElem?_take]
    split
    · by_cases hi : i < l.length
      · exact hall i hi (by assumption)
      · rw [List.getElem?_eq_none (by omega), List.getElem?_eq_none (by omega)]
    · rfl

theorem agree_drop {α} (l l' : List α) (h : l.length = l'.length) (K : Nat) : l.drop K = l'.drop K ↔ ∀ i < l.length, K ≤ i → l[i]? = l'[i]? := by
  constructor
  · intro e i _ hK
    have := congrArg (fun l => l[i - K]?) e
    simpa [List.getElem?_drop, show K + (i - K) = i by omega] using this
  · intro hall
    apply List.ext_getElem?
    intro i
    rw [List.getElem?_drop, List.getElem?_drop]
    by_cases hi : K + i < l.length
    · exact hall _ hi (by omega)
    · rw [List.getElem?_eq_none (by omega), List.getElem?_eq_none (by omega)]

/-- Two octet-aligned messages of the same size have the same interleaved coded PSDU exactly when they agree outside the bits
`63 … 54·NB+2`. -/
theorem psdu_loss (m m' : Bits) (h8 : m.length % 8 = 0) (hl : m.length = m'.length) :
    oqpskInterleaver (oqpskFec m true) true = oqpskInterleaver (oqpskFec m' true) true ↔
      ∀ i < m.length, (i < 63 ∨ 54 * psduBlocks (m.length / 8) + 3 ≤ i) → m[i]? = m'[i]? := by
  have hNB : 1 ≤ psduBlocks (m.length / 8) := by unfold psduBlocks; omega
  obtain ⟨p1, p2, -⟩ := oqpskPad_psdu m h8
  obtain ⟨p1', p2', -⟩ := oqpskPad_psdu m' (by omega)
  have lx := oqpskPad_length m h8
  have lx' := oqpskPad_length m' (by omega)
  rw [← hl] at p1' p2' lx'
  rw [C50.C50_lost (psduBlocks (m.length / 8)) _ _ (oqpskFec_length m h8) (by rw [oqpskFec_length m' (by omega), hl])]
  have z0 : ∀ m : Bits, ∀ n, 6 ≤ n → rateHalfState 0 (m ++ List.replicate n false) = 0 := by
    intro m n hn
    obtain ⟨k, rfl⟩ : ∃ k, n = 6 + k := ⟨n - 6, by omega⟩
    rw [List.replicate_add, ← List.append_assoc, rateHalfState_append, rateHalfState_append, flush6 _ (rateHalfState_lt (by decide) _), zeros_keep_zero]
  have hx0 : rateHalfState 0 (oqpskPad m true) = 0 := by rw [p1]; exact z0 _ _ (by omega)
  have hx0' : rateHalfState 0 (oqpskPad m' true) = 0 := by rw [p1']; exact z0 _ _ (by omega)
  have hd : (oqpskFec m true).length = (oqpskFec m' true).length := by rw [oqpskFec_length m h8, oqpskFec_length m' (by omega), hl]
  have a1 := agree_take (oqpskFec m true) (oqpskFec m' true) hd 126
  have a2 := agree_drop (oqpskFec m true) (oqpskFec m' true) hd (108 * psduBlocks (m.length / 8) + 18)
  rw [oqpskFec_eq, oqpskFec_eq] at a1 a2
  have b1 := head_agree (oqpskPad m true) (oqpskPad m' true) 63 (by omega) (by omega)
  have b2 := tail_agree (oqpskPad m true) (oqpskPad m' true) (by omega) (54 * psduBlocks (m.length / 8) + 3) (by omega) hx0 hx0'
  rw [show 2 * (54 * psduBlocks (m.length / 8) + 3 + 6) = 108 * psduBlocks (m.length / 8) + 18 by omega] at b2
  have c1 := agree_take (oqpskPad m true) (oqpskPad m' true) (by omega) 63
  have c2 := agree_drop (oqpskPad m true) (oqpskPad m' true) (by omega) (54 * psduBlocks (m.length / 8) + 3)
  have coded : (∀ i < 126 * psduBlocks (m.length / 8), i < 126 ∨ 108 * psduBlocks (m.length / 8) + 18 ≤ i → (oqpskFec m true)[i]? = (oqpskFec m' true)[i]?) ↔
      ((oqpskPad m true).take 63 = (oqpskPad m' true).take 63 ∧ (oqpskPad m true).drop (54 * psduBlocks (m.length / 8) + 3) = (oqpskPad m' true).drop (54 * psduBlocks (m.length / 8) + 3)) := by
    rw [← b1, ← b2, a1, a2, oqpskFec_eq, oqpskFec_eq]
    have hlen : (rateHalfOut 0 (oqpskPad m true)).length = 126 * psduBlocks (m.length / 8) := by rw [rateHalfOut_length, lx]; omega
    rw [hlen]
    constructor
    · intro h
      exact ⟨fun i hi hc => h i hi (Or.inl hc), fun i hi hc => h i hi (Or.inr hc)⟩
    · rintro ⟨h1, h2⟩ i hi (hc | hc)
      · exact h1 i hi hc
      · exact h2 i hi hc
  rw [coded, c1, c2]
  have in1 : ∀ i < m.length, (oqpskPad m true)[i]? = m[i]? ∧ (oqpskPad m' true)[i]? = m'[i]? := by
    intro i hi
    rw [p1, p1', List.getElem?_append_left hi, List.getElem?_append_left (by omega)]
    exact ⟨rfl, rfl⟩
  have in2 : ∀ i, m.length ≤ i → (oqpskPad m true)[i]? = (oqpskPad m' true)[i]? := by
    intro i hi
    rw [p1, p1', List.getElem?_append_right hi, List.getElem?_append_right (by omega), hl]
  constructor
  · rintro ⟨h1, h2⟩ i hi hc
    obtain ⟨e, e'⟩ := in1 i hi
    rw [← e, ← e']
    rcases hc with hc | hc
    · exact h1 i (by omega) hc
    · exact h2 i (by omega) hc
  · intro h
    constructor
    · intro i hi hc
      by_cases him : i < m.length
      · rw [(in1 i him).1, (in1 i him).2]; exact h i him (Or.inl hc)
      · exact in2 i (by omega)
    · intro i hi hc
      by_cases him : i < m.length
      · rw [(in1 i him).1, (in1 i him).2]; exact h i him (Or.inr hc)
      · exact in2 i (by omega)

end SunPhy
