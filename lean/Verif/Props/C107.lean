import Verif.Props.C69
import Verif.Props.C100
/-
C107 — MR-FSK transmission is causal: what is sent before a message bit enters does not depend on it.
-/
namespace SunPhy.C107
open SunPhy Spec Complex

/-- Bits of the synchronisation header. -/
def syncBits (p : FskParams) : Nat := (8 * p.preambleLength + 16) * RefF.width p.modulation

/-- Bits of the frame that are fixed once the number of message bits and the first `k` of them are: 16 header bits and `k` message bits,
each giving two bits with FEC; with interleaving only whole blocks of 32 bits. -/
def fixedBits (p : FskParams) (k : Nat) : Nat :=
  syncBits p + if p.fecEnabled then (if p.interleaving then 32 * ((16 + k) / 16) else 2 * (16 + k)) else 16 + k

theorem sync_length (p : FskParams) : (RefF.preamble p ++ RefF.sfd p).length = syncBits p := by
  rw [← fsk_shr_ref, C35.shr_length]
  unfold C35.shrSize syncBits
  cases p.modulation <;> simp [RefF.width, C34.sfdLength, C34.preambleUnit] <;> omega

theorem bits_length (p : FskParams) (m : Bits) : (RefF.bits p m).length = syncBits p + (RefF.body p m).length := by
  rw [← sync_length]; unfold RefF.bits; simp; omega

variable {x x' q : Bits} {N : Nat}

theorem rsc_congr (hl : x.length = x'.length) (h : ∀ j < N, RefF.at_ x j = RefF.at_ x' j) : ∀ n, n < N → RefF.rsc x q n = RefF.rsc x' q n := by
  intro n
  induction n using Nat.strong_induction_on with
  | _ n ih =>
    intro hn
    rw [RefF.rsc.eq_def x q n, RefF.rsc.eq_def x' q n, hl, h n hn]
    split
    · rfl
    · have g : ∀ d, (if d + 1 ≤ n then RefF.rsc x q (n - (d + 1)) else false) = (if d + 1 ≤ n then RefF.rsc x' q (n - (d + 1)) else false) := by
        intro d
        split
        · exact ih _ (by omega) (by omega)
        · rfl
      have g0 := g 0; have g1 := g 1; have g2 := g 2
      simp only [Nat.zero_add, Nat.reduceAdd] at g0 g1 g2
      rw [g0, g1, g2]

theorem rsc_ne (hl : x.length = x'.length) (h : ∀ j < N, RefF.at_ x j = RefF.at_ x' j) (hN : N < x.length) (hd : RefF.at_ x N ≠ RefF.at_ x' N) :
    RefF.rsc x q N ≠ RefF.rsc x' q N := by
  have ht : ¬ (x.length ≤ N ∧ N < x.length + 3) := by omega
  rw [RefF.rsc.eq_def x q N, RefF.rsc.eq_def x' q N, ← hl, if_neg ht, if_neg ht, if_pos hN, if_pos hN]
  have g : ∀ d, (if d + 1 ≤ N then RefF.rsc x q (N - (d + 1)) else false) = (if d + 1 ≤ N then RefF.rsc x' q (N - (d + 1)) else false) := by
    intro d
    split
    · exact rsc_congr hl h _ (by omega)
    · rfl
  have g0 := g 0; have g1 := g 1; have g2 := g 2
  simp only [Nat.zero_add, Nat.reduceAdd] at g0 g1 g2
  rw [g0, g1, g2]
  intro e
  exact hd (Bool.xor_left_inj.1 e)

theorem full_at (y : Bits) (q : Bits) (j : Nat) : (y ++ [false, false, false] ++ q).getD j false = if j < y.length then RefF.at_ y j else ([false, false, false] ++ q).getD (j - y.length) false := by
  unfold RefF.at_
  simp only [List.getD_eq_getElem?_getD, List.append_assoc]
  split
  · rw [List.getElem?_append_left (by assumption)]
  · rw [List.getElem?_append_right (by omega)]

theorem full_congr (hl : x.length = x'.length) (h : ∀ j < N, RefF.at_ x j = RefF.at_ x' j) (j : Nat) (hj : j < N) :
    (x ++ [false, false, false] ++ q).getD j false = (x' ++ [false, false, false] ++ q).getD j false := by
  rw [full_at, full_at, hl, h j hj]

theorem tap_congr (taps : List Nat) (y y' : Bits) (n : Nat) (h : ∀ j ≤ n, y.getD j false = y'.getD j false) : tapSum taps y n = tapSum taps y' n :=
  C100.tapSum_congr taps y y' n fun d _ => by
    unfold delayed
    split
    · exact h _ (by omega)
    · rfl

theorem tap_ne (taps : List Nat) (ht : 0 ∉ taps) (y y' : Bits) (n : Nat) (h : ∀ j < n, y.getD j false = y'.getD j false) (hd : y.getD n false ≠ y'.getD n false) :
    tapSum (0 :: taps) y n ≠ tapSum (0 :: taps) y' n := by
  have e : tapSum taps y n = tapSum taps y' n := C100.tapSum_congr taps y y' n fun d hd => by
    have : d ≠ 0 := fun h => ht (h ▸ hd)
    unfold delayed
    split
    · exact h _ (by omega)
    · rfl
  have u : ∀ z, tapSum (0 :: taps) z n = xor (z.getD n false) (tapSum taps z n) := fun z => by simp [tapSum, delayed]
  rw [u, u, e]
  intro c
  exact hd (Bool.xor_left_inj.1 c)

theorem coded_at (s : Nat) (y q : Bits) (i : Nat) (hi : i < 2 * (y.length + 3 + q.length)) : RefF.at_ (RefF.coded s y q) i =
    if s = 0 then
      (if i % 2 = 0 then !(tapSum [0, 2, 3] (y ++ [false, false, false] ++ q) (i / 2)) else !(tapSum [0, 1, 2, 3] (y ++ [false, false, false] ++ q) (i / 2)))
    else if i % 2 = 0 then xor (RefF.back y q (i / 2) 0) (xor (RefF.back y q (i / 2) 2) (RefF.back y q (i / 2) 3))
    else xor (RefF.back y q (i / 2) 0) (xor (RefF.back y q (i / 2) 1) (xor (RefF.back y q (i / 2) 2) (RefF.back y q (i / 2) 3))) := by
  unfold RefF.at_ RefF.coded
  rw [List.getD_eq_getElem?_getD, List.getElem?_map, List.getElem?_range hi]
  rfl

theorem coded_length (s : Nat) (y q : Bits) : (RefF.coded s y q).length = 2 * (y.length + 3 + q.length) := by simp [RefF.coded]

theorem at_none (y : Bits) (i : Nat) (h : y.length ≤ i) : RefF.at_ y i = false := by
  unfold RefF.at_; rw [List.getD_eq_getElem?_getD, List.getElem?_eq_none h]; rfl

theorem back_congr (hl : x.length = x'.length) (h : ∀ j < N, RefF.at_ x j = RefF.at_ x' j) (n d : Nat) (hn : n < N) : RefF.back x q n d = RefF.back x' q n d := by
  unfold RefF.back
  split
  · exact rsc_congr hl h _ (by omega)
  · rfl

theorem coded_congr (s : Nat) (hl : x.length = x'.length) (h : ∀ j < N, RefF.at_ x j = RefF.at_ x' j) (i : Nat) (hi : i < 2 * N) :
    RefF.at_ (RefF.coded s x q) i = RefF.at_ (RefF.coded s x' q) i := by
  by_cases hc : i < 2 * (x.length + 3 + q.length)
  · rw [coded_at s x q i hc, coded_at s x' q i (by omega)]
    have hb := fun d => back_congr (q := q) hl h (i / 2) d (by omega)
    have ht := fun t => tap_congr t (x ++ [false, false, false] ++ q) (x' ++ [false, false, false] ++ q) (i / 2)
      (fun j hj => full_congr hl h j (by omega))
    simp only [hb, ht]
  · rw [at_none _ _ (by rw [coded_length]; omega), at_none _ _ (by rw [coded_length]; omega)]

theorem coded_ne (s : Nat) (hl : x.length = x'.length) (h : ∀ j < N, RefF.at_ x j = RefF.at_ x' j) (hN : N < x.length) (hd : RefF.at_ x N ≠ RefF.at_ x' N)
    (r : Nat) (hr : r < 2) : RefF.at_ (RefF.coded s x q) (2 * N + r) ≠ RefF.at_ (RefF.coded s x' q) (2 * N + r) := by
  rw [coded_at s x q _ (by omega), coded_at s x' q _ (by omega), show (2 * N + r) / 2 = N by omega]
  have hb : ∀ d, 1 ≤ d → RefF.back x q N d = RefF.back x' q N d := by
    intro d h1
    unfold RefF.back
    split
    · exact rsc_congr hl h _ (by omega)
    · rfl
  have hb0 : RefF.back x q N 0 ≠ RefF.back x' q N 0 := by
    unfold RefF.back
    rw [if_pos (Nat.zero_le _), if_pos (Nat.zero_le _)]
    exact rsc_ne hl h hN hd
  have ht : ∀ t, 0 ∉ t → tapSum (0 :: t) (x ++ [false, false, false] ++ q) N ≠ tapSum (0 :: t) (x' ++ [false, false, false] ++ q) N := by
    intro t h0
    refine tap_ne t h0 _ _ N (fun j hj => full_congr hl h j hj) ?_
    rw [full_at, full_at, if_pos hN, if_pos (by omega)]
    exact hd
  rw [hb 1 (by omega), hb 2 (by omega), hb 3 (by omega)]
  split
  · split
    · intro c; exact ht _ (by decide) (Bool.not_inj c)
    · intro c; exact ht _ (by decide) (Bool.not_inj c)
  · split
    · intro c; exact hb0 (Bool.xor_left_inj.1 c)
    · intro c; exact hb0 (Bool.xor_left_inj.1 c)

theorem interleave_at (y : Bits) (i : Nat) (hi : i < y.length) :
    RefF.at_ (RefF.interleave y) i = RefF.at_ y (i / 32 * 32 + 2 * (4 * ((15 - i % 32 / 2) % 4) + (15 - i % 32 / 2) / 4) + i % 2) := by
  unfold RefF.interleave
  conv_lhs => unfold RefF.at_
  rw [List.getD_eq_getElem?_getD, List.getElem?_map, List.getElem?_range hi]
  rfl

theorem interleave_congr {y y' : Bits} (hl : y.length = y'.length) (B : Nat) (h : ∀ j < 32 * B, RefF.at_ y j = RefF.at_ y' j) (i : Nat) (hi : i < 32 * B) :
    RefF.at_ (RefF.interleave y) i = RefF.at_ (RefF.interleave y') i := by
  by_cases hc : i < y.length
  · rw [interleave_at y i hc, interleave_at y' i (by omega)]
    exact h _ (by omega)
  · rw [at_none _ _ (by simp [RefF.interleave]; omega), at_none _ _ (by simp [RefF.interleave]; omega)]

theorem message_at (p : FskParams) (n : Nat) (m : Bits) (j : Nat) : RefF.at_ (RefF.header p n ++ m) j =
    if j < 16 then RefF.at_ (RefF.header p n) j else RefF.at_ m (j - 16) := by
  unfold RefF.at_
  simp only [List.getD_eq_getElem?_getD]
  split
  · rw [List.getElem?_append_left (by rw [C69.header_length]; assumption)]
  · rw [List.getElem?_append_right (by rw [C69.header_length]; omega), C69.header_length]

variable {p : FskParams} {m m' : Bits} {k : Nat}

theorem body_congr (hl : m.length = m'.length) (h : ∀ i < k, m[i]? = m'[i]?) (i : Nat) (hi : syncBits p + i < fixedBits p k) :
    RefF.at_ (RefF.body p m) i = RefF.at_ (RefF.body p m') i := by
  unfold fixedBits at hi
  unfold RefF.body
  rw [← hl]
  have hx : (RefF.header p (m.length / 8) ++ m).length = (RefF.header p (m.length / 8) ++ m').length := by simp [hl]
  have ha : ∀ j < 16 + k, RefF.at_ (RefF.header p (m.length / 8) ++ m) j = RefF.at_ (RefF.header p (m.length / 8) ++ m') j := by
    intro j hj
    rw [message_at, message_at]
    split
    · rfl
    · unfold RefF.at_; rw [List.getD_eq_getElem?_getD, List.getD_eq_getElem?_getD, h _ (by omega)]
  cases hf : p.fecEnabled
  · simp only [hf, Bool.false_eq_true, if_false] at hi ⊢
    exact ha i (by omega)
  · cases hn : p.interleaving
    · simp only [hf, hn, Bool.false_eq_true, if_false, if_true] at hi ⊢
      exact coded_congr _ hx ha i (by omega)
    · simp only [hf, hn, if_true] at hi ⊢
      refine interleave_congr (by rw [coded_length, coded_length, hx]) ((16 + k) / 16) (fun j hj => ?_) i (by omega)
      exact coded_congr _ hx ha j (by omega)

theorem body_length_congr (hl : m.length = m'.length) : (RefF.body p m).length = (RefF.body p m').length := by
  rw [C69.body_length, C69.body_length, hl]

theorem bits_at (p : FskParams) (m : Bits) (i : Nat) : RefF.at_ (RefF.bits p m) i =
    if i < syncBits p then RefF.at_ (RefF.preamble p ++ RefF.sfd p) i
    else if i - syncBits p < (RefF.body p m).length then
      (if p.scramble ∧ (if p.fecEnabled then 32 else 16) ≤ i - syncBits p then
        xor (Ref.key 0x1FF (i - syncBits p - (if p.fecEnabled then 32 else 16))) (RefF.at_ (RefF.body p m) (i - syncBits p))
       else RefF.at_ (RefF.body p m) (i - syncBits p))
    else false := by
  unfold RefF.bits
  conv_lhs => unfold RefF.at_
  simp only [List.getD_eq_getElem?_getD]
  by_cases h : i < syncBits p
  · rw [if_pos h, List.getElem?_append_left (by rw [sync_length]; exact h)]
    unfold RefF.at_; rw [List.getD_eq_getElem?_getD]
  · rw [if_neg h, List.getElem?_append_right (by rw [sync_length]; omega), sync_length, List.getElem?_map]
    by_cases h2 : i - syncBits p < (RefF.body p m).length
    · rw [if_pos h2, List.getElem?_range h2]; rfl
    · rw [if_neg h2, List.getElem?_eq_none (by simpa using h2)]; rfl

theorem bits_congr (hl : m.length = m'.length) (h : ∀ i < k, m[i]? = m'[i]?) (i : Nat) (hi : i < fixedBits p k) :
    RefF.at_ (RefF.bits p m) i = RefF.at_ (RefF.bits p m') i := by
  rw [bits_at, bits_at, body_length_congr hl]
  by_cases hs : i < syncBits p
  · rw [if_pos hs, if_pos hs]
  · rw [if_neg hs, if_neg hs, body_congr (k := k) hl h (i - syncBits p) (by omega)]

theorem getElem_of_at {y y' : Bits} (hl : y.length = y'.length) (i : Nat) (h : RefF.at_ y i = RefF.at_ y' i) : y[i]? = y'[i]? := by
  unfold RefF.at_ at h
  rw [List.getD_eq_getElem?_getD, List.getD_eq_getElem?_getD] at h
  by_cases hi : i < y.length
  · rw [List.getElem?_eq_getElem hi, List.getElem?_eq_getElem (hl ▸ hi)] at h ⊢
    exact congrArg some h
  · rw [List.getElem?_eq_none (by omega), List.getElem?_eq_none (by omega)]

theorem fixed_le (p : FskParams) (m : Bits) (k : Nat) (hk : k ≤ m.length) : fixedBits p k ≤ (RefF.bits p m).length := by
  rw [bits_length, C69.body_length]
  unfold fixedBits
  cases p.fecEnabled <;> cases p.interleaving <;> simp <;> (try split) <;> omega

theorem take_congr {α} (l l' : List α) (n : Nat) (h : ∀ i < n, l[i]? = l'[i]?) : l.take n = l'.take n := by
  apply List.ext_getElem?
  intro i
  rw [List.getElem?_take, List.getElem?_take]
  split
  · exact h i (by assumption)
  · rfl

/-- **C107 (bits).**  Two modulators with the same configuration and two accepted messages of the same length that agree in their first `k` bits:
the frames begin with the same `fixedBits` bits. -/
theorem C107_bits (o o' : FskObj) (hp : o'.params = o.params) (a a' : Arg) (m m' : Bits) (ha : checkBinaryArray a = .ok m) (ha' : checkBinaryArray a' = .ok m')
    (hl : m.length = m'.length) (k : Nat) (hk : k ≤ m.length) (h : ∀ i < k, m[i]? = m'[i]?) (b b' : Bits)
    (hb : ((fskBinary a).call o).1 = .ok b) (hb' : ((fskBinary a').call o').1 = .ok b') :
    fixedBits o.params k ≤ b.length ∧ fixedBits o.params k ≤ b'.length ∧ b.take (fixedBits o.params k) = b'.take (fixedBits o.params k) := by
  have e := C69.C69_bits o a m ha
  have e' := C69.C69_bits o' a' m' ha'
  simp only [hb, hb'] at e e'
  rw [hp] at e'
  split at e
  · cases e
  split at e'
  · cases e'
  rw [Except.ok.inj e, Except.ok.inj e']
  refine ⟨fixed_le _ m k hk, fixed_le _ m' k (hl ▸ hk), take_congr _ _ _ fun i hi => ?_⟩
  refine getElem_of_at ?_ _ (bits_congr hl h i hi)
  rw [bits_length, bits_length, body_length_congr hl]

/-- **C107 (first difference).**  Without interleaving this is exact: the first message bit in which they differ is visible at once, in the next
bit of the frame, with FEC in the next two. -/
theorem C107_first (o o' : FskObj) (hp : o'.params = o.params) (a a' : Arg) (m m' : Bits) (ha : checkBinaryArray a = .ok m) (ha' : checkBinaryArray a' = .ok m')
    (hl : m.length = m'.length) (k : Nat) (h : ∀ i < k, m[i]? = m'[i]?) (hd : m[k]? ≠ m'[k]?) (b b' : Bits)
    (hb : ((fskBinary a).call o).1 = .ok b) (hb' : ((fskBinary a').call o').1 = .ok b') (hi : ¬ (o.params.fecEnabled = true ∧ o.params.interleaving = true)) :
    b[fixedBits o.params k]? ≠ b'[fixedBits o.params k]? ∧
      (o.params.fecEnabled = true → b[fixedBits o.params k + 1]? ≠ b'[fixedBits o.params k + 1]?) := by
  have e := C69.C69_bits o a m ha
  have e' := C69.C69_bits o' a' m' ha'
  simp only [hb, hb'] at e e'
  rw [hp] at e'
  split at e
  · cases e
  split at e'
  · cases e'
  rw [Except.ok.inj e, Except.ok.inj e']
  generalize o.params = p at *
  have hk : k < m.length := by
    by_contra hc
    exact hd (by rw [List.getElem?_eq_none (by omega), List.getElem?_eq_none (by omega)])
  have hx : (RefF.header p (m.length / 8) ++ m).length = (RefF.header p (m.length / 8) ++ m').length := by simp [hl]
  have hxl : (RefF.header p (m.length / 8) ++ m).length = 16 + m.length := by rw [List.length_append, C69.header_length]
  have ha : ∀ j < 16 + k, RefF.at_ (RefF.header p (m.length / 8) ++ m) j = RefF.at_ (RefF.header p (m.length / 8) ++ m') j := by
    intro j hj
    rw [message_at, message_at]
    split
    · rfl
    · unfold RefF.at_; rw [List.getD_eq_getElem?_getD, List.getD_eq_getElem?_getD, h _ (by omega)]
  have hne : RefF.at_ (RefF.header p (m.length / 8) ++ m) (16 + k) ≠ RefF.at_ (RefF.header p (m.length / 8) ++ m') (16 + k) := by
    rw [message_at, message_at, if_neg (by omega), if_neg (by omega), Nat.add_sub_cancel_left]
    exact fun hc => hd (getElem_of_at hl k hc)
  have step : ∀ j, RefF.at_ (RefF.body p m) j ≠ RefF.at_ (RefF.body p m') j → (RefF.bits p m)[syncBits p + j]? ≠ (RefF.bits p m')[syncBits p + j]? := by
    intro j hj hc
    have hc' : RefF.at_ (RefF.bits p m) (syncBits p + j) = RefF.at_ (RefF.bits p m') (syncBits p + j) := by
      unfold RefF.at_; rw [List.getD_eq_getElem?_getD, List.getD_eq_getElem?_getD, hc]
    have hlt : j < (RefF.body p m).length := by
      by_contra hn
      exact hj (by rw [at_none _ _ (by omega), at_none _ _ (by rw [← body_length_congr hl]; omega)])
    have hj' : ¬ (syncBits p + j < syncBits p) := by omega
    rw [bits_at, bits_at, if_neg hj', if_neg hj', Nat.add_sub_cancel_left, ← body_length_congr hl, if_pos hlt, if_pos hlt] at hc'
    by_cases hw : p.scramble ∧ (if p.fecEnabled then 32 else 16) ≤ j
    · rw [if_pos hw, if_pos hw] at hc'
      exact hj (Bool.xor_right_inj.1 hc')
    · rw [if_neg hw, if_neg hw] at hc'
      exact hj hc'
  unfold fixedBits
  cases hf : p.fecEnabled
  · simp only [Bool.false_eq_true, if_false, false_imp_iff, and_true]
    refine step _ ?_
    unfold RefF.body
    simp only [hf, Bool.false_eq_true, if_false]
    rw [← hl]
    exact hne
  · cases hn : p.interleaving
    · simp only [Bool.false_eq_true, if_false, if_true, true_imp_iff]
      have hc := fun r hr => coded_ne (q := RefF.pad (m.length / 8)) p.fecScheme hx ha (by rw [hxl]; omega) hne r hr
      constructor
      · refine step _ ?_
        unfold RefF.body
        simp only [hf, hn, Bool.false_eq_true, if_false, if_true]
        rw [← hl]
        exact hc 0 (by omega)
      · rw [Nat.add_assoc]
        refine step _ ?_
        unfold RefF.body
        simp only [hf, hn, Bool.false_eq_true, if_false, if_true]
        rw [← hl]
        exact hc 1 (by omega)
    · exact absurd ⟨hf, hn⟩ hi

/-- **C107 (samples).**  The same for the samples, 20 for each symbol of one (2FSK) or two bits (4FSK). -/
theorem C107_samples (o o' : FskObj) (hp : o'.params = o.params) (hr : 1 ≤ o.params.symbolRate) (a a' : Arg) (m m' : Bits) (ha : checkBinaryArray a = .ok m)
    (ha' : checkBinaryArray a' = .ok m') (hl : m.length = m'.length) (k : Nat) (hk : k ≤ m.length) (h : ∀ i < k, m[i]? = m'[i]?) (iq iq' : List ℂ) (fs fs' : ℚ)
    (hs : ((fskBitsToIQ id a).call o).1 = .ok (iq, fs)) (hs' : ((fskBitsToIQ id a').call o').1 = .ok (iq', fs')) :
    let n := 20 * (fixedBits o.params k / (if o.params.modulation = .FSK2 then 1 else 2))
    n ≤ iq.length ∧ n ≤ iq'.length ∧ iq.take n = iq'.take n := by
  intro n
  obtain ⟨r1, r2⟩ := C69.C69_reference o hr a m ha
  obtain ⟨r1', r2'⟩ := C69.C69_reference o' (by rw [hp]; exact hr) a' m' ha'
  by_cases c : C69.Refused o.params m
  · rw [r1 c] at hs; cases hs
  by_cases c' : C69.Refused o'.params m'
  · rw [r1' c'] at hs'; cases hs'
  rw [r2 c] at hs
  rw [r2' c'] at hs'
  obtain rfl := (Prod.mk.inj (Except.ok.inj hs)).1
  obtain rfl := (Prod.mk.inj (Except.ok.inj hs')).1
  rw [hp]
  have hw : (if o.params.modulation = .FSK2 then 1 else 2) = RefF.width o.params.modulation := by cases o.params.modulation <;> rfl
  have hn : n = 20 * (fixedBits o.params k / RefF.width o.params.modulation) := by rw [← hw]
  have hwp : 0 < RefF.width o.params.modulation := by cases o.params.modulation <;> decide
  have hb : (RefF.bits o.params m).length = (RefF.bits o.params m').length := by rw [bits_length, bits_length, body_length_congr hl]
  have hle : fixedBits o.params k / RefF.width o.params.modulation ≤ (RefF.bits o.params m).length / RefF.width o.params.modulation :=
    Nat.div_le_div_right (fixed_le _ m k hk)
  have sl : ∀ b, (RefF.samples o.params b).length = 20 * (b.length / RefF.width o.params.modulation) := fun b => by simp [RefF.samples]
  rw [hn, sl, sl, ← hb]
  refine ⟨by omega, by omega, take_congr _ _ _ fun i hi => ?_⟩
  unfold RefF.samples
  rw [List.getElem?_map, List.getElem?_map, ← hb, List.getElem?_range (by omega)]
  simp only [Option.map_some]
  have hd : RefF.deviation o.params.modulation (RefF.bits o.params m) (i / 20) = RefF.deviation o.params.modulation (RefF.bits o.params m') (i / 20) := by
    have hq : i / 20 < fixedBits o.params k / RefF.width o.params.modulation := by omega
    generalize o.params = p at *
    cases hm : p.modulation with
    | FSK2 =>
      rw [hm] at hq
      simp only [RefF.width, Nat.div_one] at hq
      simp only [RefF.deviation]
      rw [bits_congr (k := k) hl h _ hq]
    | FSK4 =>
      rw [hm] at hq
      simp only [RefF.width] at hq
      simp only [RefF.deviation]
      rw [bits_congr (k := k) hl h (2 * (i / 20)) (by omega), bits_congr (k := k) hl h (2 * (i / 20) + 1) (by omega)]
  rw [hd]

/-- Non-vacuity: with FEC and interleaving, the 48 sync bits and 64 of the bits that follow are the same for two messages of 4 octets with the same
first two; the frames are different. -/
example (o o' : FskObj) (ho : o.params = ⟨50000, 1, 0, .FSK2, true, 0, 0, true, true, 4⟩) (ho' : o'.params = o.params) :
    let m : Bits := (List.range 32).map fun i => decide (i < 3)
    let m' : Bits := (List.range 32).map fun i => decide (i < 3) || decide (i = 20)
    ∃ b b', ((fskBinary (bitsArg m)).call o).1 = .ok b ∧ ((fskBinary (bitsArg m')).call o').1 = .ok b' ∧ b.take 112 = b'.take 112 ∧ b ≠ b' := by
  intro m m'
  have e := C69.C69_bits o _ m (C03.C03_identity m (by decide))
  have e' := C69.C69_bits o' _ m' (C03.C03_identity m' (by decide))
  rw [ho', ho] at e'
  rw [ho] at e
  simp only at e e'
  rw [if_neg (by decide)] at e e'
  refine ⟨_, _, e, e', ?_, by decide +kernel⟩
  have := (C107_bits o o' ho' _ _ m m' (C03.C03_identity m (by decide)) (C03.C03_identity m' (by decide)) (by decide) 16 (by decide) (by decide) _ _ e e').2.2
  rw [ho] at this
  exact this

/-- Non-vacuity without interleaving: the first difference, in bit 3 of the message, is bit 16 + 16 + 3 of the frame. -/
example (o o' : FskObj) (ho : o.params = ⟨50000, 1, 0, .FSK2, false, 0, 0, true, false, 2⟩) (ho' : o'.params = o.params) :
    let m : Bits := (List.range 8).map fun i => decide (i < 3)
    let m' : Bits := (List.range 8).map fun i => decide (i < 5)
    ∃ b b', ((fskBinary (bitsArg m)).call o).1 = .ok b ∧ ((fskBinary (bitsArg m')).call o').1 = .ok b' ∧ b[51]? ≠ b'[51]? := by
  intro m m'
  have e := C69.C69_bits o _ m (C03.C03_identity m (by decide))
  have e' := C69.C69_bits o' _ m' (C03.C03_identity m' (by decide))
  rw [ho', ho] at e'
  rw [ho] at e
  simp only at e e'
  rw [if_neg (by decide)] at e e'
  have := (C107_first o o' ho' _ _ m m' (C03.C03_identity m (by decide)) (C03.C03_identity m' (by decide)) (by decide) 3 (by decide) (by decide) _ _ e e'
    (by rw [ho]; decide)).1
  rw [ho] at this
  exact ⟨_, _, e, e', this⟩

end SunPhy.C107
