import Verif.Spec.Differences
import Verif.Spec.FskReference
import Verif.Spec.OqpskReference
/-
Every stage of the reference transmitters is affine: it preserves the relation "differ at the same places".
-/
namespace SunPhy.Affine
open SunPhy Spec

/-- The relation on single bits. -/
def D (p p' q q' : Bool) : Prop := xor p p' = xor q q'

theorem D.const (k l : Bool) : D k k l l := by unfold D; simp
theorem D.not {p p' q q' : Bool} (h : D p p' q q') : D (!p) (!p') (!q) (!q') := by
  unfold D at *; revert h; cases p <;> cases p' <;> cases q <;> cases q' <;> decide
theorem D.xor {p p' q q' r r' s s' : Bool} (h : D p p' q q') (h2 : D r r' s s') : D (p ^^ r) (p' ^^ r') (q ^^ s) (q' ^^ s') := by
  unfold D at *
  revert h h2
  cases p <;> cases p' <;> cases q <;> cases q' <;> cases r <;> cases r' <;> cases s <;> cases s' <;> decide
theorem D.and {p p' q q' : Bool} (h : D p p' q q') (k : Bool) : D (p && k) (p' && k) (q && k) (q' && k) := by
  unfold D at *; revert h; cases p <;> cases p' <;> cases q <;> cases q' <;> cases k <;> decide

/-- The relation in terms of `getD`. -/
def L (a a' b b' : Bits) : Prop :=
  a'.length = a.length ∧ b.length = a.length ∧ b'.length = a.length ∧ ∀ i, D (a.getD i false) (a'.getD i false) (b.getD i false) (b'.getD i false)

theorem L_iff (a a' b b' : Bits) : SameDifferences a a' b b' ↔ L a a' b b' := by
  unfold SameDifferences L
  constructor
  · rintro ⟨h1, h2, h3, h⟩
    refine ⟨h1, h2, h3, fun i => ?_⟩
    by_cases hi : i < a.length
    · have := h i hi
      simp only [List.getD_eq_getElem?_getD]
      rw [List.getElem?_eq_getElem hi, List.getElem?_eq_getElem (h1 ▸ hi), List.getElem?_eq_getElem (h2 ▸ hi), List.getElem?_eq_getElem (h3 ▸ hi)] at this ⊢
      simp only [ne_eq, Option.some.injEq, Option.getD_some] at this ⊢
      unfold D
      revert this
      cases a[i] <;> cases a'[i]'(h1 ▸ hi) <;> cases b[i]'(h2 ▸ hi) <;> cases b'[i]'(h3 ▸ hi) <;> decide
    · simp only [List.getD_eq_getElem?_getD]
      rw [List.getElem?_eq_none (by omega), List.getElem?_eq_none (by omega), List.getElem?_eq_none (by omega), List.getElem?_eq_none (by omega)]
      exact D.const _ _
  · rintro ⟨h1, h2, h3, h⟩
    refine ⟨h1, h2, h3, fun i hi => ?_⟩
    have := h i
    simp only [List.getD_eq_getElem?_getD] at this
    rw [List.getElem?_eq_getElem hi, List.getElem?_eq_getElem (h1 ▸ hi), List.getElem?_eq_getElem (h2 ▸ hi), List.getElem?_eq_getElem (h3 ▸ hi)] at this ⊢
    simp only [ne_eq, Option.some.injEq, Option.getD_some] at this ⊢
    unfold D at this
    revert this
    cases a[i] <;> cases a'[i]'(h1 ▸ hi) <;> cases b[i]'(h2 ▸ hi) <;> cases b'[i]'(h3 ▸ hi) <;> decide

theorem getD_map_range (n : Nat) (f : Nat → Bool) (i : Nat) : ((List.range n).map f).getD i false = if i < n then f i else false := by
  rw [List.getD_eq_getElem?_getD, List.getElem?_map]
  split
  · rw [List.getElem?_range (by assumption)]; rfl
  · rw [List.getElem?_eq_none (by rw [List.length_range]; omega)]; rfl

theorem L.range (n : Nat) {f f' g g' : Nat → Bool} (h : ∀ i, i < n → D (f i) (f' i) (g i) (g' i)) :
    L ((List.range n).map f) ((List.range n).map f') ((List.range n).map g) ((List.range n).map g') := by
  refine ⟨by simp, by simp, by simp, fun i => ?_⟩
  rw [getD_map_range, getD_map_range, getD_map_range, getD_map_range]
  split
  · exact h i (by assumption)
  · exact D.const _ _

theorem L.const (k : Bits) : L k k k k := ⟨rfl, rfl, rfl, fun _ => D.const _ _⟩

theorem getD_append (x y : Bits) (i : Nat) : (x ++ y).getD i false = if i < x.length then x.getD i false else y.getD (i - x.length) false := by
  simp only [List.getD_eq_getElem?_getD]
  split
  · rw [List.getElem?_append_left (by assumption)]
  · rw [List.getElem?_append_right (by omega)]

theorem L.append {a a' b b' c c' d d' : Bits} (h : L a a' b b') (h2 : L c c' d d') : L (a ++ c) (a' ++ c') (b ++ d) (b' ++ d') := by
  obtain ⟨e1, e2, e3, e⟩ := h
  obtain ⟨f1, f2, f3, f⟩ := h2
  refine ⟨by simp [e1, f1], by simp [e2, f2], by simp [e3, f3], fun i => ?_⟩
  rw [getD_append, getD_append, getD_append, getD_append, e1, e2, e3]
  split
  · exact e i
  · exact f _

theorem D.delayed {a a' b b' : Bits} (h : L a a' b b') (n j : Nat) : D (Spec.delayed a n j) (Spec.delayed a' n j) (Spec.delayed b n j) (Spec.delayed b' n j) := by
  unfold Spec.delayed
  split
  · exact h.2.2.2 _
  · exact D.const _ _

theorem D.taps {a a' b b' : Bits} (h : L a a' b b') (taps : List Nat) (n : Nat) : D (tapSum taps a n) (tapSum taps a' n) (tapSum taps b n) (tapSum taps b' n) := by
  unfold tapSum
  induction taps with
  | nil => exact D.const _ _
  | cons t ts ih => exact (D.delayed h n t).xor ih

/-! ### MR-OFDM -/

theorem L.conv {a a' b b' : Bits} (h : L a a' b b') : L (Ref.conv a) (Ref.conv a') (Ref.conv b) (Ref.conv b') := by
  obtain ⟨h1, h2, h3, -⟩ := id h
  unfold Ref.conv
  rw [h1, h2, h3]
  apply L.range
  intro i _
  split <;> exact D.taps h _ _

theorem L.conv34 {a a' b b' : Bits} (h : L a a' b b') : L (Ref.conv34 a) (Ref.conv34 a') (Ref.conv34 b) (Ref.conv34 b') := by
  obtain ⟨h1, h2, h3, -⟩ := id h
  unfold Ref.conv34
  rw [h1, h2, h3]
  exact L.range _ fun i _ => (L.conv h).2.2.2 _

theorem L.interleave {a a' b b' : Bits} (h : L a a' b b') (K R s : Nat) : L (Ref.interleave K R s a) (Ref.interleave K R s a') (Ref.interleave K R s b) (Ref.interleave K R s b') := by
  obtain ⟨h1, h2, h3, h4⟩ := id h
  unfold Ref.interleave
  rw [h1, h2, h3]
  apply L.range
  intro i _
  split
  · exact h4 _
  · exact D.const _ _

theorem L.payload {a a' b b' : Bits} (h : L a a' b b') (p : OfdmParams) : L (Ref.payload p a) (Ref.payload p a') (Ref.payload p b) (Ref.payload p b') := by
  obtain ⟨h1, h2, h3, h4⟩ := id h
  unfold Ref.payload
  rw [h1, h2, h3]
  apply L.range
  intro i _
  split
  · exact (D.const _ _).xor (h4 _)
  · split <;> exact D.const _ _

theorem L.payloadStream {a a' b b' : Bits} (h : L a a' b b') (p : OfdmParams) : L (Ref.payloadStream p a) (Ref.payloadStream p a') (Ref.payloadStream p b) (Ref.payloadStream p b') := by
  unfold Ref.payloadStream
  apply L.interleave
  split
  · exact (h.payload p).conv34
  · exact (h.payload p).conv

/-! ### MR-FSK -/

theorem D.rsc {a a' b b' : Bits} (h : L a a' b b') (q : Bits) (n : Nat) : D (RefF.rsc a q n) (RefF.rsc a' q n) (RefF.rsc b q n) (RefF.rsc b' q n) := by
  obtain ⟨h1, h2, h3, h4⟩ := id h
  induction n using Nat.strongRecOn with
  | ind n ih =>
    rw [RefF.rsc.eq_def a q n, RefF.rsc.eq_def a' q n, RefF.rsc.eq_def b q n, RefF.rsc.eq_def b' q n, h1, h2, h3]
    have step : ∀ d, 1 ≤ d → D (if d ≤ n then RefF.rsc a q (n - d) else false) (if d ≤ n then RefF.rsc a' q (n - d) else false)
        (if d ≤ n then RefF.rsc b q (n - d) else false) (if d ≤ n then RefF.rsc b' q (n - d) else false) := by
      intro d hd
      split
      · exact ih _ (by omega)
      · exact D.const _ _
    split
    · exact D.const _ _
    · refine D.xor ?_ ((step 1 le_rfl).xor ((step 2 (by omega)).xor (step 3 (by omega))))
      split
      · exact h4 _
      · exact D.const _ _

theorem D.back {a a' b b' : Bits} (h : L a a' b b') (q : Bits) (n d : Nat) : D (RefF.back a q n d) (RefF.back a' q n d) (RefF.back b q n d) (RefF.back b' q n d) := by
  unfold RefF.back
  split
  · exact D.rsc h q _
  · exact D.const _ _

theorem L.coded {a a' b b' : Bits} (h : L a a' b b') (scheme : Nat) (q : Bits) : L (RefF.coded scheme a q) (RefF.coded scheme a' q) (RefF.coded scheme b q) (RefF.coded scheme b' q) := by
  obtain ⟨h1, h2, h3, h4⟩ := id h
  unfold RefF.coded
  rw [h1, h2, h3]
  apply L.range
  intro i _
  simp only
  have hy := (h.append (L.const [false, false, false])).append (L.const q)
  have hb := D.back h q
  split
  · split
    · exact (D.taps hy _ _).not
    · exact (D.taps hy _ _).not
  · split
    · exact (hb _ _).xor ((hb _ _).xor (hb _ _))
    · exact (hb _ _).xor ((hb _ _).xor ((hb _ _).xor (hb _ _)))

theorem L.fskInterleave {a a' b b' : Bits} (h : L a a' b b') : L (RefF.interleave a) (RefF.interleave a') (RefF.interleave b) (RefF.interleave b') := by
  obtain ⟨h1, h2, h3, h4⟩ := id h
  unfold RefF.interleave
  rw [h1, h2, h3]
  exact L.range _ fun i _ => h4 _

theorem L.body {a a' b b' : Bits} (h : L a a' b b') (p : FskParams) : L (RefF.body p a) (RefF.body p a') (RefF.body p b) (RefF.body p b') := by
  obtain ⟨h1, h2, h3, h4⟩ := id h
  unfold RefF.body
  rw [h1, h2, h3]
  have hx := (L.const (RefF.header p (a.length / 8))).append h
  simp only
  split
  · split
    · exact (hx.coded _ _).fskInterleave
    · exact hx.coded _ _
  · exact hx

theorem L.fskBits {a a' b b' : Bits} (h : L a a' b b') (p : FskParams) : L (RefF.bits p a) (RefF.bits p a') (RefF.bits p b) (RefF.bits p b') := by
  have hb := h.body p
  obtain ⟨h1, h2, h3, h4⟩ := id hb
  unfold RefF.bits
  rw [h1, h2, h3]
  apply L.append (L.const _)
  apply L.range
  intro i _
  split <;> split <;> first | exact (D.const _ _).xor (h4 _) | exact h4 _

/-! ### MR-O-QPSK -/

theorem L.padded {a a' b b' : Bits} (h : L a a' b b') : L (RefQ.padded a) (RefQ.padded a') (RefQ.padded b) (RefQ.padded b') := by
  obtain ⟨h1, h2, h3, h4⟩ := id h
  unfold RefQ.padded
  rw [h1, h2, h3]
  exact h.append (L.const _)

theorem L.psduBits {a a' b b' : Bits} (h : L a a' b b') : L (RefQ.psduBits a) (RefQ.psduBits a') (RefQ.psduBits b) (RefQ.psduBits b') := by
  obtain ⟨h1, h2, h3, h4⟩ := id h.padded
  unfold RefQ.psduBits
  rw [h1, h2, h3]
  exact L.range _ fun i _ => h.padded.conv.2.2.2 _

/-- Parity of the first `n` bits. -/
theorem parity_succ (x : Bits) (n : Nat) : ((x.take (n + 1)).count true % 2 == 1) = (((x.take n).count true % 2 == 1) ^^ x.getD n false) := by
  rw [List.take_add_one, List.count_append, List.getD_eq_getElem?_getD]
  cases x[n]? with
  | none => simp
  | some v =>
    cases v
    · simp
    · simp only [Option.toList_some, List.count_singleton_self, Option.getD_some, Bool.xor_true]
      rcases Nat.mod_two_eq_zero_or_one ((x.take n).count true) with e | e <;> simp [Nat.add_mod, e]

theorem D.parity {a a' b b' : Bits} (h : L a a' b b') (n : Nat) :
    D ((a.take n).count true % 2 == 1) ((a'.take n).count true % 2 == 1) ((b.take n).count true % 2 == 1) ((b'.take n).count true % 2 == 1) := by
  induction n with
  | zero => simpa using D.const _ _
  | succ n ih =>
    rw [parity_succ, parity_succ, parity_succ, parity_succ]
    exact ih.xor (h.2.2.2 n)

theorem L.differential {a a' b b' : Bits} (h : L a a' b b') (e : Bool) : L (RefQ.differential e a) (RefQ.differential e a') (RefQ.differential e b) (RefQ.differential e b') := by
  obtain ⟨h1, h2, h3, h4⟩ := id h
  unfold RefQ.differential
  rw [h1, h2, h3]
  exact L.range _ fun i _ => (D.const _ _).xor (D.parity h _)

theorem L.psdu {a a' b b' : Bits} (h : L a a' b b') (bd : Band) (mdsss : Bool) (rm : Nat) (hg : mdsss = true ∨ psduGroup bd rm ≠ (4, 16) ∧ psduGroup bd rm ≠ (4, 32))
    (hn : (psduGroup bd rm).1 = 4 → (psduGroup bd rm).2 = 8 ∨ (psduGroup bd rm).2 = 16 ∨ (psduGroup bd rm).2 = 32) :
    L (RefQ.psdu bd mdsss rm a) (RefQ.psdu bd mdsss rm a') (RefQ.psdu bd mdsss rm b) (RefQ.psdu bd mdsss rm b') := by
  unfold RefQ.psdu
  by_cases hm : mdsss = true
  · rw [if_pos hm, if_pos hm, if_pos hm, if_pos hm]
    exact L.const _
  rw [if_neg hm, if_neg hm, if_neg hm, if_neg hm]
  have hg := hg.resolve_left hm
  have hx : L (if RefQ.psduDifferential bd rm then RefQ.differential false (RefQ.psduBits a) else RefQ.psduBits a)
      (if RefQ.psduDifferential bd rm then RefQ.differential false (RefQ.psduBits a') else RefQ.psduBits a')
      (if RefQ.psduDifferential bd rm then RefQ.differential false (RefQ.psduBits b) else RefQ.psduBits b)
      (if RefQ.psduDifferential bd rm then RefQ.differential false (RefQ.psduBits b') else RefQ.psduBits b') := by
    split
    · exact h.psduBits.differential _
    · exact h.psduBits
  generalize psduGroup bd rm = g at *
  obtain ⟨n, N⟩ := g
  simp only at hg hn ⊢
  generalize (if RefQ.psduDifferential bd rm then RefQ.differential false (RefQ.psduBits a) else RefQ.psduBits a) = x at *
  generalize (if RefQ.psduDifferential bd rm then RefQ.differential false (RefQ.psduBits a') else RefQ.psduBits a') = x' at *
  generalize (if RefQ.psduDifferential bd rm then RefQ.differential false (RefQ.psduBits b) else RefQ.psduBits b) = y at *
  generalize (if RefQ.psduDifferential bd rm then RefQ.differential false (RefQ.psduBits b') else RefQ.psduBits b') = y' at *
  obtain ⟨h1, h2, h3, h4⟩ := id hx
  rw [h1, h2, h3]
  apply L.range
  intro i _
  split
  · rename_i hn4
    have hN : N = 8 := by
      rcases hn hn4 with e | e | e
      · exact e
      · exact absurd (by rw [hn4, e]) hg.1
      · exact absurd (by rw [hn4, e]) hg.2
    subst hN
    unfold RefQ.chip4
    exact (D.const _ _).xor (((h4 _).and _).xor (((h4 _).and _).xor (((h4 _).and _).xor ((h4 _).and _))))
  · split
    · exact h4 _
    · unfold RefQ.chip1
      exact (h4 _).xor (D.const _ _)

theorem L.withPilots {a a' b b' : Bits} (h : L a a' b b') (bd : Band) : L (RefQ.withPilots bd a) (RefQ.withPilots bd a') (RefQ.withPilots bd b) (RefQ.withPilots bd b') := by
  obtain ⟨h1, h2, h3, h4⟩ := id h
  unfold RefQ.withPilots
  generalize pilots bd = g
  obtain ⟨P, S⟩ := g
  simp only
  rw [h1, h2, h3]
  apply L.range
  intro i _
  split
  · exact D.const _ _
  · exact h4 _

theorem L.chips {a a' b b' : Bits} (h : L a a' b b') (bd : Band) (mdsss : Bool) (rm : Nat) (hg : mdsss = true ∨ psduGroup bd rm ≠ (4, 16) ∧ psduGroup bd rm ≠ (4, 32))
    (hn : (psduGroup bd rm).1 = 4 → (psduGroup bd rm).2 = 8 ∨ (psduGroup bd rm).2 = 16 ∨ (psduGroup bd rm).2 = 32) :
    L (RefQ.chips bd mdsss rm a) (RefQ.chips bd mdsss rm a') (RefQ.chips bd mdsss rm b) (RefQ.chips bd mdsss rm b') := by
  have hp := (h.psdu bd mdsss rm hg hn).withPilots bd
  obtain ⟨h1, h2, h3, h4⟩ := id h
  unfold RefQ.chips
  rw [h1, h2, h3]
  exact ((L.const _).append (L.const _)).append hp

end SunPhy.Affine
