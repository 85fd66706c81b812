import Verif.Props.C87
import Verif.Props.C13
import Verif.Proofs.HammingPerm
/-
C89 — the coded payloads that an MR-OFDM modulator maps to tones for two different equally long messages differ in at least ten bits (rate 1/2)
or five bits (rate 3/4).
-/
namespace SunPhy.C89
open SunPhy Spec

/-- Six bits determine the state of the encoder. -/
theorem six_bits : ∀ v < 64, ∀ a b c d e f : Bool, rateHalfState v [a, b, c, d, e, f] = rateHalfState 0 [a, b, c, d, e, f] := by decide +kernel

theorem state_tail (v v' : Nat) (hv : v < 64) (hv' : v' < 64) (t : Bits) (ht : 6 ≤ t.length) : rateHalfState v t = rateHalfState v' t := by
  obtain ⟨a, b, c, d, e, f, r, rfl⟩ : ∃ a b c d e f r, t = [a, b, c, d, e, f] ++ r := by
    match t, ht with
    | a :: b :: c :: d :: e :: f :: r, _ => exact ⟨a, b, c, d, e, f, r, rfl⟩
  rw [rateHalfState_append, rateHalfState_append, six_bits v hv, six_bits v' hv']

theorem payload_split {p : OfdmParams} (h : Supported p) (m m' : Bits) (hl : m.length = m'.length) (hne : m ≠ m') :
    ∃ A A' T : Bits, Ref.payload p m = A ++ T ∧ Ref.payload p m' = A' ++ T ∧ A.length = A'.length ∧ A ≠ A' ∧ 6 ≤ T.length := by
  have hT : m.length + 6 ≤ Ref.groups p m.length * Ref.groupBits p.option p.mcs := by
    obtain ⟨-, -, -, -, -, -, -, -, -, ed, -⟩ := ref_tables p (mem_allSupported h)
    obtain ⟨k, q1, q2, q3, -, -⟩ := C21.C21_padding p h m
    rw [← groups_ref h, ← ed, ← (padding_length h m).1, q2]
    exact q3
  have hlen : ∀ y : Bits, y.length = m.length → (Ref.payload p y).length = Ref.groups p m.length * Ref.groupBits p.option p.mcs := by
    intro y hy; unfold Ref.payload; simp [hy]
  refine ⟨(Ref.payload p m).take m.length, (Ref.payload p m').take m.length, (Ref.payload p m).drop m.length,
    (List.take_append_drop _ _).symm, ?_, ?_, ?_, ?_⟩
  · have : (Ref.payload p m).drop m.length = (Ref.payload p m').drop m.length := by
      unfold Ref.payload
      simp only
      rw [hl]
      apply List.ext_getElem?
      intro i
      rw [List.getElem?_drop, List.getElem?_drop, List.getElem?_map, List.getElem?_map]
      by_cases hi : m'.length + i < Ref.groups p m'.length * Ref.groupBits p.option p.mcs
      · rw [List.getElem?_range hi]
        simp only [Option.map_some]
        rw [if_neg (show ¬ m'.length + i < m'.length by omega), if_neg (show ¬ m'.length + i < m'.length by omega)]
      · rw [List.getElem?_eq_none (by simp; omega)]; rfl
    rw [this, List.take_append_drop]
  · rw [List.length_take, List.length_take, hlen m rfl, hlen m' hl.symm]
  · intro he
    apply hne
    apply List.ext_getElem hl
    intro i h1 h2
    have := congrArg (fun l => l[i]?) he
    simp only [List.getElem?_take, h1, if_true] at this
    unfold Ref.payload at this
    simp only at this
    rw [List.getElem?_map, List.getElem?_map, List.getElem?_range (by omega), List.getElem?_range (by rw [← hl]; omega)] at this
    simp only [Option.map_some, h1, h2, if_true, Option.some.injEq] at this
    rw [List.getD_eq_getElem?_getD, List.getD_eq_getElem?_getD, List.getElem?_eq_getElem h1, List.getElem?_eq_getElem h2] at this
    simpa using this
  · rw [List.length_drop, hlen m rfl]; omega

theorem code_hamming {p : OfdmParams} (h : Supported p) (m m' : Bits) (hl : m.length = m'.length) (hne : m ≠ m') :
    (if Ref.threeQuarters p.mcs then 5 else 10) ≤ hamming (payloadCode p m) (payloadCode p m') := by
  obtain ⟨-, -, -, -, -, er, -, -, -, ed, -, -, -, -, e3⟩ := ref_tables p (mem_allSupported h)
  obtain ⟨A, A', T, h1, h2, hA, hAne, hT⟩ := payload_split h m m' hl hne
  have hs : rateHalfState (rateHalfInit 0) (A ++ T) = rateHalfState (rateHalfInit 0) (A' ++ T) := by
    rw [rateHalfState_append, rateHalfState_append]
    exact state_tail _ _ (rateHalfState_lt (by decide) _) (rateHalfState_lt (by decide) _) T hT
  have hlen : ∀ y, y.length = m.length → (Ref.payload p y).length = (Ref.payload p m).length := by
    intro y hy; unfold Ref.payload; simp [hy]
  unfold payloadCode encodeBits
  rw [payload_ref h, payload_ref h, er, h1, h2]
  cases h34 : Ref.threeQuarters p.mcs
  · simp only [Bool.false_eq_true, if_false]
    exact rateHalf_dist_start _ _ (by decide) (by rw [List.length_append, List.length_append, hA]) (by simpa using hAne) hs
  · simp only [if_true]
    have k1 : (A ++ T).length % 3 = 0 := by
      rw [← h1, ← payload_ref h, payloadScrambled_length h, Nat.mul_mod, ed, e3 h34]; simp
    have k2 : (A' ++ T).length % 3 = 0 := by rw [List.length_append, ← hA, ← List.length_append]; exact k1
    have n1 : A ++ T ≠ [] := by intro e; have := congrArg List.length e; rw [List.length_append, List.length_nil] at this; omega
    have n2 : A' ++ T ≠ [] := by intro e; have := congrArg List.length e; rw [List.length_append, List.length_nil] at this; omega
    have key : ∀ x : Bits, x.length % 3 = 0 → x ≠ [] → C12.puncture (rateHalfOut (rateHalfInit 0) x) = (rate34Rows (rateHalfInit 0) (chunks 3 x)).1 := by
      intro x hx hx0
      obtain ⟨out, e1, e2, -⟩ := C12.C12_punctured (rateHalfInit 0) x hx hx0
      rw [C11.rate34Seq_ok _ _ hx hx0] at e1
      rw [← e2, Except.ok.inj e1]
    rw [key _ k1 n1, key _ k2 n2]
    have s1 := rate34Rows_state (chunks 3 (A ++ T)) (rateHalfInit 0) (fun b hb => mem_chunks_length hb)
    have s2 := rate34Rows_state (chunks 3 (A' ++ T)) (rateHalfInit 0) (fun b hb => mem_chunks_length hb)
    rw [chunks_flatten (by decide) _ k1] at s1
    rw [chunks_flatten (by decide) _ k2] at s2
    refine rate34_dist_start _ _ (by decide) ?_ (fun b hb => mem_chunks_length hb) (fun b hb => mem_chunks_length hb) ?_ (by rw [s1, s2, hs])
    · rw [chunks_length, chunks_length, List.length_append, List.length_append, hA]
    · intro he
      have := congrArg List.flatten he
      rw [chunks_flatten (by decide) _ k1, chunks_flatten (by decide) _ k2] at this
      exact hAne (List.append_cancel_right this)

/-- Interleaving complete blocks only moves the positions. -/
theorem interleaver_hamming {p : OfdmParams} (h : Supported p) (x y : Bits) (hl : x.length = y.length)
    (hx : x.length % depth p.interleaving p.option p.mcs = 0) : hamming (p.interleaver x p.mcs) (p.interleaver y p.mcs) = hamming x y := by
  have hpos : 0 < depth p.interleaving p.option p.mcs := by
    have := (C19.table_ok h (Or.inl rfl)).2
    rwa [(C19.table_eq h (Or.inl rfl)).1] at this
  have hz : (List.zipWith xor x y).length = x.length := by simp [hl]
  have hlin : List.zipWith xor (p.interleaver x p.mcs) (p.interleaver y p.mcs) = p.interleaver (List.zipWith xor x y) p.mcs := by
    rw [interleave_eq h (Or.inl rfl), interleave_eq h (Or.inl rfl), interleave_eq h (Or.inl rfl)]
    unfold Ref.interleave
    rw [hz, ← hl]
    apply List.ext_getElem?
    intro i
    rw [List.getElem?_zipWith, List.getElem?_map, List.getElem?_map, List.getElem?_map]
    by_cases hi : i < x.length
    · rw [List.getElem?_range hi]
      simp only [Option.map_some]
      split
      · congr 1
        generalize i / _ * _ + _ = j
        simp only [List.getD_eq_getElem?_getD, List.getElem?_zipWith]
        by_cases hj : j < x.length
        · rw [List.getElem?_eq_getElem hj, List.getElem?_eq_getElem (by omega : j < y.length)]; rfl
        · rw [List.getElem?_eq_none (by omega), List.getElem?_eq_none (by omega : y.length ≤ j)]; rfl
      · rfl
    · rw [List.getElem?_eq_none (by simpa using hi)]; rfl
  unfold hamming
  rw [hlin]
  apply List.Perm.count_eq
  obtain ⟨-, hl2, hp⟩ := C19.C19_reversible p h p.mcs (Or.inl rfl) (List.zipWith xor x y) (by rw [hz]; exact hx)
  have f1 := chunks_flatten hpos (List.zipWith xor x y) (by rw [hz]; exact hx)
  have f2 := chunks_flatten hpos (p.interleaver (List.zipWith xor x y) p.mcs) (by rw [hl2, hz]; exact hx)
  rw [← f2]
  conv_rhs => rw [← f1]
  clear hlin hz hl2 f1 f2
  generalize chunks _ (p.interleaver (List.zipWith xor x y) p.mcs) = u at *
  generalize chunks _ (List.zipWith xor x y) = w at *
  induction hp with
  | nil => exact List.Perm.refl _
  | cons h1 _ ih => simp only [List.flatten_cons]; exact h1.append ih

/-- **C89.**  Two modulators with the same supported configuration, whatever they were used for before, are given different messages of the
same length: the coded and interleaved payloads that are mapped to tones have the same length and differ in at least 10 bits (rate 1/2) or
5 bits (rate 3/4, i.e. MCS 4 and 6). -/
theorem C89_distance (o o' : OfdmObj) (h : Supported o.params) (hp : o'.params = o.params) (a a' : Arg) (m m' : Bits)
    (ha : checkBinaryArray a = .ok m) (ha' : checkBinaryArray a' = .ok m') (hl : m.length = m'.length) (hne : m ≠ m')
    (r r' : List ℂ × ℚ) (hr : ((ofdmModBitsToIQ a).call o).1 = .ok r) (hr' : ((ofdmModBitsToIQ a').call o').1 = .ok r') :
    ∃ x x' : Bits, ((ofdmModBitsToIQ a).call o).2.payload_interleaved = some x ∧ ((ofdmModBitsToIQ a').call o').2.payload_interleaved = some x' ∧
      x.length = x'.length ∧ (if o.params.mcs = 4 ∨ o.params.mcs = 6 then 5 else 10) ≤ hamming x x' := by
  refine ⟨_, _, (C87.C87_ofdm o h a m ha r hr).interleaved, (C87.C87_ofdm o' (by rw [hp]; exact h) a' m' ha' r' hr').interleaved, ?_, ?_⟩
  · rw [hp, ← payloadCoded_ref h, ← payloadCoded_ref h, payloadCoded_length h, payloadCoded_length h, hl]
  · rw [hp, ← payloadCoded_ref h, ← payloadCoded_ref h]
    unfold payloadCoded
    rw [interleaver_hamming h]
    · have := code_hamming h m m' hl hne
      convert this using 2
      simp [Ref.threeQuarters]
    · rw [(payload_enc h m).2, (payload_enc h m').2, hl]
    · obtain ⟨code, e, hm, -⟩ := C19.C19_payload_blocks o.params h m
      rw [(payload_enc h m).1] at e
      rw [Except.ok.inj e]; exact hm

/-! Non-vacuity: a supported configuration of each rate accepts these two messages. -/
example : Supported ⟨4, 2, 1, 2⟩ ∧ Supported ⟨3, 4, 0, 1⟩ ∧
    ∀ p, Supported p → ∀ b : Bool, ∃ r, ((ofdmModBitsToIQ (bitsArg (b :: List.replicate 15 true))).call { params := p }).1 = .ok r := by
  refine ⟨⟨by decide, by decide, by decide⟩, ⟨by decide, by decide, by decide⟩, fun p hp b => ?_⟩
  obtain ⟨o', e, -⟩ := bitsToIQ_ok (o := { params := p }) hp (C03.C03_identity (b :: List.replicate 15 true) (by simp)) (by simp) (by simp)
  exact ⟨_, by rw [e]⟩

end SunPhy.C89
