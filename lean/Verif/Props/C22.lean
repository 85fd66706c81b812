import Verif.Props.C21
import Verif.Props.C07
import Verif.Props.C13
/-
C22 — the convolutional encoder is flushed by six zero tail bits after the message.
-/
namespace SunPhy.C22
open SunPhy Spec OfdmParams

/-- `N_PAD = 0`: message and tail exactly fill the symbols. -/
def NoPad (p : OfdmParams) (len : Nat) : Prop := (len + 6) % p.nDbps = 0

instance (p : OfdmParams) (len : Nat) : Decidable (NoPad p len) := by unfold NoPad; infer_instance

theorem nPad_zero {p : OfdmParams} (h : Supported p) (m : Bits) : (p.padding m).2 = 0 ↔ NoPad p m.length := by
  have hf := (rate_facts p (mem_allSupported h)).2.2
  obtain ⟨c1, c2⟩ := ceilDiv_spec (a := m.length + 6) (b := p.nDbps) (by omega)
  rw [(padding_length h m).2]
  unfold NoPad payloadN
  constructor
  · intro e
    rw [show m.length + 6 = ceilDiv (m.length + 6) p.nDbps * p.nDbps by omega]
    simp
  · intro e
    obtain ⟨k, hk⟩ := Nat.dvd_of_mod_eq_zero e
    rw [hk] at c1 c2 ⊢
    have : ceilDiv (p.nDbps * k) p.nDbps < k + 1 := by
      by_contra hge
      have := Nat.mul_le_mul_right p.nDbps (show k + 1 ≤ ceilDiv (p.nDbps * k) p.nDbps by omega)
      rw [Nat.add_mul, Nat.one_mul, Nat.mul_comm k] at this
      omega
    have := Nat.mul_le_mul_right p.nDbps (show ceilDiv (p.nDbps * k) p.nDbps ≤ k by omega)
    rw [Nat.mul_comm k] at this
    omega

theorem setSlice_tail {m x : Bits} {n : Nat} (hx : x.length = m.length + n + 6) (hn : 0 < n) :
    setSlice x (-6 - (n : Int)) (-(n : Int)) false = x.take m.length ++ List.replicate 6 false ++ x.drop (m.length + 6) := by
  unfold setSlice pyBound
  simp only
  rw [if_pos (by omega), if_pos (by omega)]
  have e1 : ((x.length : Int) + (-6 - (n : Int))).toNat = m.length := by omega
  have e2 : ((x.length : Int) + -(n : Int)).toNat = m.length + 6 := by omega
  rw [e1, e2]
  apply List.ext_getElem?
  intro i
  rw [List.getElem?_map, List.getElem?_zipIdx]
  by_cases h1 : i < m.length
  · rw [List.append_assoc, List.getElem?_append_left (by simp; omega), List.getElem?_take, if_pos h1]
    rw [List.getElem?_eq_getElem (by omega)]
    simp; omega
  · by_cases h2 : i < m.length + 6
    · have : i - (x.take m.length).length < 6 := by simp; omega
      rw [List.append_assoc, List.getElem?_append_right (by simp; omega), List.getElem?_append_left (by simpa using this),
        List.getElem?_replicate, if_pos this]
      rw [List.getElem?_eq_getElem (show i < x.length by omega)]
      simp; omega
    · rw [List.getElem?_append_right (by simp; omega), List.getElem?_drop]
      have : m.length + 6 + (i - (x.take m.length ++ List.replicate 6 false).length) = i := by simp; omega
      rw [this]
      by_cases h3 : i < x.length
      · rw [List.getElem?_eq_getElem h3]; simp; omega
      · rw [List.getElem?_eq_none (by omega)]; rfl

theorem setSlice_none {x : Bits} (hx : 6 ≤ x.length) : setSlice x (-6 - ((0 : Nat) : Int)) (-((0 : Nat) : Int)) false = x := by
  unfold setSlice pyBound
  simp only
  rw [if_pos (by omega), if_neg (by omega)]
  apply List.ext_getElem?
  intro i
  rw [List.getElem?_map, List.getElem?_zipIdx]
  cases x[i]? with
  | none => rfl
  | some v => simp

/-- The scrambled payload: scrambled message, tail, scrambled padding. -/
theorem payloadScrambled_eq {p : OfdmParams} (h : Supported p) (m : Bits) :
    p.payloadScrambled m =
      if NoPad p m.length then SunPhy.scrambler (m ++ List.replicate 6 false) (scramblingSeed p.scrambler)
      else (SunPhy.scrambler (p.padding m).1 (scramblingSeed p.scrambler)).take m.length ++ List.replicate 6 false ++
        (SunPhy.scrambler (p.padding m).1 (scramblingSeed p.scrambler)).drop (m.length + 6) := by
  obtain ⟨k, q1, q2, q3, q4, q5⟩ := C21.C21_padding p h m
  unfold OfdmParams.payloadScrambled
  simp only
  by_cases hz : NoPad p m.length
  · rw [if_pos hz]
    have h0 := (nPad_zero h m).2 hz
    rw [h0, setSlice_none (by rw [scrambler_length, q2]; omega), q1]
    congr 2
    congr 1
    omega
  · rw [if_neg hz]
    have h0 : (p.padding m).2 ≠ 0 := fun e => hz ((nPad_zero h m).1 e)
    exact setSlice_tail (by rw [scrambler_length, q2]; omega) (by omega)

/-- **C22 (padded case).**  Whenever at least one padding bit is added — the message plus six bits does not fill whole symbols —
the six bits after the message are zero, and the encoder is in state 0 after them.  Missing: messages that exactly fill the symbols,
where the claim is false (`C22_no_pad_false`). -/
theorem C22_partial (p : OfdmParams) (h : Supported p) (m : Bits) (hp : ¬ NoPad p m.length) :
    ((p.payloadScrambled m).drop m.length).take 6 = List.replicate 6 false ∧
    rateHalfState (rateHalfInit 0) ((p.payloadScrambled m).take (m.length + 6)) = 0 := by
  rw [payloadScrambled_eq h m, if_neg hp]
  obtain ⟨k, q1, q2, q3, -, -⟩ := C21.C21_padding p h m
  generalize hx : SunPhy.scrambler (p.padding m).1 (scramblingSeed p.scrambler) = x
  have hxl : x.length = k * p.nDbps := by rw [← hx, scrambler_length, q2]
  have ht : (x.take m.length).length = m.length := by simp; omega
  constructor
  · rw [List.append_assoc, List.drop_left' ht, List.take_left' (by simp)]
  · have : (x.take m.length ++ List.replicate 6 false ++ x.drop (m.length + 6)).take (m.length + 6) =
        x.take m.length ++ List.replicate 6 false := List.take_left' (by simp; omega)
    rw [this]
    have := C13.tail_state (rateHalfInit 0) (by decide) (x.take m.length) []
    rw [List.append_nil] at this
    rw [this]; rfl

/-- **C22 (octet messages).**  For messages of whole octets the exception occurs only with MCS 4 and option 4, and there exactly for
`L ≡ 6 (mod 9)` octets; in all other cases the tail is there. -/
theorem C22_octets (p : OfdmParams) (h : Supported p) (m : Bits) (L : Nat) (hL : m.length = 8 * L) :
    (NoPad p m.length ↔ p.mcs = 4 ∧ p.option = 4 ∧ L % 9 = 6) ∧
    (¬ (p.mcs = 4 ∧ p.option = 4 ∧ L % 9 = 6) →
      ((p.payloadScrambled m).drop m.length).take 6 = List.replicate 6 false ∧
      rateHalfState (rateHalfInit 0) ((p.payloadScrambled m).take (m.length + 6)) = 0) := by
  have hfac : ∀ p ∈ allSupported, (p.mcs = 4 ∧ p.option = 4 ∧ p.nDbps = 18) ∨ (¬ (p.mcs = 4 ∧ p.option = 4) ∧ p.nDbps % 4 = 0) := by
    decide +kernel
  have key : NoPad p m.length ↔ p.mcs = 4 ∧ p.option = 4 ∧ L % 9 = 6 := by
    unfold NoPad
    rw [hL]
    rcases hfac p (mem_allSupported h) with ⟨a, b, c⟩ | ⟨a, c⟩
    · rw [c]; omega
    · constructor
      · intro e
        exfalso
        obtain ⟨k, hk⟩ := Nat.dvd_of_mod_eq_zero e
        obtain ⟨j, hj⟩ := Nat.dvd_of_mod_eq_zero c
        rw [hj, Nat.mul_assoc] at hk
        omega
      · rintro ⟨x, y, -⟩; exact (a ⟨x, y⟩).elim
  exact ⟨key, fun hn => C22_partial p h m (fun e => hn (key.1 e))⟩

/-- **C22 (what happens without padding).**  The six bits after the message are the scrambler's keystream, not zeros. -/
theorem C22_no_pad (p : OfdmParams) (h : Supported p) (m : Bits) (hp : NoPad p m.length) :
    (p.payloadScrambled m).length = m.length + 6 ∧
    ∀ i < 6, ∃ y, C05.output (scramblingSeed p.scrambler) (m.length + i) = some y ∧ (p.payloadScrambled m)[m.length + i]? = some (y == 1) := by
  rw [payloadScrambled_eq h m, if_pos hp]
  refine ⟨by rw [scrambler_length]; simp, ?_⟩
  intro i hi
  obtain ⟨y, hy, e⟩ := (C07.C07_keystream (m ++ List.replicate 6 false) (scramblingSeed p.scrambler)).2 (m.length + i) (by simp; omega)
  refine ⟨y, hy, ?_⟩
  rw [e, List.getElem_append_right (by omega), List.getElem_replicate, Bool.xor_false]

/-- **C22 is false** for every 6-octet message with MCS 4 on option 4, whatever the scrambler: the encoder is not back in state 0. -/
theorem C22_no_pad_false (p : OfdmParams) (h : Supported p) (hm : p.mcs = 4) (ho : p.option = 4) (m : Bits) (hL : m.length = 48) :
    ((p.payloadScrambled m).drop m.length).take 6 ≠ List.replicate 6 false ∧
    rateHalfState (rateHalfInit 0) ((p.payloadScrambled m).take (m.length + 6)) ≠ 0 := by
  have hp : NoPad p m.length := ((C22_octets p h m 6 hL).1).2 ⟨hm, ho, rfl⟩
  obtain ⟨hl, hb⟩ := C22_no_pad p h m hp
  have hs := h.2.2
  have hks : ∀ s ≤ 3, (List.range 6).map (fun i => pn9Out (pn9Step^[48 + i + 1] (scramblingSeed s)) == 1) ≠ List.replicate 6 false ∧
      rateHalfState 0 ((List.range 6).map (fun i => pn9Out (pn9Step^[48 + i + 1] (scramblingSeed s)) == 1)) ≠ 0 ∧
      regOf ((List.range 6).map (fun i => pn9Out (pn9Step^[48 + i + 1] (scramblingSeed s)) == 1)).reverse ≠ 0 := by
    decide +kernel
  obtain ⟨k1, k2, k3⟩ := hks _ hs
  have htail : (p.payloadScrambled m).drop m.length = (List.range 6).map (fun i => pn9Out (pn9Step^[48 + i + 1] (scramblingSeed p.scrambler)) == 1) := by
    apply List.ext_getElem?
    intro i
    rw [List.getElem?_drop]
    by_cases hi : i < 6
    · obtain ⟨y, hy, e⟩ := hb i hi
      rw [C05.output_eq] at hy
      cases hy
      rw [e, List.getElem?_map, List.getElem?_range hi, hL]
      rfl
    · rw [List.getElem?_eq_none (by omega), List.getElem?_eq_none (by simp; omega)]
  constructor
  · rw [htail, List.take_of_length_le (by simp)]; exact k1
  · rw [List.take_of_length_le (by omega), ← List.take_append_drop m.length (p.payloadScrambled m), htail]
    have : rateHalfInit 0 = regOf [] := by decide
    rw [this, rateHalfState_reg, List.reverse_append, List.append_nil]
    have key : ∀ t r : Bits, t.length = 6 → regOf (t ++ r) = regOf t := by
      intro t r ht
      match t, ht with
      | [_, _, _, _, _, _], _ => rfl
    rw [key _ _ (by simp)]
    exact k3

example : Supported ⟨4, 4, 0, 1⟩ ∧ NoPad ⟨4, 4, 0, 1⟩ 48 ∧ ¬ NoPad ⟨4, 4, 0, 1⟩ 40 := ⟨⟨by decide, by decide, by decide⟩, by unfold NoPad; decide, by unfold NoPad; decide⟩

end SunPhy.C22
