import Verif.Proofs.RefBits
/-
Header and payload bit streams of the model and of the reference transmitter.
-/
namespace SunPhy
open Spec

theorem ref_tables : ∀ p ∈ allSupported,
    lowestMcs p.option = Ref.headerMcs p.option ∧ fftSize p.option = Ref.nfft p.option ∧
    p.guard = Ref.guardLow p.option ∧ p.guard - 1 = Ref.guardHigh p.option ∧
    scramblingSeed p.scrambler = Ref.seed p.scrambler ∧ rateIs34 p.mcs = Ref.threeQuarters p.mcs ∧
    headerSymbols p = Ref.headerCount p ∧
    splitN p p.mcs = Ref.symbolBits p.option p.mcs ∧ splitN p (lowestMcs p.option) = Ref.symbolBits p.option (Ref.headerMcs p.option) ∧
    p.nDbps = Ref.groupBits p.option p.mcs ∧ freqSpreading p.mcs = spreadOf p.mcs ∧
    freqSpreading (Ref.headerMcs p.option) = spreadOf (Ref.headerMcs p.option) ∧
    pilotsIndices p.option = Ref.pilotSets p.option ∧
    p.phrLength = Ref.headerCount p * Ref.symbolBits p.option (Ref.headerMcs p.option) / 2 ∧
    (Ref.threeQuarters p.mcs = true → Ref.groupBits p.option p.mcs % 3 = 0) := by
  decide +kernel

section
variable {p : OfdmParams} (h : Supported p)
include h

theorem header_ref (octets : Nat) : headerBits p octets = Ref.header p octets := by
  obtain ⟨-, -, -, -, -, -, -, -, -, -, -, -, -, e, -⟩ := ref_tables p (mem_allSupported h)
  unfold headerBits Ref.header Ref.headerInfo
  simp only [field_eq]
  rw [hcs_bits _ (by simp [natBits_length]), e]

theorem headerCoded_ref (octets : Nat) : headerCoded p octets = Ref.headerStream p octets := by
  obtain ⟨e, -⟩ := ref_tables p (mem_allSupported h)
  unfold headerCoded Ref.headerStream
  simp only
  rw [interleave_eq h (Or.inr rfl), conv_eq, header_ref h, ← e]

theorem groups_ref (len : Nat) : payloadN p len = Ref.groups p len := by
  obtain ⟨-, -, -, -, -, -, -, -, -, e, -⟩ := ref_tables p (mem_allSupported h)
  have := (rate_facts p (mem_allSupported h)).2.2
  unfold payloadN Ref.groups ceilDiv
  rw [← e]
  congr 1
  omega

theorem payload_ref (m : Bits) : p.payloadScrambled m = Ref.payload p m := by
  obtain ⟨-, -, -, -, es, -, -, -, -, ed, -⟩ := ref_tables p (mem_allSupported h)
  have hl := payloadScrambled_length h m
  obtain ⟨k, q1, q2, q3, -, -⟩ := C21.C21_padding p h m
  obtain ⟨c1, c2⟩ := padding_length h m
  have hk : ∀ (x : Bits) (s i : Nat), i < x.length → (SunPhy.scrambler x s)[i]? = some (xor (Ref.key s i) (x.getD i false)) := by
    intro x s i hi
    rw [C07.scrambler_eq, List.getElem?_zipWith, List.getElem?_map, List.getElem?_range hi, List.getElem?_eq_getElem hi]
    simp only [Option.map_some]
    rw [pn9Out_key, List.getD_eq_getElem?_getD, List.getElem?_eq_getElem hi]
    rfl
  have hg := groups_ref h m.length
  apply List.ext_getElem?
  intro i
  unfold Ref.payload
  simp only
  rw [← hg, ← ed]
  by_cases hi : i < payloadN p m.length * p.nDbps
  · rw [List.getElem?_map, List.getElem?_range hi]
    simp only [Option.map_some]
    rw [C22.payloadScrambled_eq h m]
    have hpad : (p.padding m).1 = m ++ List.replicate (payloadN p m.length * p.nDbps - m.length) false := by
      rw [show (p.padding m).1 = m ++ List.replicate (p.padding m).2 false ++ List.replicate 6 false from rfl, List.append_assoc,
        List.replicate_append_replicate]
      congr 2
      have := c1
      rw [show (p.padding m).1 = m ++ List.replicate (p.padding m).2 false ++ List.replicate 6 false from rfl] at this
      simp only [List.length_append, List.length_replicate] at this
      omega
    have hml : m.length + 6 ≤ payloadN p m.length * p.nDbps := by
      have := c1
      rw [show (p.padding m).1 = m ++ List.replicate (p.padding m).2 false ++ List.replicate 6 false from rfl] at this
      simp only [List.length_append, List.length_replicate] at this
      omega
    have hget : ∀ n i, (m ++ List.replicate n false).getD i false = m.getD i false := by
      intro n i
      rw [List.getD_eq_getElem?_getD, List.getD_eq_getElem?_getD]
      by_cases hi : i < m.length
      · rw [List.getElem?_append_left hi]
      · rw [List.getElem?_append_right (by omega), List.getElem?_replicate, List.getElem?_eq_none (by omega)]
        split <;> rfl
    have hout : ¬ i < m.length → m.getD i false = false := by
      intro hi
      rw [List.getD_eq_getElem?_getD, List.getElem?_eq_none (by omega)]; rfl
    by_cases hz : C22.NoPad p m.length
    · have h0 := (C22.nPad_zero h m).2 hz
      rw [if_pos hz, hk _ _ _ (by simp; omega), hget, es]
      congr 1
      by_cases h1 : i < m.length
      · rw [if_pos h1]
      · rw [if_neg h1, if_neg (by omega), hout h1, Bool.xor_false]
    · have h0 : (p.padding m).2 ≠ 0 := fun e => hz ((C22.nPad_zero h m).1 e)
      rw [if_neg hz, hpad]
      have hsl : (SunPhy.scrambler (m ++ List.replicate (payloadN p m.length * p.nDbps - m.length) false) (scramblingSeed p.scrambler)).length =
          payloadN p m.length * p.nDbps := by rw [scrambler_length]; simp; omega
      by_cases h1 : i < m.length
      · rw [if_pos h1, List.append_assoc, List.getElem?_append_left (by simp; omega), List.getElem?_take, if_pos h1,
          hk _ _ _ (by simp; omega), hget, es]
      · rw [if_neg h1]
        by_cases h2 : i < m.length + 6
        · rw [if_pos ⟨h2, by omega⟩, List.append_assoc, List.getElem?_append_right (by simp; omega), List.getElem?_append_left (by simp; omega),
            List.getElem?_replicate, if_pos (by simp; omega)]
        · rw [if_neg (by omega), List.getElem?_append_right (by simp; omega), List.getElem?_drop]
          have e6 : m.length + 6 + (i - ((SunPhy.scrambler (m ++ List.replicate (payloadN p m.length * p.nDbps - m.length) false)
              (scramblingSeed p.scrambler)).take m.length ++ List.replicate 6 false).length) = i := by
            simp only [List.length_append, List.length_take, List.length_replicate, hsl]
            omega
          rw [e6, hk _ _ _ (by simp; omega), hget, es, hout h1, Bool.xor_false]
  · rw [List.getElem?_eq_none (by omega), List.getElem?_eq_none (by simp; omega)]

theorem payloadCoded_ref (m : Bits) : payloadCoded p m = Ref.payloadStream p m := by
  obtain ⟨-, -, -, -, -, er, -, -, -, ed, -, -, -, -, e3⟩ := ref_tables p (mem_allSupported h)
  unfold payloadCoded Ref.payloadStream
  rw [interleave_eq h (Or.inl rfl)]
  congr 1
  unfold payloadCode encodeBits
  rw [er]
  cases h34 : Ref.threeQuarters p.mcs with
  | false => simp only [Bool.false_eq_true, if_false]; rw [conv_eq, payload_ref h]
  | true =>
    simp only [if_true]
    rw [conv34_eq, payload_ref h]
    rw [payloadScrambled_length h, Nat.mul_mod, ed, e3 h34]
    simp

end
end SunPhy
