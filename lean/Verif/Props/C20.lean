import Verif.Props.C19
/-
C20 — MR-OFDM interleaving against the two-step permutation of the standard.
-/
namespace SunPhy.C20
open SunPhy Spec OfdmParams

/-- The position of coded bit `k` in the standard: the second permutation applied to the result of the first. -/
def standardPosition (mode option mcs k : Nat) : Nat :=
  perm2 (depth mode option mcs) (rows mcs) (step mcs) (perm1 (depth mode option mcs) (rows mcs) k)

/-- Bit `k` of block `b` of a stream. -/
def bitOf (K : Nat) (x : Bits) (b k : Nat) : Option Bool := x[b * K + k]?

theorem bit_moves {p : OfdmParams} (h : Supported p) {MCS : Nat} (hM : MCS = p.mcs ∨ MCS = lowestMcs p.option) (x : Bits)
    (hx : x.length % depth p.interleaving p.option MCS = 0) (b k : Nat) (hb : b < x.length / depth p.interleaving p.option MCS)
    (hk : k < depth p.interleaving p.option MCS) :
    C19.position p.interleaving p.option MCS k < depth p.interleaving p.option MCS ∧
    bitOf (depth p.interleaving p.option MCS) (p.interleaver x MCS) b (C19.position p.interleaving p.option MCS k) =
      bitOf (depth p.interleaving p.option MCS) x b k := by
  obtain ⟨ht, hpos⟩ := C19.table_ok h hM
  obtain ⟨e1, e2⟩ := C19.table_eq h hM
  have hB := C19.interleaver_blocks h hM x
  rw [e1] at hB ht hpos
  generalize hK : depth p.interleaving p.option MCS = K at *
  have hpk : C19.position p.interleaving p.option MCS k < K := ht.2.1 _ (by rw [e2, List.mem_map]; exact ⟨k, by simpa using hk, rfl⟩)
  refine ⟨hpk, ?_⟩
  have chunkGet : ∀ (y : Bits), y.length = x.length → ∀ i, i < K → bitOf K y b i = ((chunks K y)[b]?.getD [])[i]? := by
    intro y hy i hi
    have hby : b < y.length / K := by rw [hy]; exact hb
    unfold bitOf chunks
    rw [List.getElem?_map, List.getElem?_range hby]
    simp only [Option.map_some, Option.getD_some]
    rw [List.getElem?_take, if_pos hi, List.getElem?_drop]
  rw [chunkGet _ (interleaver_length p x MCS) _ hpk, chunkGet x rfl _ hk, hB, List.getElem?_map]
  have hbl : b < (chunks K x).length := by rw [chunks_length]; exact hb
  rw [List.getElem?_eq_getElem hbl]
  simp only [Option.map_some, Option.getD_some]
  have := scatterBlock_get ht (chunks K x)[b] (mem_chunks_length (List.getElem_mem _)) k hk
  rw [← this]
  congr 1
  simp [e2]

theorem same_position : ∀ p ∈ mcsOptIntl, ∀ MCS ∈ [p.mcs, lowestMcs p.option], MCS ≤ 4 →
    ∀ k ∈ List.range (depth p.interleaving p.option MCS),
      C19.position p.interleaving p.option MCS k = standardPosition p.interleaving p.option MCS k := by
  decide +kernel

/-- **C20 (BPSK and QPSK).**  For MCS 0 to 4 and for every header, in every block of every coded stream, coded bit `k` is sent to
the standard's position `j(i(k))`.  Missing: MCS 5 and 6 (16-QAM), where the claim is false, see `C20_qam16_false`. -/
theorem C20_partial (p : OfdmParams) (h : Supported p) (MCS : Nat) (hM : MCS = p.mcs ∨ MCS = lowestMcs p.option) (h4 : MCS ≤ 4) (x : Bits)
    (hx : x.length % depth p.interleaving p.option MCS = 0) (b k : Nat) (hb : b < x.length / depth p.interleaving p.option MCS)
    (hk : k < depth p.interleaving p.option MCS) :
    bitOf (depth p.interleaving p.option MCS) (p.interleaver x MCS) b (standardPosition p.interleaving p.option MCS k) =
      bitOf (depth p.interleaving p.option MCS) x b k := by
  have := (bit_moves h hM x hx b k hb hk).2
  rwa [same_position _ (mem_mcsOptIntl h) MCS (by simpa using hM) h4 k (by simpa using hk)] at this

/-- **C20 (exact behaviour, all MCS).**  Coded bit `k` is sent to `i(j(k))`: the two permutations are applied in the opposite
order. -/
theorem C20_actual (p : OfdmParams) (h : Supported p) (MCS : Nat) (hM : MCS = p.mcs ∨ MCS = lowestMcs p.option) (x : Bits)
    (hx : x.length % depth p.interleaving p.option MCS = 0) (b k : Nat) (hb : b < x.length / depth p.interleaving p.option MCS)
    (hk : k < depth p.interleaving p.option MCS) :
    bitOf (depth p.interleaving p.option MCS) (p.interleaver x MCS) b
      (perm1 (depth p.interleaving p.option MCS) (rows MCS) (perm2 (depth p.interleaving p.option MCS) (rows MCS) (step MCS) k)) =
      bitOf (depth p.interleaving p.option MCS) x b k := (bit_moves h hM x hx b k hb hk).2

/-- Bit positions (out of one block) where the order of the two permutations matters. -/
theorem differ : ∀ p ∈ mcsOptIntl, 5 ≤ p.mcs → ∃ k ∈ List.range (depth p.interleaving p.option p.mcs),
    let K := depth p.interleaving p.option p.mcs
    let x := (List.range K).map (· == k)
    bitOf K (p.interleaver x p.mcs) 0 (standardPosition p.interleaving p.option p.mcs k) ≠ bitOf K x 0 k := by
  decide +kernel

/-- **C20 is false for 16-QAM.**  In every supported configuration with MCS 5 or 6 there is a coded stream (one block) and a bit
that is not at the standard's position. -/
theorem C20_qam16_false (p : OfdmParams) (h : Supported p) (h5 : 5 ≤ p.mcs) :
    ∃ (x : Bits) (k : Nat), x.length = depth p.interleaving p.option p.mcs ∧ k < x.length ∧
      bitOf (depth p.interleaving p.option p.mcs) (p.interleaver x p.mcs) 0 (standardPosition p.interleaving p.option p.mcs k) ≠
        bitOf (depth p.interleaving p.option p.mcs) x 0 k := by
  obtain ⟨k, hk, hd⟩ := differ _ (mem_mcsOptIntl h) h5
  exact ⟨(List.range (depth p.interleaving p.option p.mcs)).map (· == k), k, by simp, by simpa using hk, hd⟩

example : Supported ⟨5, 2, 1, 0⟩ ∧ Supported ⟨3, 2, 1, 0⟩ := ⟨⟨by decide, by decide, by decide⟩, ⟨by decide, by decide, by decide⟩⟩

end SunPhy.C20
