import Verif.Proofs.OfdmFrame
import Verif.Spec.OfdmInterleaver
/-
C19 — MR-OFDM interleaving is a reversible permutation of each block.
-/
namespace SunPhy.C19
open SunPhy Spec OfdmParams

/-- Position, inside its block, that the code sends coded bit `k` to. -/
def position (mode option mcs k : Nat) : Nat :=
  perm1 (depth mode option mcs) (rows mcs) (perm2 (depth mode option mcs) (rows mcs) (step mcs) k)

/-- Explicit de-interleaver: coded bit `k` of each block is read at its position. -/
def deinterleave (mode option mcs : Nat) (y : Bits) : Bits :=
  (chunks (depth mode option mcs) y).flatMap fun blk =>
    (List.range (depth mode option mcs)).map fun k => blk.getD (position mode option mcs k) false

theorem tables_eq : ∀ p ∈ mcsOptIntl, ∀ MCS ∈ [p.mcs, lowestMcs p.option], p.intlBlock MCS = depth p.interleaving p.option MCS ∧
    p.intlIJ MCS = (List.range (depth p.interleaving p.option MCS)).map (position p.interleaving p.option MCS) := by
  decide +kernel

theorem table_eq {p : OfdmParams} (h : Supported p) {MCS : Nat} (hM : MCS = p.mcs ∨ MCS = lowestMcs p.option) :
    p.intlBlock MCS = depth p.interleaving p.option MCS ∧
    p.intlIJ MCS = (List.range (depth p.interleaving p.option MCS)).map (position p.interleaving p.option MCS) :=
  tables_eq _ (mem_mcsOptIntl h) MCS (by simpa using hM)

theorem table_ok {p : OfdmParams} (h : Supported p) {MCS : Nat} (hM : MCS = p.mcs ∨ MCS = lowestMcs p.option) :
    IsPermTable (p.intlBlock MCS) (p.intlIJ MCS) ∧ 0 < p.intlBlock MCS := by
  rcases hM with rfl | rfl
  · exact payload_table h
  · exact header_table h

theorem interleaver_blocks {p : OfdmParams} (h : Supported p) {MCS : Nat} (hM : MCS = p.mcs ∨ MCS = lowestMcs p.option) (x : Bits) :
    chunks (p.intlBlock MCS) (p.interleaver x MCS) = (chunks (p.intlBlock MCS) x).map (scatterBlock (p.intlIJ MCS)) := by
  obtain ⟨-, hpos⟩ := table_ok h hM
  unfold OfdmParams.interleaver
  simp only
  have hb : ∀ b ∈ (chunks (p.intlBlock MCS) x).map (scatterBlock (p.intlIJ MCS)), b.length = p.intlBlock MCS := by
    intro b hb
    obtain ⟨c, hc, rfl⟩ := List.mem_map.1 hb
    rw [scatterBlock_length, mem_chunks_length hc]
  have hlt := Nat.mod_lt x.length hpos
  generalize hz : List.replicate (x.length % p.intlBlock MCS) false = z
  have hzl : z.length < p.intlBlock MCS := by rw [← hz]; simpa using hlt
  rw [List.flatMap_def]
  generalize hB : (chunks (p.intlBlock MCS) x).map (scatterBlock (p.intlIJ MCS)) = B at hb
  clear hB hz
  induction B with
  | nil =>
    rw [List.flatten_nil, List.nil_append]
    unfold chunks
    rw [Nat.div_eq_of_lt hzl]
    rfl
  | cons b B ih =>
    rw [List.flatten_cons, List.append_assoc, chunks_append hpos (hb b (by simp)), ih fun b' h' => hb b' (by simp [h'])]

theorem gather_position {p : OfdmParams} (h : Supported p) {MCS : Nat} (hM : MCS = p.mcs ∨ MCS = lowestMcs p.option) (b : Bits)
    (hb : b.length = p.intlBlock MCS) :
    (List.range (p.intlBlock MCS)).map (fun k => (scatterBlock (p.intlIJ MCS) b).getD (position p.interleaving p.option MCS k) false) = b := by
  obtain ⟨e1, e2⟩ := table_eq h hM
  have g : ∀ y, gatherBlock (p.intlIJ MCS) y = (List.range (p.intlBlock MCS)).map fun k => y.getD (position p.interleaving p.option MCS k) false := by
    intro y
    unfold gatherBlock
    rw [e2, e1, List.map_map]
    rfl
  rw [← g, gather_scatter (table_ok h hM).1 b hb]

/-- **C19.**  For every supported configuration, both for the payload (its own MCS) and the header (the option's lowest MCS),
and for any coded stream of any number of blocks: the explicit de-interleaver restores the stream, and each block of the output
is a rearrangement of the same block of the input (nothing duplicated, nothing lost). -/
theorem C19_reversible (p : OfdmParams) (h : Supported p) (MCS : Nat) (hM : MCS = p.mcs ∨ MCS = lowestMcs p.option) (x : Bits)
    (hx : x.length % depth p.interleaving p.option MCS = 0) :
    deinterleave p.interleaving p.option MCS (p.interleaver x MCS) = x ∧
    (p.interleaver x MCS).length = x.length ∧
    List.Forall₂ List.Perm (chunks (depth p.interleaving p.option MCS) (p.interleaver x MCS)) (chunks (depth p.interleaving p.option MCS) x) := by
  obtain ⟨ht, hpos⟩ := table_ok h hM
  obtain ⟨e1, e2⟩ := table_eq h hM
  have hb := interleaver_blocks h hM x
  refine ⟨?_, interleaver_length p x MCS, ?_⟩
  · unfold deinterleave
    rw [← e1, hb, List.flatMap_map]
    have : (chunks (p.intlBlock MCS) x).flatMap (fun a => (List.range (p.intlBlock MCS)).map fun k =>
        (scatterBlock (p.intlIJ MCS) a).getD (position p.interleaving p.option MCS k) false) = (chunks (p.intlBlock MCS) x).flatMap id := by
      apply List.flatMap_congr
      intro b hbm
      exact gather_position h hM b (mem_chunks_length hbm)
    rw [this, List.flatMap_id, chunks_flatten hpos x (by rw [e1]; exact hx)]
  · rw [← e1, hb, List.forall₂_map_left_iff]
    have : ∀ l : List Bits, (∀ b ∈ l, b.length = p.intlBlock MCS) → List.Forall₂ (fun a c => (scatterBlock (p.intlIJ MCS) a).Perm c) l l := by
      intro l
      induction l with
      | nil => intro _; exact .nil
      | cons b l ih => intro hl; exact .cons (scatter_perm ht b (hl b (by simp))) (ih fun c hc => hl c (by simp [hc]))
    exact this _ fun b hb => mem_chunks_length hb

/-- **C19 (applies to every payload).**  The coded payload of every message consists of whole interleaving blocks. -/
theorem C19_payload_blocks (p : OfdmParams) (h : Supported p) (m : Bits) :
    ∃ code, p.payloadEncoded m = .ok code ∧ code.length % depth p.interleaving p.option p.mcs = 0 ∧
      p.payloadInterleaved m = .ok (p.interleaver code p.mcs) := by
  obtain ⟨e, hl⟩ := payload_enc h m
  refine ⟨_, e, ?_, ?_⟩
  · have : ∀ p ∈ allSupported, p.nCbps % depth p.interleaving p.option p.mcs = 0 := by decide +kernel
    rw [hl, Nat.mul_mod, this p (mem_allSupported h)]; simp
  · unfold OfdmParams.payloadInterleaved
    rw [e]; rfl

/-- **C19 (header).**  Also with the configurations whose header is not a whole number of blocks, the code bits of the 30 header
bits and of 6 tail bits (the first 72) are interleaved reversibly. -/
theorem C19_header (p : OfdmParams) (h : Supported p) (n : Nat) (h1 : 1 ≤ n / 8) (h2 : n / 8 ≤ 2047) :
    ∃ code y, p.phyHeaderEncoded n = .ok code ∧ p.phyHeaderInterleaved n = .ok y ∧ 72 ≤ code.length ∧ y.length = code.length ∧
      (deinterleave p.interleaving p.option (lowestMcs p.option) y).take 72 = code.take 72 := by
  obtain ⟨e, hl⟩ := phyHeader_ok h h1 h2
  have hr := lowest_rate p.option (by have := option_cases h; simp; omega)
  have ec : p.phyHeaderEncoded n = .ok (rateHalfOut (rateHalfInit 0) (headerBits p (n / 8))) := by
    unfold OfdmParams.phyHeaderEncoded
    rw [e, hr]; rfl
  have ei : p.phyHeaderInterleaved n = .ok (p.interleaver (rateHalfOut (rateHalfInit 0) (headerBits p (n / 8))) (lowestMcs p.option)) := by
    unfold OfdmParams.phyHeaderInterleaved
    rw [ec]; rfl
  obtain ⟨ht, hpos⟩ := header_table h
  obtain ⟨e1, e2⟩ := table_eq h (MCS := lowestMcs p.option) (Or.inr rfl)
  have hlen : (rateHalfOut (rateHalfInit 0) (headerBits p (n / 8))).length = 2 * p.phrLength := by rw [rateHalfOut_length, hl]
  have h36 := C14.C14_sizes p h
  refine ⟨_, _, ec, ei, by omega, interleaver_length .., ?_⟩
  generalize rateHalfOut (rateHalfInit 0) (headerBits p (n / 8)) = x at *
  have hfull : ∀ p ∈ allSupported, 72 ≤ 2 * p.phrLength / p.intlBlock (lowestMcs p.option) * p.intlBlock (lowestMcs p.option) := by
    decide +kernel
  have h72 := hfull p (mem_allSupported h)
  have hb := interleaver_blocks h (MCS := lowestMcs p.option) (Or.inr rfl) x
  have hK := e1
  generalize hKK : p.intlBlock (lowestMcs p.option) = K at *
  have hsplit : x = x.take (x.length / K * K) ++ x.drop (x.length / K * K) := (List.take_append_drop _ _).symm
  have htl : (x.take (x.length / K * K)).length = x.length / K * K := by
    rw [List.length_take]; exact Nat.min_eq_left (Nat.div_mul_le_self _ _)
  have hd : deinterleave p.interleaving p.option (lowestMcs p.option) (p.interleaver x (lowestMcs p.option)) = x.take (x.length / K * K) := by
    unfold deinterleave
    rw [← hK, hb, List.flatMap_map]
    have e3 : (chunks K x).flatMap (fun a => (List.range K).map fun k =>
        (scatterBlock (p.intlIJ (lowestMcs p.option)) a).getD (position p.interleaving p.option (lowestMcs p.option) k) false) = (chunks K x).flatMap id := by
      apply List.flatMap_congr
      intro b hbm
      have := gather_position h (MCS := lowestMcs p.option) (Or.inr rfl) b (by rw [hKK]; exact mem_chunks_length hbm)
      rw [hKK] at this
      exact this
    rw [e3, List.flatMap_id]
    have : chunks K x = chunks K (x.take (x.length / K * K)) := by
      unfold chunks
      rw [htl, Nat.mul_div_cancel _ hpos]
      apply List.map_congr_left
      intro i hi
      rw [List.mem_range] at hi
      rw [List.drop_take, List.take_take]
      congr 1
      have : (i + 1) * K ≤ x.length / K * K := Nat.mul_le_mul_right _ hi
      rw [Nat.add_mul, Nat.one_mul] at this
      omega
    rw [this, chunks_flatten hpos _ (by rw [htl]; simp)]
  rw [hd, List.take_take]
  congr 1
  rw [hlen]
  omega

example : Supported ⟨6, 3, 1, 2⟩ ∧ depth 1 3 6 = 96 := ⟨⟨by decide, by decide, by decide⟩, by decide⟩

end SunPhy.C19
