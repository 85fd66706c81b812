import Verif.Proofs.OqpskIntl
/-
C50 — MR-O-QPSK interleaving.  As stated (no loss whatever the PSDU length) the claim is FALSE: from the second 126-bit block on the
index is not taken relative to the block.
-/
namespace SunPhy.C50
open SunPhy

/-- Position read by the interleaver for output `k` of a block of `10·6` (PHR) or `18·7` (PSDU) bits: row/column exchange in
reversed order. -/
def rowCol (rows cols k : Nat) : Nat := rows * ((rows * cols - 1 - k) % cols) + (rows * cols - 1 - k) / cols

theorem phr_eq (data : Bits) (h : data.length = 60) :
    oqpskInterleaver data false = .ok ((List.range 60).map fun k => data.getD (rowCol 10 6 k) false) := by
  unfold oqpskInterleaver
  rw [h]
  apply mapM_eq_ok
  intro k hk
  have hk := List.mem_range.1 hk
  have e : oqpskIntlIndex false k = (rowCol 10 6 k : Int) := by
    unfold oqpskIntlIndex rowCol
    simp only [Bool.false_eq_true, if_false]
    push_cast
    omega
  have hl : rowCol 10 6 k < 60 := by unfold rowCol; omega
  unfold pyGet
  rw [e]
  simp only
  rw [if_neg (by omega), if_neg (by omega), List.getD_eq_getElem?_getD, Int.toNat_natCast, List.getElem?_eq_getElem (by omega)]
  rfl

theorem psdu_one (data : Bits) (h : data.length = 126) :
    oqpskInterleaver data true = .ok ((List.range 126).map fun k => data.getD (rowCol 18 7 k) false) := by
  rw [psduInterleaver_eq 1 data (by omega)]
  congr 1

theorem perm_of_positions (n : Nat) (f : Nat → Nat) (hf : ((List.range n).map f).Perm (List.range n)) (data : Bits) (h : data.length = n) :
    ((List.range n).map fun k => data.getD (f k) false).Perm data := by
  have e : (List.range n).map (fun k => data.getD (f k) false) = ((List.range n).map f).map fun i => data.getD i false := by
    rw [List.map_map]; rfl
  rw [e]
  refine (hf.map _).trans ?_
  have : (List.range n).map (fun i => data.getD i false) = data := by
    apply List.ext_getElem?
    intro i
    rw [List.getElem?_map]
    by_cases hi : i < n
    · rw [List.getElem?_range hi]
      simp [List.getElem?_eq_getElem (show i < data.length by omega)]
    · rw [List.getElem?_eq_none (by simp; omega), List.getElem?_eq_none (by omega)]; rfl
  rw [this]

/-- **C50 (PHR).**  The interleaved header bit `k` is the coded bit at the row/column position; the output is a permutation of the
60 coded bits. -/
theorem C50_phr (data : Bits) (h : data.length = 60) :
    ∃ out, oqpskInterleaver data false = .ok out ∧ out.Perm data ∧ ∀ k < 60, out[k]? = data[rowCol 10 6 k]? := by
  refine ⟨_, phr_eq data h, perm_of_positions 60 _ (by decide +kernel) data h, fun k hk => ?_⟩
  have hl : rowCol 10 6 k < 60 := by unfold rowCol; omega
  rw [List.getElem?_map, List.getElem?_range hk]
  simp [List.getElem?_eq_getElem (show rowCol 10 6 k < data.length by omega)]

/-- **C50 (partial: one block).**  The same for a PSDU of one 126-bit block (messages of at most 7 octets). -/
theorem C50_one_block_partial (data : Bits) (h : data.length = 126) :
    ∃ out, oqpskInterleaver data true = .ok out ∧ out.Perm data ∧ ∀ k < 126, out[k]? = data[rowCol 18 7 k]? := by
  refine ⟨_, psdu_one data h, perm_of_positions 126 _ (by decide +kernel) data h, fun k hk => ?_⟩
  have hl : rowCol 18 7 k < 126 := by unfold rowCol; omega
  rw [List.getElem?_map, List.getElem?_range hk]
  simp [List.getElem?_eq_getElem (show rowCol 18 7 k < data.length by omega)]

/-- **C50 (what is lost).**  For `NB` blocks, two coded PSDUs have the same interleaver output exactly when they agree on the
positions below 126 and from `108·NB + 18` on: the coded bits `126 … 108·NB+17` are never transmitted. -/
theorem C50_lost (NB : Nat) (data data' : Bits) (h : data.length = 126 * NB) (h' : data'.length = 126 * NB) :
    oqpskInterleaver data true = oqpskInterleaver data' true ↔
      ∀ i < 126 * NB, i < 126 ∨ 108 * NB + 18 ≤ i → data[i]? = data'[i]? := by
  rw [psduInterleaver_eq NB data h, psduInterleaver_eq NB data' h']
  constructor
  · intro e i hi hc
    have e := Except.ok.inj e
    obtain ⟨k, hk, rfl⟩ := psduPos_surj NB i hi hc
    have := congrArg (fun l => l[k]?) e
    simp only [List.getElem?_map, List.getElem?_range hk, Option.map_some, Option.some.injEq, List.getD_eq_getElem?_getD] at this
    rw [List.getElem?_eq_getElem (by omega), List.getElem?_eq_getElem (by omega)] at this ⊢
    exact congrArg some this
  · intro hall
    congr 1
    apply List.map_congr_left
    intro k hk
    have hk := List.mem_range.1 hk
    obtain ⟨h1, h2, -⟩ := psduPos_cases NB k hk
    rw [List.getD_eq_getElem?_getD, List.getD_eq_getElem?_getD, hall _ h1 h2]

/-- **C50 (refutation).**  For two blocks or more (8 octets or more) there are different coded PSDUs with the same interleaver
output, and outputs that are not a permutation of the input. -/
theorem C50_false (NB : Nat) (h2 : 2 ≤ NB) :
    ∃ data data' out : Bits, data.length = 126 * NB ∧ data'.length = 126 * NB ∧ data ≠ data' ∧ oqpskInterleaver data true = .ok out ∧
      oqpskInterleaver data' true = .ok out ∧ ¬ out.Perm data := by
  have hz : (List.replicate (126 * NB) false : Bits).length = 126 * NB := by simp
  have hd : ((List.replicate (126 * NB) false : Bits).set 126 true).length = 126 * NB := by simp
  have hx : ((List.replicate (126 * NB) false : Bits).set 126 true)[126]? = some true := by
    rw [List.getElem?_set_self (by simp; omega)]
  refine ⟨(List.replicate (126 * NB) false).set 126 true, List.replicate (126 * NB) false, _, hd, hz, ?_, psduInterleaver_eq NB _ hd, ?_, ?_⟩
  · intro e
    rw [e, List.getElem?_replicate] at hx
    rw [if_pos (by omega)] at hx
    simp at hx
  · rw [← psduInterleaver_eq NB _ hd, eq_comm, C50_lost NB _ _ hd hz]
    intro i hi hc
    rw [List.getElem?_set_ne (by omega)]
  · intro hp
    have hm : true ∈ ((List.replicate (126 * NB) false : Bits).set 126 true) := List.mem_of_getElem? hx
    have := hp.mem_iff.2 hm
    simp only [List.mem_map, List.mem_range] at this
    obtain ⟨k, hk, e⟩ := this
    obtain ⟨h1, h3, -⟩ := psduPos_cases NB k hk
    rw [List.getD_eq_getElem?_getD, List.getElem?_set_ne (by omega), List.getElem?_replicate, if_pos h1] at e
    simp at e

/-- **C50 (no error).**  Interleaving never fails on coded PSDUs. -/
theorem C50_total (NB : Nat) (data : Bits) (h : data.length = 126 * NB) :
    ∃ out, oqpskInterleaver data true = .ok out ∧ out.length = data.length := ⟨_, psduInterleaver_eq NB data h, by simp [h]⟩

example : (List.replicate 60 true : Bits).length = 60 ∧ (oqpskFec (List.replicate 56 true) true).length = 126 ∧
    (oqpskFec (List.replicate 64 true) true).length = 126 * 2 := by decide +kernel

end SunPhy.C50
