import Verif.Spec.OfdmSupported
import Verif.Proofs.Lists
import Mathlib.Data.List.Nodup
import Mathlib.Data.List.Perm.Subperm
import Verif.Proofs.Conv
/-
Lemmas about the MR-OFDM interleaver and encoder of `Model/MrOfdm.lean`.
-/
namespace SunPhy
open Spec OfdmParams

theorem foldl_set_length {α} (ps : List (Nat × α)) (out : List α) :
    (ps.foldl (fun out p => out.set p.1 p.2) out).length = out.length := by
  induction ps generalizing out with
  | nil => rfl
  | cons p ps ih => rw [List.foldl_cons, ih, List.length_set]

theorem foldl_set_get {α} (ps : List (Nat × α)) (out : List α) (i : Nat) :
    (i ∉ ps.map (·.1) → (ps.foldl (fun out p => out.set p.1 p.2) out)[i]? = out[i]?) := by
  induction ps generalizing out with
  | nil => intro _; rfl
  | cons p ps ih =>
    intro h
    simp only [List.map_cons, List.mem_cons, not_or] at h
    rw [List.foldl_cons, ih _ h.2, List.getElem?_set_ne (Ne.symm h.1)]

theorem foldl_set_get_mem {α} (ps : List (Nat × α)) (out : List α) (hnd : (ps.map (·.1)).Nodup) (i : Nat) (v : α)
    (hm : (i, v) ∈ ps) (hi : i < out.length) : (ps.foldl (fun out p => out.set p.1 p.2) out)[i]? = some v := by
  induction ps generalizing out with
  | nil => simp at hm
  | cons p ps ih =>
    rw [List.map_cons, List.nodup_cons] at hnd
    rw [List.foldl_cons]
    rcases List.mem_cons.1 hm with h | h
    · subst h
      rw [foldl_set_get _ _ _ hnd.1, List.getElem?_set_self (by simpa using hi)]
    · exact ih _ hnd.2 h (by simpa using hi)

theorem scatterBlock_length (ij : List Nat) (blk : Bits) : (scatterBlock ij blk).length = blk.length := by
  unfold scatterBlock
  rw [foldl_set_length]; simp

/-- A list of indices that is a permutation of `0..n-1`, certified by a left inverse. -/
def IsPermTable (n : Nat) (ij : List Nat) : Prop := ij.length = n ∧ (∀ i ∈ ij, i < n) ∧ ij.Nodup

theorem scatterBlock_get {n : Nat} {ij : List Nat} (h : IsPermTable n ij) (blk : Bits) (hb : blk.length = n) (k : Nat) (hk : k < n) :
    (scatterBlock ij blk)[ij[k]'(by rw [h.1]; exact hk)]? = blk[k]? := by
  obtain ⟨h1, h2, h3⟩ := h
  unfold scatterBlock
  have hk1 : k < ij.length := by omega
  have hk2 : k < blk.length := by omega
  have hmem : (ij[k], blk[k]) ∈ ij.zip blk := by
    rw [List.mem_iff_getElem]
    exact ⟨k, by simp; omega, by simp⟩
  rw [foldl_set_get_mem (ij.zip blk) _ _ _ _ hmem, List.getElem?_eq_getElem hk2]
  · have : ij[k] < n := h2 _ (List.getElem_mem _)
    simpa [hb] using this
  · rw [List.map_fst_zip (by omega)]; exact h3

/-- Gathering with the same table undoes the scatter. -/
def gatherBlock (ij : List Nat) (blk : Bits) : Bits := ij.map fun i => blk.getD i false

theorem gather_scatter {n : Nat} {ij : List Nat} (h : IsPermTable n ij) (blk : Bits) (hb : blk.length = n) :
    gatherBlock ij (scatterBlock ij blk) = blk := by
  unfold gatherBlock
  apply List.ext_getElem?
  intro k
  by_cases hk : k < n
  · have hk1 : k < ij.length := by rw [h.1]; exact hk
    rw [List.getElem?_map, List.getElem?_eq_getElem hk1]
    simp only [Option.map_some]
    rw [List.getD_eq_getElem?_getD, scatterBlock_get h blk hb k hk, List.getElem?_eq_getElem (by omega)]
    simp
  · rw [List.getElem?_eq_none (by simp [h.1]; omega), List.getElem?_eq_none (by omega)]

theorem perm_range_of_table {n : Nat} {ij : List Nat} (h : IsPermTable n ij) : ij.Perm (List.range n) := by
  obtain ⟨h1, h2, h3⟩ := h
  have hs : ij.Subperm (List.range n) := by
    apply List.subperm_of_subset h3
    intro i hi
    simpa using h2 i hi
  exact hs.perm_of_length_le (by simp [h1])

/-- The scattered block is a rearrangement of the block. -/
theorem scatter_perm {n : Nat} {ij : List Nat} (h : IsPermTable n ij) (blk : Bits) (hb : blk.length = n) :
    (scatterBlock ij blk).Perm blk := by
  have e := gather_scatter h blk hb
  have hlen := scatterBlock_length ij blk
  generalize scatterBlock ij blk = out at *
  have p1 : (gatherBlock ij out).Perm ((List.range n).map fun i => out.getD i false) := (perm_range_of_table h).map _
  have p2 : (List.range n).map (fun i => out.getD i false) = out := by
    apply List.ext_getElem
    · simp [hlen, hb]
    · intro i hi1 hi2
      simp [List.getElem?_eq_getElem hi2]
  rw [e, p2] at p1
  exact p1.symm

/-- Inverse of the table, as formulas: undo the row/column permutation, then undo the swap inside pairs. -/
def intlInv (n nRow s i : Nat) : Nat := intlJ n nRow s (nRow * (i % (n / nRow)) + i / (n / nRow))

theorem table_of_inv {n : Nat} {ij : List Nat} (f : Nat → Nat) (hl : ij.length = n) (hb : ∀ i ∈ ij, i < n)
    (hf : ij.map f = List.range n) : IsPermTable n ij := by
  refine ⟨hl, hb, ?_⟩
  have : (ij.map f).Nodup := by rw [hf]; exact List.nodup_range
  exact List.Nodup.of_map f this

/-- The interleaver tables depend on the scrambler index not at all. -/
def mcsOptIntl : List OfdmParams :=
  ([(0, 1), (0, 2), (1, 1), (1, 2), (1, 3), (2, 1), (2, 2), (2, 3), (2, 4), (3, 1), (3, 2), (3, 3), (3, 4),
    (4, 2), (4, 3), (4, 4), (5, 2), (5, 3), (5, 4), (6, 3), (6, 4)] : List (Nat × Nat)).flatMap fun mo =>
    (List.range 2).map fun i => ⟨mo.1, mo.2, i, 0⟩

theorem mem_mcsOptIntl {p : OfdmParams} (h : Supported p) : { p with scrambler := 0 } ∈ mcsOptIntl := by
  obtain ⟨h1, h2, _⟩ := h
  unfold mcsOptIntl
  rw [List.mem_flatMap]
  refine ⟨(p.mcs, p.option), h1, ?_⟩
  rw [List.mem_map]
  exact ⟨p.interleaving, by simp; omega, rfl⟩

/-- Check of the table for a given MCS argument. -/
def tableCheck (p : OfdmParams) (MCS : Nat) : Bool :=
  let n := p.intlBlock MCS
  (p.intlIJ MCS).all (· < n) &&
    (p.intlIJ MCS).map (intlInv n (12 / freqSpreading MCS) (max 1 (nBpsc MCS / 2))) == List.range n && decide (0 < n)

theorem tables_ok : ∀ p ∈ mcsOptIntl, tableCheck p p.mcs = true ∧ tableCheck p (lowestMcs p.option) = true := by
  decide +kernel

theorem table_of_check {p : OfdmParams} {MCS : Nat} (h : tableCheck p MCS = true) :
    IsPermTable (p.intlBlock MCS) (p.intlIJ MCS) ∧ 0 < p.intlBlock MCS := by
  unfold tableCheck at h
  simp only [Bool.and_eq_true, List.all_eq_true, decide_eq_true_eq, beq_iff_eq] at h
  exact ⟨table_of_inv _ (by simp [intlIJ]) h.1.1 h.1.2, h.2⟩

theorem payload_table {p : OfdmParams} (h : Supported p) :
    IsPermTable (p.intlBlock p.mcs) (p.intlIJ p.mcs) ∧ 0 < p.intlBlock p.mcs :=
  table_of_check (p := p) (tables_ok _ (mem_mcsOptIntl h)).1

theorem header_table {p : OfdmParams} (h : Supported p) :
    IsPermTable (p.intlBlock (lowestMcs p.option)) (p.intlIJ (lowestMcs p.option)) ∧ 0 < p.intlBlock (lowestMcs p.option) :=
  table_of_check (p := p) (tables_ok _ (mem_mcsOptIntl h)).2

theorem interleaver_length (p : OfdmParams) (x : Bits) (MCS : Nat) : (p.interleaver x MCS).length = x.length := by
  unfold interleaver
  rw [List.length_append, flatMap_length_const _ (p.intlBlock MCS) _ (fun b hb => by rw [scatterBlock_length, mem_chunks_length hb]),
    chunks_length, List.length_replicate, Nat.mul_comm]
  exact Nat.div_add_mod _ _

end SunPhy
