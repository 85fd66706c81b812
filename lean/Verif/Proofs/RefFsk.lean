import Verif.Spec.FskReference
import Verif.Proofs.RefBits
import Verif.Props.C34
import Verif.Props.C37
import Verif.Props.C38
import Verif.Props.C42
/-
The stages of an MR-FSK frame in the closed form of `Spec/FskReference.lean`.
-/
namespace SunPhy
open Spec Complex

theorem range_map_ext {α} {l : List α} {n : Nat} (hl : l.length = n) (f : Nat → α) (h : ∀ i, i < n → l[i]? = some (f i)) :
    l = (List.range n).map f := by
  apply List.ext_getElem?
  intro i
  by_cases hi : i < n
  · rw [h i hi, List.getElem?_map, List.getElem?_range hi]; rfl
  · rw [List.getElem?_eq_none (by omega), List.getElem?_eq_none (by simp; omega)]

theorem fsk_preamble_ref (p : FskParams) : tile (fskPreamble p.modulation) p.preambleLength = RefF.preamble p := by
  unfold RefF.preamble
  have key := fun i => C34.preamble_getElem? p.modulation p.preambleLength i
  cases hm : p.modulation with
  | FSK2 =>
    rw [hm] at key
    refine range_map_ext (by rw [C34.tile_length]; simp [fskPreamble, tile]; omega) _ fun i hi => ?_
    rw [key i (by simp only [C34.preambleUnit]; omega)]
    simp only [C34.preambleBit]
    congr 1
  | FSK4 =>
    rw [hm] at key
    refine range_map_ext (by rw [C34.tile_length]; simp [fskPreamble, tile]; omega) _ fun i hi => ?_
    rw [key i (by simp only [C34.preambleUnit]; omega)]
    simp only [C34.preambleBit]
    congr 1
    have : i % 4 < 4 := Nat.mod_lt _ (by decide)
    generalize i % 4 = r at *
    clear key hi hm
    revert r; decide

theorem fsk_sfd_ref (p : FskParams) : fskSfd p.modulation p.sfd p.fecEnabled = RefF.sfd p := by
  unfold RefF.sfd
  generalize p.sfd = s
  generalize p.fecEnabled = c
  cases p.modulation <;> simp only
  · rw [field_eq]
    cases c <;> rcases s with _ | s <;> simp only [fskSfd, RefF.sfd2]
  · cases c <;> rcases s with _ | s <;> simp only [fskSfd, RefF.sfd2] <;> decide +kernel

theorem fsk_shr_ref (p : FskParams) : p.shr = RefF.preamble p ++ RefF.sfd p := by
  unfold FskParams.shr
  rw [fsk_preamble_ref, fsk_sfd_ref]

theorem fsk_header_ref (p : FskParams) {n : Nat} (h : n < 2048) : p.phr n = .ok (RefF.header p n) := by
  rw [fsk_phr_ok p h]
  unfold RefF.header
  rw [field_eq]

theorem fsk_pad_ref (x m : Bits) (hx : x.length = 16 + m.length) : C36.pad x.length = RefF.pad (m.length / 8) := by
  unfold C36.pad RefF.pad
  rw [field_eq, field_eq, hx]
  by_cases h : m.length / 8 % 2 = 0
  · rw [if_pos h, if_pos (by omega)]
  · rw [if_neg h, if_neg (by omega)]

theorem rsc_unfold (x q : Bits) (n : Nat) : RefF.rsc x q n =
    if x.length ≤ n ∧ n < x.length + 3 then false
    else xor (if n < x.length then RefF.at_ x n else RefF.at_ q (n - x.length - 3))
      (xor (if 1 ≤ n then RefF.rsc x q (n - 1) else false)
        (xor (if 2 ≤ n then RefF.rsc x q (n - 2) else false) (if 3 ≤ n then RefF.rsc x q (n - 3) else false))) := by
  rw [RefF.rsc]

theorem coded_ref (s : Nat) (x q : Bits) (hq : q = C36.pad x.length) : fskFec s x = RefF.coded s x q := by
  unfold RefF.coded
  by_cases hs : s = 0
  · subst hs
    obtain ⟨hl, hg⟩ := C36.C64_nrnsc x (x ++ [false, false, false] ++ q) (by rw [hq])
    simp only [List.length_append, List.length_cons, List.length_nil] at hl hg
    refine range_map_ext hl _ fun i hi => ?_
    simp only [if_true]
    obtain ⟨h0, h1⟩ := hg (i / 2) (by omega)
    by_cases hi2 : i % 2 = 0
    · rw [if_pos hi2, ← h0]; congr 1; omega
    · rw [if_neg hi2, ← h1]; congr 1; omega
  · rw [C38.fec_scheme hs]
    obtain ⟨tail, y, w, ht, hy, hw, hl, hz, hg⟩ := C36.C64_rsc x
    rw [← hq] at hy
    have hyl : y.length = x.length + 3 + q.length := by rw [hy]; simp [ht]; omega
    have hwr : ∀ n, n < y.length → w.getD n false = RefF.rsc x q n := by
      intro n
      induction n using Nat.strong_induction_on with
      | _ n ih =>
        intro hn
        rw [rsc_unfold]
        by_cases hc : x.length ≤ n ∧ n < x.length + 3
        · rw [if_pos hc]
          have := hz (n - x.length) (by omega)
          rw [show x.length + (n - x.length) = n by omega] at this
          rw [List.getD_eq_getElem?_getD, this]; rfl
        · rw [if_neg hc, List.getD_eq_getElem?_getD, (hg n hn).1, Option.getD_some]
          have hx : y.getD n false = if n < x.length then RefF.at_ x n else RefF.at_ q (n - x.length - 3) := by
            unfold RefF.at_
            rw [hy, List.getD_eq_getElem?_getD, List.getD_eq_getElem?_getD, List.getD_eq_getElem?_getD]
            split
            · rename_i h; rw [List.append_assoc, List.getElem?_append_left h]
            · rename_i h
              rw [List.getElem?_append_right (by simp [ht]; omega)]
              simp only [List.length_append, ht, Nat.sub_sub]
          rw [hx]
          have hd : ∀ d, 1 ≤ d → delayed w n d = if d ≤ n then RefF.rsc x q (n - d) else false := by
            intro d hd
            unfold delayed
            split
            · exact ih (n - d) (by omega) (by omega)
            · rfl
          simp [tapSum, hd]
    have hback : ∀ n d, n < y.length → RefF.back x q n d = delayed w n d := by
      intro n d hn
      unfold RefF.back delayed
      split
      · exact (hwr (n - d) (by omega)).symm
      · rfl
    refine range_map_ext (by rw [hl, hyl]) _ fun i hi => ?_
    simp only [hs, if_false]
    have hn : i / 2 < y.length := by omega
    obtain ⟨hr, h0, h1⟩ := hg (i / 2) hn
    by_cases hi2 : i % 2 = 0
    · rw [if_pos hi2, hback _ _ hn, hback _ _ hn, hback _ _ hn]
      rw [show i = 2 * (i / 2) by omega] 
      rw [h0]
      simp [tapSum]
    · rw [if_neg hi2, hback _ _ hn, hback _ _ hn, hback _ _ hn, hback _ _ hn]
      have e : delayed w (i / 2) 0 = (y.getD (i / 2) false ^^ tapSum [1, 2, 3] w (i / 2)) := by
        unfold delayed
        simp only [Nat.zero_le, if_true, Nat.sub_zero]
        rw [List.getD_eq_getElem?_getD, hr]; rfl
      rw [e, show i = 2 * (i / 2) + 1 by omega, h1]
      simp [tapSum, show (2 * (i / 2) + 1) / 2 = i / 2 by omega]

theorem fsk_perm : ∀ t < 16, 15 - 4 * ((4 * ((15 - t) % 4) + (15 - t) / 4) % 4) - (4 * ((15 - t) % 4) + (15 - t) / 4) / 4 = t ∧
    4 * ((15 - t) % 4) + (15 - t) / 4 < 16 := by decide

theorem interleave_ref {x : Bits} (h : x.length % 32 = 0) : fskInterleaver x = .ok (RefF.interleave x) := by
  obtain ⟨out, ho⟩ := (C37.C39_accepts x).1.2 h
  rw [ho]
  congr 1
  have hl := (C37.C39_involution x out ho).2
  unfold RefF.interleave
  refine range_map_ext hl _ fun i hi => ?_
  have hp := C37.C39_permutation x out ho (i / 32)
  obtain ⟨e, hlt⟩ := fsk_perm (i % 32 / 2) (by omega)
  simp only
  generalize hu : 4 * ((15 - i % 32 / 2) % 4) + (15 - i % 32 / 2) / 4 = u at *
  have := hp (2 * u + i % 2) (by omega) (by omega)
  rw [show (2 * u + i % 2) / 2 = u by omega, show (2 * u + i % 2) % 2 = i % 2 by omega, e,
    show 32 * (i / 32) + 2 * (i % 32 / 2) + i % 2 = i by omega] at this
  rw [this]
  unfold RefF.at_
  rw [List.getD_eq_getElem?_getD, show i / 32 * 32 + 2 * u + i % 2 = 32 * (i / 32) + (2 * u + i % 2) by omega,
    List.getElem?_eq_getElem (by omega)]
  rfl

theorem whiten_ref (p : FskParams) (x : Bits) : fskWhiten p x =
    (List.range x.length).map fun i =>
      if p.scramble ∧ (if p.fecEnabled then 32 else 16) ≤ i then xor (Ref.key 0x1FF (i - if p.fecEnabled then 32 else 16)) (RefF.at_ x i)
      else RefF.at_ x i := by
  unfold fskWhiten
  cases p.scramble
  · simp only [Bool.false_eq_true, if_false, false_and]
    refine range_map_ext rfl _ fun i hi => ?_
    rw [List.getElem?_eq_getElem hi]; simp [RefF.at_, hi]
  · simp only [if_true, true_and]
    generalize (if p.fecEnabled = true then 32 else 16) = st
    have hsl : (scrambler (x.drop st)).length = x.length - st := by rw [(C07.C07_keystream _ _).1]; simp
    refine range_map_ext (by simp [hsl]; omega) _ fun i hi => ?_
    by_cases h : st ≤ i
    · rw [if_pos h, List.getElem?_append_right (by simp; omega), List.length_take, show min st x.length = st by omega]
      rw [C07.scrambler_eq, List.getElem?_zipWith, List.getElem?_map, List.getElem?_range (by simp; omega), List.getElem?_drop,
        show st + (i - st) = i by omega, List.getElem?_eq_getElem hi]
      simp only [RefF.at_, List.getD_eq_getElem?_getD, List.getElem?_eq_getElem hi, Option.getD_some, Option.map_some, pn9Out_key]
    · rw [if_neg h, List.getElem?_append_left (by simp; omega)]
      simp [RefF.at_, hi, List.getElem?_take]; omega

end SunPhy
