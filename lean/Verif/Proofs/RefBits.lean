import Verif.Spec.OfdmReference
import Verif.Proofs.OfdmFrame
import Verif.Proofs.CrcDist
import Verif.Props.C05
import Verif.Props.C10
import Verif.Props.C16
import Verif.Props.C19
import Verif.Props.C20
import Verif.Props.C22
import Mathlib.Algebra.CharP.Two
import Mathlib.Algebra.Polynomial.Degree.Domain
/-
The bit-level functions of the model against those of `Spec/OfdmReference.lean`.
-/
namespace SunPhy
open Spec Polynomial

/-! ### PN9 -/

theorem pn9Step_bits : ∀ v < 512, (∀ j < 8, (pn9Step v).testBit j = v.testBit (j + 1)) ∧
    (pn9Step v).testBit 8 = (v.testBit 0 ^^ v.testBit 5) ∧ (pn9Out v == 1) = v.testBit 8 := by decide +kernel

theorem testBit_mod512 (v j : Nat) (h : j < 9) : (v % 512).testBit j = v.testBit j := by
  rw [show (512 : Nat) = 2 ^ 9 from rfl, Nat.testBit_mod_two_pow]; simp [h]

theorem lfsr_low {seed n : Nat} (h : n < 9) : Ref.lfsr seed n = seed.testBit n := by
  rw [Ref.lfsr, if_pos h]

theorem lfsr_high (seed n : Nat) : Ref.lfsr seed (n + 9) = (Ref.lfsr seed n ^^ Ref.lfsr seed (n + 5)) := by
  rw [Ref.lfsr, if_neg (by omega)]
  congr 2

theorem pn9_lfsr (seed : Nat) : ∀ n j, j < 9 → (pn9Step^[n] seed).testBit j = Ref.lfsr seed (n + j) := by
  intro n
  induction n with
  | zero => intro j hj; rw [Nat.zero_add, lfsr_low hj]; rfl
  | succ n ih =>
    intro j hj
    rw [Function.iterate_succ_apply', pn9Step_mod]
    obtain ⟨h1, h2, -⟩ := pn9Step_bits _ (Nat.mod_lt (pn9Step^[n] seed) (by decide))
    by_cases h8 : j < 8
    · rw [h1 j h8, testBit_mod512 _ _ (by omega), ih _ (by omega)]
      congr 1; omega
    · obtain rfl : j = 8 := by omega
      rw [h2, testBit_mod512 _ _ (by omega), testBit_mod512 _ _ (by omega), ih _ (by omega), ih _ (by omega),
        show n + 1 + 8 = n + 9 by omega, lfsr_high]
      rfl

/-- Output bit `k` of the generator. -/
theorem pn9Out_key (seed k : Nat) : (pn9Out (pn9Step^[k + 1] seed) == 1) = Ref.key seed k := by
  have hlt : pn9Step^[k + 1] seed < 512 := by rw [Function.iterate_succ_apply']; exact pn9Step_lt _
  rw [(pn9Step_bits _ hlt).2.2, pn9_lfsr _ _ _ (by omega)]
  rfl

/-! ### CRC -/

theorem field_eq (w v : Nat) : Ref.field w v = natBits w v := by
  unfold Ref.field natBits
  apply List.ext_getElem
  · simp
  · intro i h1 h2
    simp

/-- Coefficient of a bit. -/
noncomputable def cf (b : Bool) : (ZMod 2)[X] := if b then 1 else 0

theorem two_zero : (2 : (ZMod 2)[X]) = 0 := by
  exact CharTwo.two_eq_zero

theorem cf_xor (a b : Bool) : cf (a ^^ b) = cf a + cf b := by
  have : (2 : (ZMod 2)[X]) = 0 := two_zero
  cases a <;> cases b <;> simp [cf]
  linear_combination -this

theorem bitPoly_cons' (b : Bool) (l : Bits) : bitPoly (b :: l) = cf b * X ^ l.length + bitPoly l := by
  unfold bitPoly
  rw [List.map_cons, toPoly_cons, List.length_map]
  cases b <;> simp [cf]

theorem bits8 {r : Bits} (h : r.length = 8) : ∃ a b c d e f g i, r = [a, b, c, d, e, f, g, i] := by
  match r, h with
  | [a, b, c, d, e, f, g, i], _ => exact ⟨a, b, c, d, e, f, g, i, rfl⟩

theorem crcClock_spec {r : Bits} (h : r.length = 8) (b : Bool) : (Ref.crcClock r b).length = 8 ∧
    ∃ q, bitPoly (Ref.crcClock r b) = X * bitPoly r + X ^ 8 * cf b + q * G := by
  obtain ⟨a7, a6, a5, a4, a3, a2, a1, a0, rfl⟩ := bits8 h
  refine ⟨rfl, cf a7 + cf b, ?_⟩
  have h2 : (2 : (ZMod 2)[X]) = 0 := two_zero
  unfold Ref.crcClock
  simp only [bitPoly_cons', bitPoly_nil, List.length_cons, List.length_nil, cf_xor]
  unfold G
  linear_combination (-(cf a7 + cf b) * X ^ 8) * h2

theorem crc_fold (x : Bits) : ∀ r : Bits, r.length = 8 → (x.foldl Ref.crcClock r).length = 8 ∧
    ∃ q, bitPoly (x.foldl Ref.crcClock r) = X ^ x.length * bitPoly r + X ^ 8 * bitPoly x + q * G := by
  induction x with
  | nil => intro r h; exact ⟨h, 0, by simp [bitPoly_nil]⟩
  | cons b x ih =>
    intro r h
    obtain ⟨h1, q1, e1⟩ := crcClock_spec h b
    obtain ⟨h2, q2, e2⟩ := ih _ h1
    refine ⟨h2, q2 + X ^ x.length * q1, ?_⟩
    rw [List.foldl_cons, e2, e1, bitPoly_cons', List.length_cons, pow_succ]
    ring

theorem bitPoly_degree (b : Bits) : (bitPoly b).degree < b.length := by
  have := toPoly_degree (b.map fun x => if x then 1 else 0)
  rwa [List.length_map] at this

theorem modByMonic_of_eq {f r q : (ZMod 2)[X]} (h : r = f + q * G) (hd : r.degree < 8) : r = f %ₘ G := by
  have : f %ₘ G = r %ₘ G := by
    rw [h, add_modByMonic]
    have : (q * G) %ₘ G = 0 := by rw [modByMonic_eq_zero_iff_dvd G_monic]; exact Dvd.intro_left q rfl
    rw [this, add_zero]
  rw [this, (modByMonic_eq_self_iff G_monic).2]
  rw [G_degree]; exact hd

/-- The CRC register of the reference computes the HCS of the code. -/
theorem hcs_crc8 (x : Bits) (hx : x.length = 22) : hcsCalculation x = (Ref.crc8 x).map fun b => if b then 1 else 0 := by
  obtain ⟨h8, q, e⟩ := crc_fold x (List.replicate 8 true) (by simp)
  symm
  apply C16.C16_unique
  · unfold Ref.crc8
    rw [List.length_map, List.length_map, h8]
  · intro y hy
    obtain ⟨b, -, rfl⟩ := List.mem_map.1 hy
    cases b <;> simp
  · unfold Ref.crc8
    rw [List.map_map, List.map_map]
    have e2 : (x.foldl Ref.crcClock (List.replicate 8 true)).map (((fun x : Int => 1 - x) ∘ fun b : Bool => if b then (1 : Int) else 0) ∘ not) =
        (x.foldl Ref.crcClock (List.replicate 8 true)).map fun b => if b then 1 else 0 := by
      apply List.map_congr_left
      intro b _
      cases b <;> rfl
    rw [e2]
    have hones : bitPoly (List.replicate 8 true) = X ^ 7 + X ^ 6 + X ^ 5 + X ^ 4 + X ^ 3 + X ^ 2 + X + 1 := by
      simp only [List.replicate, bitPoly_cons', bitPoly_nil, cf, List.length_cons, List.length_nil, if_true]
      ring
    rw [hones, hx] at e
    have hd := bitPoly_degree (x.foldl Ref.crcClock (List.replicate 8 true))
    rw [h8] at hd
    exact modByMonic_of_eq (r := bitPoly (x.foldl Ref.crcClock (List.replicate 8 true))) e (by exact_mod_cast hd)

theorem hcs_bits (x : Bits) (hx : x.length = 22) : (hcsCalculation x).map (· == 1) = Ref.crc8 x := by
  rw [hcs_crc8 x hx, List.map_map]
  conv_rhs => rw [← List.map_id (Ref.crc8 x)]
  apply List.map_congr_left
  intro b _
  cases b <;> rfl

/-! ### Codes -/

theorem conv_eq (x : Bits) : rateHalfOut (rateHalfInit 0) x = Ref.conv x := by
  obtain ⟨hl, ht⟩ := C10.C10_taps x
  apply List.ext_getElem?
  intro q
  unfold Ref.conv
  by_cases hq : q < 2 * x.length
  · rw [List.getElem?_map, List.getElem?_range hq]
    simp only [Option.map_some]
    obtain ⟨h1, h2⟩ := ht (q / 2) (by omega)
    by_cases h0 : q % 2 = 0
    · rw [if_pos h0, ← h1]; congr 1; omega
    · rw [if_neg h0, ← h2]; congr 1; omega
  · rw [List.getElem?_eq_none (by omega), List.getElem?_eq_none (by simp; omega)]

theorem puncture_get (k : Nat) : ∀ l : Bits, l.length = 6 * k → C12.puncture l =
    (List.range (4 * k)).map fun q => l.getD (6 * (q / 4) + [0, 1, 2, 5].getD (q % 4) 0) false := by
  induction k with
  | zero =>
    intro l hl
    have : l = [] := List.length_eq_zero_iff.1 (by simpa using hl)
    subst this; rfl
  | succ k ih =>
    intro l hl
    match l, hl with
    | a :: b :: c :: d :: e :: f :: l, hl =>
      have hl' : l.length = 6 * k := by simp only [List.length_cons] at hl; omega
      rw [C12.puncture_row, ih l hl', show 4 * (k + 1) = 4 * k + 1 + 1 + 1 + 1 by omega]
      rw [List.range_succ_eq_map, List.range_succ_eq_map, List.range_succ_eq_map, List.range_succ_eq_map]
      simp only [List.map_cons, List.map_map]
      congr 1
      congr 1
      congr 1
      congr 1
      apply List.map_congr_left
      intro q _
      simp only [Function.comp, Nat.succ_eq_add_one]
      rw [show (q + 1 + 1 + 1 + 1) / 4 = q / 4 + 1 by omega, show (q + 1 + 1 + 1 + 1) % 4 = q % 4 by omega,
        show 6 * (q / 4 + 1) + [0, 1, 2, 5].getD (q % 4) 0 = 6 * (q / 4) + [0, 1, 2, 5].getD (q % 4) 0 + 1 + 1 + 1 + 1 + 1 + 1 by omega]
      simp only [List.getD_cons_succ]

theorem conv34_eq {x : Bits} (h : x.length % 3 = 0) : C12.puncture (rateHalfOut (rateHalfInit 0) x) = Ref.conv34 x := by
  obtain ⟨k, hk⟩ := Nat.dvd_of_mod_eq_zero h
  rw [puncture_get k _ (by rw [rateHalfOut_length, hk]; omega), conv_eq]
  unfold Ref.conv34
  rw [show 4 * x.length / 3 = 4 * k by omega]

theorem find_range_inv {K : Nat} {f : Nat → Nat} (hinj : ∀ a < K, ∀ b < K, f a = f b → a = b) {k : Nat} (hk : k < K) :
    ((List.range K).find? fun a => f a == f k).getD 0 = k := by
  cases h : (List.range K).find? fun a => f a == f k with
  | none =>
    rw [List.find?_eq_none] at h
    have := h k (by simpa using hk)
    simp at this
  | some a =>
    have h1 := List.find?_some h
    have h2 := List.mem_of_find?_eq_some h
    rw [List.mem_range] at h2
    exact hinj a h2 k hk (by simpa using h1)

theorem interleave_eq {p : OfdmParams} (h : Supported p) {MCS : Nat} (hM : MCS = p.mcs ∨ MCS = lowestMcs p.option) (x : Bits) :
    p.interleaver x MCS = Ref.interleave (depth p.interleaving p.option MCS) (rows MCS) (step MCS) x := by
  obtain ⟨ht, hpos⟩ := C19.table_ok h hM
  obtain ⟨e1, e2⟩ := C19.table_eq h hM
  have hB := C19.interleaver_blocks h hM x
  have hlen := interleaver_length p x MCS
  have hposn : ∀ k, C19.position p.interleaving p.option MCS k =
    perm1 (depth p.interleaving p.option MCS) (rows MCS) (perm2 (depth p.interleaving p.option MCS) (rows MCS) (step MCS) k) := fun _ => rfl
  have htail : p.interleaver x MCS = (chunks (p.intlBlock MCS) x).flatMap (OfdmParams.scatterBlock (p.intlIJ MCS)) ++
      List.replicate (x.length % p.intlBlock MCS) false := rfl
  rw [e1] at hB ht hpos htail
  generalize hK : depth p.interleaving p.option MCS = K at *
  have hperm := perm_range_of_table ht
  have hinj : ∀ a < K, ∀ b < K, perm1 K (rows MCS) (perm2 K (rows MCS) (step MCS) a) = perm1 K (rows MCS) (perm2 K (rows MCS) (step MCS) b) → a = b := by
    intro a ha b hb hab
    have hnd : (p.intlIJ MCS).Nodup := hperm.nodup_iff.2 List.nodup_range
    have hl : (p.intlIJ MCS).length = K := by rw [e2]; simp
    have := (List.nodup_iff_injective_get.1 hnd) (a₁ := ⟨a, by omega⟩) (a₂ := ⟨b, by omega⟩)
      (by simp only [List.get_eq_getElem]; simp only [e2, List.getElem_map, List.getElem_range]; rw [hposn, hposn]; exact hab)
    simpa using this
  apply List.ext_getElem?
  intro i
  unfold Ref.interleave
  by_cases hi : i < x.length
  · rw [List.getElem?_map, List.getElem?_range hi]
    simp only [Option.map_some]
    by_cases hb : (i / K + 1) * K ≤ x.length
    · rw [if_pos hb]
      have hbk : i / K < x.length / K := by
        rw [Nat.lt_iff_add_one_le, Nat.le_div_iff_mul_le hpos]; exact hb
      have hr := Nat.mod_lt i hpos
      have hmem : i % K ∈ p.intlIJ MCS := by rw [hperm.mem_iff]; simpa using hr
      rw [e2, List.mem_map] at hmem
      obtain ⟨k, hk, hpk⟩ := hmem
      rw [List.mem_range] at hk
      rw [hposn] at hpk
      have hsrc : Ref.source K (rows MCS) (step MCS) (i % K) = k := by
        unfold Ref.source
        rw [← hpk]
        exact find_range_inv (f := fun k => perm1 K (rows MCS) (perm2 K (rows MCS) (step MCS) k)) hinj hk
      rw [hsrc]
      have hidx : i = i / K * K + i % K := by rw [Nat.mul_comm]; exact (Nat.div_add_mod i K).symm
      have chunkGet : ∀ (y : Bits), y.length = x.length → ∀ j, j < K → y[i / K * K + j]? = ((chunks K y)[i / K]?.getD [])[j]? := by
        intro y hy j hj
        have hby : i / K < y.length / K := by rw [hy]; exact hbk
        unfold chunks
        rw [List.getElem?_map, List.getElem?_range hby]
        simp only [Option.map_some, Option.getD_some]
        rw [List.getElem?_take, if_pos hj, List.getElem?_drop]
      conv_lhs => rw [hidx]
      rw [chunkGet _ hlen _ hr, hB, List.getElem?_map]
      have hbl : i / K < (chunks K x).length := by rw [chunks_length]; exact hbk
      rw [List.getElem?_eq_getElem hbl]
      simp only [Option.map_some, Option.getD_some]
      have hlk : i / K * K + k < x.length := by
        rw [Nat.add_mul, Nat.one_mul] at hb; omega
      have := scatterBlock_get ht (chunks K x)[i / K] (mem_chunks_length (List.getElem_mem _)) k hk
      have e3 : (p.intlIJ MCS).getD k 0 = i % K := by
        rw [e2, List.getD_eq_getElem?_getD, List.getElem?_map, List.getElem?_range hk]
        simp only [Option.map_some, Option.getD_some]
        rw [hposn]; exact hpk
      have h4 := chunkGet x rfl k hk
      rw [List.getElem?_eq_getElem hbl, Option.getD_some, List.getElem?_eq_getElem hlk] at h4
      rw [List.getD_eq_getElem?_getD, List.getElem?_eq_getElem hlk, Option.getD_some, h4, ← this]
      congr 1
      rw [← e3, List.getD_eq_getElem?_getD, List.getElem?_eq_getElem (by rw [e2]; simpa using hk)]
      rfl
    · rw [if_neg hb]
      rw [htail]
      have hl1 : ((chunks K x).flatMap (OfdmParams.scatterBlock (p.intlIJ MCS))).length = x.length / K * K := by
        rw [flatMap_length_const _ K, chunks_length]
        intro b hb
        rw [scatterBlock_length, mem_chunks_length hb]
      have hge : x.length / K * K ≤ i := by
        by_contra hlt
        apply hb
        have : i / K < x.length / K := by
          by_contra hc
          have h2 : x.length / K * K ≤ i / K * K := Nat.mul_le_mul_right _ (by omega)
          have h3 := Nat.div_mul_le_self i K
          omega
        calc (i / K + 1) * K ≤ x.length / K * K := Nat.mul_le_mul_right _ this
          _ ≤ x.length := Nat.div_mul_le_self _ _
      have hmod : x.length % K = x.length - x.length / K * K := by
        have := Nat.div_add_mod x.length K
        rw [Nat.mul_comm] at this; omega
      rw [List.getElem?_append_right (by omega), List.getElem?_replicate, if_pos (by omega)]
  · rw [List.getElem?_eq_none (by omega), List.getElem?_eq_none (by simp; omega)]

end SunPhy
