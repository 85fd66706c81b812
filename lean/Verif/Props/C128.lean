import Verif.Model.BitsFull
import Verif.Props.C04
import Verif.Model.MrOqpskTables
import Verif.Model.MrFsk
/-
C128 — the bit helpers for arguments of any type and sign: `to_bin` is two's complement, `to_int`, `from_bitstring`.
-/
namespace SunPhy.C128
open SunPhy C04

/-- Two's complement value of digits, most significant first. -/
def signedMSB (b : Bits) : Int := (denotesMSB b : Int) - (if b.head? = some true then 2 ^ b.length else 0)

theorem denotes_append (a b : Bits) : denotesMSB (a ++ b) = denotesMSB a * 2 ^ b.length + denotesMSB b := by
  have key : ∀ (b : Bits) (acc : Nat), b.foldl (fun acc x => 2 * acc + (if x then 1 else 0)) acc = acc * 2 ^ b.length + denotesMSB b := by
    intro b
    induction b with
    | nil => intro acc; simp [denotesMSB]
    | cons x b ih =>
      intro acc
      unfold denotesMSB
      rw [List.foldl_cons, List.foldl_cons, ih, ih (2 * 0 + _), List.length_cons, Nat.pow_succ]
      ring
  unfold denotesMSB at *
  rw [List.foldl_append, key]

theorem denotes_false (m : Nat) : denotesMSB (List.replicate m false) = 0 := by
  induction m with
  | zero => rfl
  | succ m ih => rw [List.replicate_succ', denotes_append, ih]; rfl

theorem denotes_true (m : Nat) : denotesMSB (List.replicate m true) + 1 = 2 ^ m := by
  induction m with
  | zero => rfl
  | succ m ih =>
    rw [List.replicate_succ', denotes_append, Nat.pow_succ]
    have : denotesMSB [true] = 1 := rfl
    rw [this, List.length_singleton]
    omega

theorem denotes_natBits (w n : Nat) (h : n < 2 ^ w) : denotesMSB (natBits w n) = n := by
  rw [denotesMSB_eq, natBits_reverse, leValue_range w n h]

theorem lt_digits (n : Nat) : n < 2 ^ binDigits n := Nat.lt_log2_self

theorem digits_le {n : Nat} (h : n ≠ 0) : 2 ^ (binDigits n - 1) ≤ n := Nat.log2_self_le h

theorem digits_eq {n p : Nat} (h1 : 2 ^ p ≤ n) (h2 : n < 2 ^ (p + 1)) : binDigits n = p + 1 := by
  have h0 : n ≠ 0 := by have := Nat.two_pow_pos p; omega
  unfold binDigits
  rw [(Nat.log2_eq_iff h0).2 ⟨h1, h2⟩]

/-- **C128 (to_bin, non-negative).**  The result has `width` digits, or as many as the number needs if these are more (`ValueError` in releases of numpy that are strict), and denotes the number. -/
theorem C128_to_bin_nonneg (strict : Bool) (k : Int) (hk : 0 ≤ k) (width : Nat) (b : Bits) (h : toBinVal strict (.int k) width true = .ok b) :
    (denotesMSB b : Int) = k ∧ (b.length = max width 1 ∨ max width 1 < b.length ∧ (2 : Int) ^ (b.length - 1) ≤ k ∧ strict = false) := by
  unfold toBinVal binaryReprInt at h
  simp only [PyVal.asInt?] at h
  by_cases h0 : k = 0
  · rw [if_pos h0] at h
    have := Except.ok.inj h
    simp only [if_true] at this
    rw [← this, denotes_false]
    refine ⟨by rw [h0]; rfl, Or.inl ?_⟩
    rw [List.length_replicate]
    split <;> omega
  · rw [if_neg h0, if_pos (by omega)] at h
    by_cases hs : (strict && decide (width < binDigits k.toNat)) = true
    · rw [if_pos hs] at h; exact absurd h (by simp [Except.map])
    · rw [if_neg hs] at h
      have e := Except.ok.inj h
      simp only [if_true] at e
      have hn : ((k.toNat : Nat) : Int) = k := Int.toNat_of_nonneg hk
      have hl : b.length = max (binDigits k.toNat) width := by rw [← e, List.length_append, List.length_replicate, natBits_length]; omega
      refine ⟨?_, ?_⟩
      · rw [← e, denotes_append, denotes_false, denotes_natBits _ _ (lt_digits _), Nat.zero_mul, Nat.zero_add, hn]
      · have d1 : 1 ≤ binDigits k.toNat := by unfold binDigits; omega
        by_cases hw : binDigits k.toNat ≤ max width 1
        · left; omega
        · refine Or.inr ⟨by omega, ?_, ?_⟩
          · rw [show b.length = binDigits k.toNat by omega, ← hn]
            exact_mod_cast digits_le (show k.toNat ≠ 0 by omega)
          · simp only [Bool.and_eq_true, decide_eq_true_eq, not_and] at hs
            cases strict
            · rfl
            · exact absurd (show width < binDigits k.toNat by omega) (hs rfl)

/-- Width of the two's complement of `-n`. -/
theorem twocomp_facts (n : Nat) (hn : 1 ≤ n) :
    let poswidth := if 2 ^ (binDigits n - 1) = n then binDigits n - 1 else binDigits n
    n ≤ 2 ^ poswidth ∧ (1 ≤ poswidth → 2 ^ (poswidth - 1) < n) ∧ binDigits (2 ^ (poswidth + 1) - n) = poswidth + 1 := by
  intro poswidth
  have h1 := lt_digits n
  have h2 := digits_le (show n ≠ 0 by omega)
  have d1 : 1 ≤ binDigits n := by unfold binDigits; omega
  have a : n ≤ 2 ^ poswidth ∧ (1 ≤ poswidth → 2 ^ (poswidth - 1) < n) := by
    by_cases hp : 2 ^ (binDigits n - 1) = n
    · have e : poswidth = binDigits n - 1 := if_pos hp
      rw [e]
      refine ⟨by omega, fun h => ?_⟩
      have : 2 ^ (binDigits n - 1) = 2 * 2 ^ (binDigits n - 1 - 1) := by rw [← Nat.pow_succ']; congr 1; omega
      omega
    · have e : poswidth = binDigits n := if_neg hp
      rw [e]
      exact ⟨by omega, fun _ => by omega⟩
  have hp : 2 ^ (poswidth + 1) = 2 * 2 ^ poswidth := Nat.pow_succ'
  exact ⟨a.1, a.2, digits_eq (by omega) (by omega)⟩

/-- **C128 (to_bin, negative).**  The result is the number in two's complement, with `width` digits, or as many as it needs if these are more (`ValueError` in strict releases). -/
theorem C128_to_bin_negative (strict : Bool) (k : Int) (hk : k < 0) (width : Nat) (b : Bits) (h : toBinVal strict (.int k) width true = .ok b) :
    signedMSB b = k ∧ b.head? = some true ∧ (b.length = max width 1 ∨ max width 1 < b.length ∧ k < -2 ^ (b.length - 2) ∧ strict = false) := by
  unfold toBinVal binaryReprInt at h
  simp only [PyVal.asInt?] at h
  rw [if_neg (by omega), if_neg (by omega)] at h
  have hn : (((-k).toNat : Nat) : Int) = -k := Int.toNat_of_nonneg (by omega)
  obtain ⟨f1, f2, f3⟩ := twocomp_facts (-k).toNat (by omega)
  generalize (-k).toNat = n at *
  generalize (if 2 ^ (binDigits n - 1) = n then binDigits n - 1 else binDigits n) = p at *
  rw [f3] at h
  have hp : 2 ^ (p + 1) = 2 * 2 ^ p := Nat.pow_succ'
  by_cases hs : (strict && decide (width < p + 1)) = true
  · rw [if_pos hs] at h; exact absurd h (by simp [Except.map])
  · rw [if_neg hs] at h
    have e := Except.ok.inj h
    simp only [if_true] at e
    have hl : b.length = max (p + 1) width := by rw [← e, List.length_append, List.length_replicate, natBits_length]; omega
    have hh : b.head? = some true := by
      rw [← e]
      by_cases hm : max (p + 1) width - (p + 1) = 0
      · rw [hm, List.replicate_zero, List.nil_append, List.head?_eq_getElem?, natBits_getElem? _ _ _ (by omega)]
        congr 1
        rw [show p + 1 - 1 - 0 = p by omega, Nat.testBit_eq_decide_div_mod_eq, decide_eq_true_eq,
          show (2 ^ (p + 1) - n) / 2 ^ p = 1 from Nat.div_eq_of_lt_le (by omega) (by omega)]
      · obtain ⟨m, hm'⟩ := Nat.exists_eq_succ_of_ne_zero hm
        rw [hm', List.replicate_succ]; rfl
    refine ⟨?_, hh, ?_⟩
    · unfold signedMSB
      rw [if_pos hh, hl]
      have hd : denotesMSB b + 2 ^ (p + 1) = 2 ^ (max (p + 1) width) + (2 ^ (p + 1) - n) := by
        have ht := denotes_true (max (p + 1) width - (p + 1))
        rw [← e, denotes_append, natBits_length, denotes_natBits _ _ (by omega)]
        have : 2 ^ (max (p + 1) width) = 2 ^ (max (p + 1) width - (p + 1)) * 2 ^ (p + 1) := by rw [← Nat.pow_add]; congr 1; omega
        rw [this, ← ht, Nat.add_mul]
        omega
      have hd' : denotesMSB b + n = 2 ^ (max (p + 1) width) := by omega
      have : ((denotesMSB b : Nat) : Int) + n = 2 ^ (max (p + 1) width) := by exact_mod_cast hd'
      omega
    · by_cases hw : p + 1 ≤ width
      · left; omega
      · by_cases hp0 : p = 0
        · left; omega
        · refine Or.inr ⟨by omega, ?_, ?_⟩
          · rw [show b.length - 2 = p - 1 by omega]
            have : ((2 ^ (p - 1) : Nat) : Int) < n := by exact_mod_cast f2 (by omega)
            push_cast at this
            omega
          · simp only [Bool.and_eq_true, decide_eq_true_eq, not_and] at hs
            cases strict
            · rfl
            · exact absurd (show width < p + 1 by omega) (hs rfl)

/-- **C128 (to_bin, failures).**  Only numbers that are no integers are refused (`TypeError`), and, by strict releases, numbers that need more digits. -/
theorem C128_to_bin_accepts (strict : Bool) (v : PyVal) (width : Nat) (msb : Bool) :
    (toBinVal strict v width msb = .error .TypeError ↔ v.asInt? = none) ∧
    (∀ e, toBinVal strict v width msb = .error e → e = .TypeError ∨ strict = true ∧ e = .ValueError) ∧
    (∀ k : Int, -2 ^ (width - 1) ≤ k → k < 2 ^ width → 1 ≤ width → ∃ b, toBinVal strict (.int k) width msb = .ok b) ∧
    (∀ b, toBinVal strict v width true = .ok b → toBinVal strict v width false = .ok b.reverse) := by
  have mapE : ∀ (x : Res Bits) (e : PyErr), (x.map fun s => if msb then s else s.reverse) = .error e ↔ x = .error e := by
    intro x e; cases x <;> simp [Except.map]
  have cases3 : ∀ (k : Int), (∃ b, binaryReprInt strict k width = .ok b) ∨ strict = true ∧ binaryReprInt strict k width = .error .ValueError := by
    intro k
    unfold binaryReprInt
    cases strict
    · left
      split
      · exact ⟨_, rfl⟩
      · split
        · exact ⟨_, rfl⟩
        · exact ⟨_, rfl⟩
    · split
      · exact Or.inl ⟨_, rfl⟩
      · split
        · dsimp only
          split
          · exact Or.inr ⟨rfl, rfl⟩
          · exact Or.inl ⟨_, rfl⟩
        · dsimp only
          generalize (if 2 ^ (binDigits (-k).toNat - 1) = (-k).toNat then binDigits (-k).toNat - 1 else binDigits (-k).toNat) = p
          split
          · exact Or.inr ⟨rfl, rfl⟩
          · exact Or.inl ⟨_, rfl⟩
  refine ⟨?_, fun e h => ?_, fun k h1 h2 hw => ?_, fun b h => ?_⟩
  · unfold toBinVal
    cases hv : v.asInt? with
    | none => simp
    | some k =>
      simp only [mapE]
      rcases cases3 k with ⟨b, h⟩ | ⟨-, h⟩ <;> simp [h]
  · unfold toBinVal at h
    cases hv : v.asInt? with
    | none => rw [hv] at h; left; exact (Except.error.inj h).symm
    | some k =>
      rw [hv] at h
      simp only [mapE] at h
      rcases cases3 k with ⟨b, h'⟩ | ⟨hs, h'⟩
      · rw [h'] at h; exact absurd h (by simp)
      · rw [h'] at h; exact Or.inr ⟨hs, (Except.error.inj h).symm⟩
  · unfold toBinVal binaryReprInt
    simp only [PyVal.asInt?]
    by_cases h0 : k = 0
    · rw [if_pos h0]; exact ⟨_, rfl⟩
    · rw [if_neg h0]
      by_cases hp : 0 < k
      · rw [if_pos hp]
        have hn : ((k.toNat : Nat) : Int) = k := Int.toNat_of_nonneg (by omega)
        have hlt : k.toNat < 2 ^ width := by have : ((k.toNat : Nat) : Int) < ((2 ^ width : Nat) : Int) := by push_cast; omega
                                             exact_mod_cast this
        have : ¬ (width < binDigits k.toNat) := fun h => by
          have h3 := digits_le (show k.toNat ≠ 0 by omega)
          have := Nat.pow_le_pow_right (show 0 < 2 by decide) (show width ≤ binDigits k.toNat - 1 by omega)
          omega
        simp only [this, decide_false, Bool.and_false, Bool.false_eq_true, if_false]
        exact ⟨_, rfl⟩
      · rw [if_neg hp]
        have hn : (((-k).toNat : Nat) : Int) = -k := Int.toNat_of_nonneg (by omega)
        obtain ⟨f1, f2, f3⟩ := twocomp_facts (-k).toNat (by omega)
        have hle : (-k).toNat ≤ 2 ^ (width - 1) := by have : (((-k).toNat : Nat) : Int) ≤ ((2 ^ (width - 1) : Nat) : Int) := by push_cast; omega
                                                      exact_mod_cast this
        generalize (-k).toNat = n at *
        generalize (if 2 ^ (binDigits n - 1) = n then binDigits n - 1 else binDigits n) = p at *
        rw [f3]
        have : ¬ (width < p + 1) := fun h => by
          have h3 := f2 (by omega)
          have := Nat.pow_le_pow_right (show 0 < 2 by decide) (show width - 1 ≤ p - 1 by omega)
          omega
        simp only [this, decide_false, Bool.and_false, Bool.false_eq_true, if_false]
        exact ⟨_, rfl⟩
  · unfold toBinVal at h ⊢
    cases hv : v.asInt? with
    | none => rw [hv] at h; exact absurd h (by simp)
    | some k =>
      rw [hv] at h
      simp only at h ⊢
      cases hb : binaryReprInt strict k width with
      | error e => rw [hb] at h; exact absurd h (by simp [Except.map])
      | ok s =>
        rw [hb] at h
        have := Except.ok.inj h
        simp only [if_true] at this
        rw [this]; rfl

/-- The model of the natural numbers used by the modulators is a special case. -/
theorem C128_to_bin_nat (n width : Nat) (msb : Bool) : toBinVal false (.int n) width msb = .ok (toBin n width msb) := by
  have key : binaryReprInt false n width = .ok (binaryRepr n width) := by
    have hlen : ∀ b : Bits, denotesMSB b = n → b.length = (binaryRepr n width).length → b = binaryRepr n width := by
      intro b h1 h2
      have hr : denotesMSB (binaryRepr n width) = n := by
        have : binaryRepr n width = natBits (max width (n.log2 + 1)) n := rfl
        rw [this]
        exact denotes_natBits _ _ ((lt_digits n).trans_le (Nat.pow_le_pow_right (by decide) (by unfold binDigits; omega)))
      have inj : ∀ a b : Bits, a.length = b.length → denotesMSB a = denotesMSB b → a = b := by
        intro a
        induction a with
        | nil => intro b hl _; exact (List.length_eq_zero_iff.1 hl.symm).symm
        | cons x a ih =>
          intro b hl he
          cases b with
          | nil => simp at hl
          | cons y b =>
            have hl' : a.length = b.length := by simpa using hl
            have ea := denotes_append [x] a
            have eb := denotes_append [y] b
            have la : ∀ l : Bits, denotesMSB l < 2 ^ l.length := by
              intro l
              induction l with
              | nil => simp [denotesMSB]
              | cons z l il =>
                have := denotes_append [z] l
                rw [List.singleton_append] at this
                rw [this, List.length_cons, Nat.pow_succ]
                have hz : denotesMSB [z] ≤ 1 := by cases z <;> decide
                nlinarith [Nat.two_pow_pos l.length]
            rw [List.singleton_append] at ea eb
            rw [ea, eb, hl'] at he
            have h1 := la a
            have h2 := la b
            rw [hl'] at h1
            have hxy : x = y := by
              cases x <;> cases y
              · rfl
              · exfalso; simp [denotesMSB] at he h1 h2; omega
              · exfalso; simp [denotesMSB] at he h1 h2; omega
              · rfl
            rw [hxy, ih b hl' (by rw [hxy] at he; omega)]
      exact inj _ _ h2 (h1.trans hr.symm)
    obtain ⟨b, hb⟩ : ∃ b, binaryReprInt false n width = .ok b := by
      unfold binaryReprInt
      split
      · exact ⟨_, rfl⟩
      · split
        · exact ⟨_, rfl⟩
        · exact ⟨_, rfl⟩
    rw [hb]
    congr 1
    have ht : toBinVal false (.int n) width true = .ok b := by
      unfold toBinVal
      simp only [PyVal.asInt?, hb]
      rfl
    have hd := C128_to_bin_nonneg false n (by omega) width b ht
    refine hlen b (by exact_mod_cast hd.1) ?_
    have hrl : (binaryRepr n width).length = max width (binDigits n) := by simp [binaryRepr, binDigits]
    rw [hrl]
    unfold binaryReprInt at hb
    by_cases h0 : n = 0
    · rw [if_pos (by omega)] at hb
      rw [← Except.ok.inj hb, h0, List.length_replicate]
      have : binDigits 0 = 1 := rfl
      rw [this]; split <;> omega
    · rw [if_neg (by omega), if_pos (by omega)] at hb
      simp only [Bool.false_and, Bool.false_eq_true, if_false] at hb
      rw [← Except.ok.inj hb, List.length_append, List.length_replicate, natBits_length, Int.toNat_natCast]
      omega
  unfold toBinVal
  simp only [PyVal.asInt?, key]
  rfl

/-- **C128 (to_int).**  For a one-dimensional array of integers: only the first (with MSB_first false: last) eight entries count, the first of them is the least significant bit, and every
entry that is not 0 counts as 1; empty arrays raise `IndexError`, floats `TypeError`. -/
theorem C128_to_int (l : List Int) (msb : Bool) (q : List Rat) :
    (l = [] → toIntVal (.ints l) msb = .error .IndexError) ∧
    (l ≠ [] → ∃ n < 256, toIntVal (.ints l) msb = .ok n ∧
      ∀ i < 8, n.testBit i = decide (∃ x, (if msb then l else l.reverse)[i]? = some x ∧ x ≠ 0)) ∧
    toIntVal (.floats q) msb = .error .TypeError := by
  have bitsOf : ∀ (b : Bits) (i : Nat), (leValue b).testBit i = b.getD i false := by
    intro b
    induction b with
    | nil => intro i; simp [leValue]
    | cons x b ih =>
      intro i
      unfold leValue
      cases i with
      | zero => cases x <;> simp [b2n, Nat.testBit_zero, Nat.add_mul_mod_self_left]
      | succ i =>
        rw [Nat.testBit_succ, show (b2n x + 2 * leValue b) / 2 = leValue b by cases x <;> simp [b2n] <;> omega, ih]
        rfl
  have small : ∀ b : Bits, leValue b < 2 ^ b.length := by
    intro b
    induction b with
    | nil => simp [leValue]
    | cons x b ih => unfold leValue; rw [List.length_cons, Nat.pow_succ]; cases x <;> simp [b2n] <;> omega
  refine ⟨fun h => ?_, fun h => ?_, rfl⟩
  · subst h; cases msb <;> rfl
  · have hl : (if msb then l.map (· != 0) else (l.map (· != 0)).reverse) = (if msb then l else l.reverse).map (· != 0) := by
      cases msb <;> simp
    have hne : (if msb then l else l.reverse) ≠ [] := by cases msb <;> simpa using h
    unfold toIntVal toInt
    simp only [hl]
    generalize (if msb then l else l.reverse) = r at *
    rw [if_neg (by simpa using hne)]
    refine ⟨_, ?_, rfl, fun i hi => ?_⟩
    · refine (small ((r.map (· != 0)).take 8)).trans_le ?_
      exact (Nat.pow_le_pow_right (show 0 < 2 by decide) (show ((r.map (· != 0)).take 8).length ≤ 8 by rw [List.length_take]; omega) : _ ≤ 2 ^ 8)
    · rw [bitsOf, List.getD_eq_getElem?_getD, List.getElem?_take, if_pos hi, List.getElem?_map]
      cases hr : r[i]? with
      | none => simp
      | some x => by_cases hx : x = 0 <;> simp [hx]

/-- **C128 (round trip).**  Bytes of either sign come back modulo 256 from `to_int` with the opposite flag. -/
theorem C128_round_trip (strict : Bool) (k : Int) (h1 : -128 ≤ k) (h2 : k < 256) (msb : Bool) :
    ∃ b, toBinVal strict (.int k) 8 msb = .ok b ∧ toIntVal (.ints (b.map fun x => if x then 1 else 0)) (!msb) = .ok (k % 256).toNat := by
  have all : ∀ strict msb : Bool, ∀ i : Fin 384, ∃ b, toBinVal strict (.int ((i.val : Int) - 128)) 8 msb = .ok b ∧
      toIntVal (.ints (b.map fun x => if x then 1 else 0)) (!msb) = .ok (((i.val : Int) - 128) % 256).toNat := by
    intro strict msb i
    have : ∀ strict msb : Bool, ∀ i : Fin 384, ((toBinVal strict (.int ((i.val : Int) - 128)) 8 msb).bind fun b => toIntVal (.ints (b.map fun x => if x then 1 else 0)) (!msb)) =
        .ok (((i.val : Int) - 128) % 256).toNat := by decide +kernel
    have := this strict msb i
    cases h : toBinVal strict (.int ((i.val : Int) - 128)) 8 msb with
    | ok b => rw [h] at this; exact ⟨b, rfl, this⟩
    | error e => rw [h] at this; cases this
  have := all strict msb ⟨(k + 128).toNat, by omega⟩
  simpa [Int.toNat_of_nonneg (show 0 ≤ k + 128 by omega)] using this

/-- **C128 (from_bitstring).**  Spaces are ignored; the other characters become their digits, in order; if one of them is no digit, `ValueError`. -/
theorem C128_from_bitstring (digit : Char → Option Nat) (s t : List Char) :
    (∀ out, fromBitstring digit s = .ok out ↔ (s.filter (· ≠ ' ')).map digit = out.map some) ∧
    ((∃ c ∈ s, c ≠ ' ' ∧ digit c = none) ↔ fromBitstring digit s = .error .ValueError) ∧
    (∀ e, fromBitstring digit s = .error e → e = .ValueError) ∧
    (fromBitstring digit (s ++ t) = do let a ← fromBitstring digit s; let b ← fromBitstring digit t; pure (a ++ b)) := by
  have key : ∀ l : List Char, (∀ out, (l.mapM fun c => match digit c with | some d => (.ok d : Res Nat) | none => .error .ValueError) = .ok out ↔ l.map digit = out.map some) ∧
      ((∃ c ∈ l, digit c = none) ↔ (l.mapM fun c => match digit c with | some d => (.ok d : Res Nat) | none => .error .ValueError) = .error .ValueError) ∧
      (∀ e, (l.mapM fun c => match digit c with | some d => (.ok d : Res Nat) | none => .error .ValueError) = .error e → e = .ValueError) := by
    intro l
    induction l with
    | nil =>
      refine ⟨fun out => ?_, ?_, fun e h => ?_⟩
      · rw [List.mapM_nil]
        constructor
        · intro h; rw [← Except.ok.inj h]; rfl
        · intro h
          have : out = [] := by simpa using h.symm
          rw [this]; rfl
      · constructor
        · rintro ⟨c, hc, -⟩; exact absurd hc (by simp)
        · intro h; exact absurd h (by rw [List.mapM_nil]; intro h; cases h)
      · rw [List.mapM_nil] at h; cases h
    | cons c l ih =>
      obtain ⟨i1, i2, i3⟩ := ih
      rw [List.mapM_cons]
      cases hd : digit c with
      | none =>
        refine ⟨fun out => ?_, ?_, fun e h => ?_⟩
        · constructor
          · intro h; cases h
          · intro h
            cases out with
            | nil => simp at h
            | cons x out => simp [hd] at h
        · exact ⟨fun _ => rfl, fun _ => ⟨c, by simp, hd⟩⟩
        · exact (Except.error.inj h).symm
      | some d =>
        cases hm : (l.mapM fun c => match digit c with | some d => (.ok d : Res Nat) | none => .error .ValueError) with
        | error e =>
          rw [hm] at i1 i2 i3
          have he := i3 e rfl
          subst he
          refine ⟨fun out => ?_, ?_, fun e h => ?_⟩
          · constructor
            · intro h; cases h
            · intro h
              cases out with
              | nil => simp at h
              | cons x out =>
                have h' : l.map digit = out.map some := by
                  rw [List.map_cons, List.map_cons] at h
                  exact (List.cons.inj h).2
                exact absurd ((i1 out).2 h') (by simp)
          · refine ⟨fun _ => rfl, fun _ => ?_⟩
            obtain ⟨x, hx, hx'⟩ := i2.2 rfl
            exact ⟨x, by simp [hx], hx'⟩
          · exact (Except.error.inj h).symm
        | ok r =>
          rw [hm] at i1 i2 i3
          have hr := (i1 r).1 rfl
          refine ⟨fun out => ?_, ?_, fun e h => ?_⟩
          · constructor
            · intro h
              have : d :: r = out := Except.ok.inj h
              rw [← this, List.map_cons, List.map_cons, hd, hr]
            · intro h
              cases out with
              | nil => simp at h
              | cons x out =>
                rw [List.map_cons, List.map_cons, hd, hr] at h
                have h1 := Option.some.inj (List.cons.inj h).1
                have h2 : r = out := List.map_injective_iff.2 (Option.some_injective _) (List.cons.inj h).2
                rw [h1, h2]; rfl
          · constructor
            · rintro ⟨x, hx, hx'⟩
              rcases List.mem_cons.1 hx with rfl | hx
              · rw [hd] at hx'; cases hx'
              · exact absurd (i2.1 ⟨x, hx, hx'⟩) (by simp)
            · intro h; cases h
          · cases h
  unfold fromBitstring
  obtain ⟨k1, k2, k3⟩ := key (s.filter (· ≠ ' '))
  refine ⟨k1, ?_, k3, ?_⟩
  · refine Iff.trans ?_ k2
    constructor
    · rintro ⟨c, h1, h2, h3⟩; exact ⟨c, by simp [h1, h2], h3⟩
    · rintro ⟨c, h1, h3⟩
      rw [List.mem_filter] at h1
      exact ⟨c, h1.1, by simpa using h1.2, h3⟩
  · rw [List.filter_append, List.mapM_append]

/-- The string literal `s` of the source, read by `from_bitstring`, is the bit sequence `b`. -/
def Written (s : String) (b : Bits) : Prop := fromBitstring asciiDigit s.toList = .ok (b.map fun x => if x then 1 else 0)

instance (s : String) (b : Bits) : Decidable (Written s b) := inferInstanceAs (Decidable (_ = _))

/-- **C128 (tables).**  The delimiters and pilots of the model are the string literals of the source (`mr_o_qpsk_modulator.py:47`, `:223-233`, `mr_fsk_modulator.py:22-32`) read by
`from_bitstring`. -/
theorem C128_tables :
    Written "1110101101100010" oqpskSfd ∧
    Written "1101 1110 1010 0010 0111 0000 0110 0101" (pilotSequence .b470) ∧
    Written "1011 0010 0010 0101 1011 0001 1101 0000 1101 0111 0011 1101 1111 0000 0010 1010" (pilotSequence .b780) ∧
    Written "1101 1110 1010 0010 0111 0000 0110 0101" (pilotSequence .b868) ∧
    Written "1011 0010 0010 0101 1011 0001 1101 0000 1101 0111 0011 1101 1111 0000 0010 1010" (pilotSequence .b915) ∧
    Written "1011 0010 0010 0101 1011 0001 1101 0000 1101 0111 0011 1101 1111 0000 0010 1010" (pilotSequence .b917) ∧
    Written "1101 1110 1010 0010 0111 0000 0110 0101" (pilotSequence .b920) ∧
    Written "1101 1110 1010 0010 0111 0000 0110 0101" (pilotSequence .b950) ∧
    Written "1001 1000 1000 1011 0100 1110 0100 0010 0101 0010 0110 1101 1100 0111 1010 0000 1101 0100 0110 0111 1101 1000 0111 0101 1110 0111 1101 1111 1000 0000 1010 1011" (pilotSequence .b2450) ∧
    Written "0110 1111 0100 1110" (fskSfd .FSK2 0 true) ∧
    Written "1001 0000 0100 1110" (fskSfd .FSK2 0 false) ∧
    Written "0110 0011 0010 1101" (fskSfd .FSK2 1 true) ∧
    Written "0111 1010 0000 1110" (fskSfd .FSK2 1 false) ∧
    Written "0111 1101 1111 1111 0111 0101 1111 1101" (fskSfd .FSK4 0 true) ∧
    Written "1101 0111 0101 0101 0111 0101 1111 1101" (fskSfd .FSK4 0 false) ∧
    Written "0111 1101 0101 1111 0101 1101 1111 0111" (fskSfd .FSK4 1 true) ∧
    Written "0111 1111 1101 1101 0101 0101 1111 1101" (fskSfd .FSK4 1 false) := by decide +kernel

/-! Non-vacuity: -3 in 8 digits, -128, -129 in too few digits, and the delimiter of MR-O-QPSK as it is written in the source. -/
example : toBinVal true (.int (-3)) 8 true = .ok [true, true, true, true, true, true, false, true] ∧ toBinVal true (.int (-128)) 8 true = .ok (true :: List.replicate 7 false) ∧
    toBinVal true (.int (-129)) 8 true = .error .ValueError ∧ toBinVal false (.int (-129)) 8 true = .ok (true :: false :: List.replicate 7 true) ∧
    toBinVal false (.int 300) 8 true = .ok (natBits 9 300) ∧ toBinVal false (.float 3) 8 true = .error .TypeError := by decide +kernel
example : fromBitstring asciiDigit "1110 1011 0110 0010".toList = .ok [1, 1, 1, 0, 1, 0, 1, 1, 0, 1, 1, 0, 0, 0, 1, 0] ∧ fromBitstring asciiDigit "10x".toList = .error .ValueError ∧
    fromBitstring asciiDigit "".toList = .ok [] := by decide +kernel

end SunPhy.C128
