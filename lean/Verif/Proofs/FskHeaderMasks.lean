import Verif.Proofs.HeaderParity
import Verif.Spec.FskReference
/-
The coded MR-FSK header with every bit written as a sum of header bits (a mask): one evaluation for each pair of coding settings covers all headers.
-/
namespace SunPhy.FskHeader
open SunPhy Spec HeaderParity

/-- The mask of the constant. -/
def top : Nat := 2 ^ 31

/-- Three zeros and thirteen variables from number `n` on. -/
def vars (n : Nat) : List Nat := [0, 0, 0] ++ (List.range 13).map fun i => 2 ^ (n + i)

/-- Shift register of the recursive encoder before bit `n`. -/
def reg (x : List Nat) : Nat → Nat × Nat × Nat
  | 0 => (0, 0, 0)
  | n + 1 => (x.getD n 0 ^^^ ((reg x n).1 ^^^ ((reg x n).2.1 ^^^ (reg x n).2.2)), (reg x n).1, (reg x n).2.1)

/-- Code bit `i`. -/
def out (s : Nat) (x : List Nat) (i : Nat) : Nat :=
  if s = 0 then top ^^^ (if i % 2 = 0 then taps [0, 2, 3] x (i / 2) else taps [0, 1, 2, 3] x (i / 2))
  else if i % 2 = 0 then (reg x (i / 2 + 1)).1 ^^^ ((reg x (i / 2)).2.1 ^^^ (reg x (i / 2)).2.2)
  else (reg x (i / 2 + 1)).1 ^^^ ((reg x (i / 2)).1 ^^^ ((reg x (i / 2)).2.1 ^^^ (reg x (i / 2)).2.2))

/-- Where bit `i` of the first block comes from. -/
def from' (il : Bool) (i : Nat) : Nat := if il then 2 * (4 * ((15 - i / 2) % 4) + (15 - i / 2) / 4) + i % 2 else i

theorem from_lt : ∀ (il : Bool), ∀ i < 32, from' il i < 32 := by decide

/-- Equation `k`: bit `k` of the header with the one setting equals bit `k` of the header with the other. -/
def eqn (s s' : Nat) (il il' : Bool) (k : Nat) : Nat := out s (vars 0) (from' il k) ^^^ out s' (vars 13) (from' il' k)

def sum (T : List Nat) (f : Nat → Nat) : Nat := (T.map f).foldr (· ^^^ ·) 0

/-- Equations that contradict each other when the encoders differ. -/
def clash : Bool → Bool → List Nat
  | false, false => [0]
  | true, true => [14]
  | _, _ => [5, 10, 11, 12, 13, 15, 18, 20, 21]

theorem clash_ok : ∀ il il' : Bool, sum (clash il il') (eqn 0 1 il il') = top := by decide +kernel

/-- Which equations to add to get variable `i`. -/
def elim : Nat → List (List Nat)
  | 0 => [[0, 1, 3, 5, 6, 8, 11, 13, 15, 16, 17],
    [0, 1, 5, 6, 9, 10, 13, 14, 17, 18, 19],
    [],
    [14, 15],
    [0, 1, 5, 6, 9, 10, 13, 17, 18, 19],
    [2, 5, 6, 8, 9, 11, 13, 16],
    [0, 1, 4, 5, 9, 11, 17, 19],
    [2, 3, 5, 10, 12, 15, 18, 19, 20],
    [0, 1, 2, 4, 6, 8, 13, 16, 17, 19, 22],
    [0, 1, 4, 9, 12, 14, 15, 16, 18, 20, 24],
    [0, 1, 2, 3, 5, 9, 10, 11, 13, 15, 17, 19, 20, 22, 26],
    [0, 1, 2, 4, 6, 8, 10, 14, 20, 22, 24, 28],
    [2, 3, 4, 5, 10, 11, 12, 13, 14, 16, 17, 18, 19, 22, 24, 26, 30],
    [0, 1, 3, 5, 8, 11, 13, 15, 16, 17],
    [0, 1, 4, 9, 10, 12, 13, 15, 17, 18, 19],
    [12, 13],
    [4, 5],
    [0, 1, 9, 10, 15, 17, 18, 19],
    [2, 5, 6, 8, 9, 11, 13, 16, 18, 19],
    [0, 1, 5, 6, 9, 11, 13, 14, 17, 18, 19],
    [2, 3],
    [0, 1, 8, 14, 16, 17],
    [0, 1, 5, 6, 9, 10, 13, 16, 18, 19],
    [0, 1, 3, 5, 6, 9, 11, 13, 15, 16, 17],
    [0, 1],
    [0, 3, 10, 11, 15, 17, 18, 19]]
  | _ => [[2, 3, 5, 6, 10, 13, 14, 18, 19],
    [0, 1, 2, 3, 9, 17],
    [3, 8, 9, 10, 11, 14, 15, 16, 18, 19],
    [3, 8, 9, 10, 11, 16, 18, 19],
    [15],
    [],
    [2, 4, 5, 8, 9, 10, 14, 15, 16, 18],
    [3, 4, 8, 9, 12, 15, 16, 19, 20],
    [2, 3, 5, 10, 12, 15, 18, 19, 20, 22],
    [0, 1, 3, 4, 6, 8, 10, 11, 13, 14, 19, 22, 24],
    [6, 10, 16, 17, 18, 20, 24, 26],
    [0, 1, 3, 4, 5, 8, 10, 12, 14, 15, 16, 17, 19, 20, 22, 26, 28],
    [0, 1, 2, 4, 6, 8, 10, 14, 20, 22, 24, 28, 30],
    [2, 3, 5, 10, 13, 14, 18, 19],
    [0, 1, 2, 3, 4, 5, 9, 12, 14, 15, 17],
    [3, 4, 5, 8, 9, 10, 11, 13, 16, 18, 19],
    [3, 8, 9, 10, 11, 13, 16, 18, 19],
    [5],
    [4, 6, 12, 14, 18, 19],
    [2, 4, 5, 8, 9, 10, 14, 15, 16, 18, 19],
    [3, 8, 9, 10, 14, 15, 16, 18, 19],
    [3],
    [0, 1, 2, 3, 8, 10, 11],
    [17],
    [0, 1, 2, 3, 17],
    [1]]

/-- The one header (flags and length, most significant bit first) that looks the same with and without interleaving. -/
def same : Nat → List Bool
  | 0 => [true, false, true, false, true, true, false, false, true, true, true, false, false]
  | _ => [true, true, false, false, false, true, false, false, false, false, true, true, false]

/-- The variable that is left. -/
def free : Nat → Nat | 0 => 2 | _ => 5

theorem elim_ok : ∀ s ∈ [0, 1], ∀ i < 26, (∀ k ∈ (elim s).getD i [], k < 32) ∧
    sum ((elim s).getD i []) (eqn s s false true) = 2 ^ i ^^^ if (same s).getD (i % 13) false then 2 ^ free s else 0 := by decide +kernel

theorem clash_lt : ∀ il il' : Bool, ∀ k ∈ clash il il', k < 32 := by decide

/-! ### Values -/

/-- The values of the variables for two headers. -/
def vals (H H' : Bits) (i : Nat) : Bool := if i < 13 then H.getD (3 + i) false else if i < 26 then H'.getD (3 + (i - 13)) false else true

theorem top_val (H H' : Bits) : ev (vals H H') top = true := ev_pow _ (by decide)

/-- A header: 16 bits, the first three are zero. -/
structure Hdr (H : Bits) : Prop where
  len : H.length = 16
  zero : ∀ i < 3, H.getD i false = false

theorem vars_val (v : Nat → Bool) (H : Bits) (hH : Hdr H) (n : Nat) (hn : n ≤ 13) (hv : ∀ i < 13, v (n + i) = H.getD (3 + i) false) : H = (vars n).map (ev v) := by
  refine List.ext_getElem? fun i => ?_
  by_cases hi : i < 16
  · have hg : H[i]? = some (H.getD i false) := by rw [List.getD_eq_getElem?_getD, List.getElem?_eq_getElem (by rw [hH.len]; omega)]; rfl
    rw [hg, List.getElem?_map]
    by_cases h3 : i < 3
    · rw [hH.zero i h3]
      have : (vars n)[i]? = some 0 := by
        unfold vars
        rw [List.getElem?_append_left (by simpa using h3)]
        rcases i with _ | _ | _ | i
        · rfl
        · rfl
        · rfl
        · omega
      rw [this, Option.map_some, ev_zero]
    · have : (vars n)[i]? = some (2 ^ (n + (i - 3))) := by
        unfold vars
        rw [List.getElem?_append_right (by simp; omega), List.getElem?_map, List.getElem?_range (by simp; omega)]
        rfl
      rw [this, Option.map_some, ev_pow _ (by omega), hv _ (by omega), show 3 + (i - 3) = i by omega]
  · rw [List.getElem?_eq_none (by rw [hH.len]; omega), List.getElem?_eq_none (by simp [vars]; omega)]

theorem reg_val (v : Nat → Bool) (x : List Nat) (y q : Bits) (n : Nat) (hn : n ≤ x.length) :
    ev v (reg x n).1 = RefF.back (x.map (ev v) ++ y) q n 1 ∧ ev v (reg x n).2.1 = RefF.back (x.map (ev v) ++ y) q n 2 ∧
    ev v (reg x n).2.2 = RefF.back (x.map (ev v) ++ y) q n 3 := by
  induction n with
  | zero => exact ⟨ev_zero v, ev_zero v, ev_zero v⟩
  | succ n ih =>
    obtain ⟨i1, i2, i3⟩ := ih (by omega)
    have sh : ∀ d, RefF.back (x.map (ev v) ++ y) q (n + 1) (d + 1) = RefF.back (x.map (ev v) ++ y) q n d := by
      intro d
      unfold RefF.back
      by_cases hd : d ≤ n
      · rw [if_pos hd, if_pos (by omega), Nat.add_sub_add_right]
      · rw [if_neg hd, if_neg (by omega)]
    refine ⟨?_, ?_, ?_⟩
    · rw [sh 0]
      unfold reg
      simp only [ev_xor]
      rw [i1, i2, i3]
      have hx : ev v (x.getD n 0) = RefF.at_ (x.map (ev v) ++ y) n := by
        unfold RefF.at_
        rw [List.getD_eq_getElem?_getD, List.getD_eq_getElem?_getD, List.getElem?_append_left (by simp; omega), List.getElem?_map, List.getElem?_eq_getElem (by omega)]
        rfl
      rw [hx]
      conv_rhs => unfold RefF.back
      rw [if_pos (Nat.zero_le _), Nat.sub_zero]
      conv_rhs => rw [RefF.rsc]
      have hl : n < (x.map (ev v) ++ y).length := by simp; omega
      rw [if_neg (by omega), if_pos hl]
      rfl
    · rw [sh 1, ← i1]; rfl
    · rw [sh 2, ← i2]; rfl

theorem out_val (s : Nat) (v : Nat → Bool) (ht : ev v top = true) (x : List Nat) (y q : Bits) (i : Nat) (hi : i < 2 * x.length) :
    (RefF.coded s (x.map (ev v) ++ y) q).getD i false = ev v (out s x i) := by
  unfold RefF.coded
  rw [List.getD_eq_getElem?_getD, List.getElem?_map, List.getElem?_range (by simp; omega)]
  simp only [Option.map_some, Option.getD_some]
  unfold out
  split
  · rw [ev_xor, ht, List.append_assoc, List.append_assoc, taps_prefix _ _ _ _ (by simp; omega), taps_prefix _ _ _ _ (by simp; omega), taps_ev, taps_ev]
    split <;> simp
  · obtain ⟨r1, r2, r3⟩ := reg_val v x y q (i / 2) (by omega)
    obtain ⟨q1, -, -⟩ := reg_val v x y q (i / 2 + 1) (by omega)
    have sh : RefF.back (x.map (ev v) ++ y) q (i / 2 + 1) 1 = RefF.back (x.map (ev v) ++ y) q (i / 2) 0 := by
      unfold RefF.back
      rw [if_pos (by omega), if_pos (by omega)]; rfl
    rw [sh] at q1
    split <;> simp only [ev_xor, q1, r1, r2, r3]

/-- Coded bits, interleaved or not. -/
def sent (s : Nat) (il : Bool) (x q : Bits) : Bits := if il then RefF.interleave (RefF.coded s x q) else RefF.coded s x q

theorem coded_len (s : Nat) (x q : Bits) : (RefF.coded s x q).length = 2 * (x.length + 3 + q.length) := by simp [RefF.coded]

theorem sent_val (s : Nat) (il : Bool) (v : Nat → Bool) (ht : ev v top = true) (x : List Nat) (hx : x.length = 16) (y q : Bits) (i : Nat) (hi : i < 32) :
    (sent s il (x.map (ev v) ++ y) q).getD i false = ev v (out s x (from' il i)) := by
  cases il with
  | false => exact out_val s v ht x y q i (by omega)
  | true =>
    rw [← out_val s v ht x y q _ (by rw [hx]; exact from_lt true i hi)]
    unfold sent RefF.interleave from' RefF.at_
    rw [if_pos rfl, if_pos rfl, List.getD_eq_getElem?_getD, List.getElem?_map, List.getElem?_range (by rw [coded_len]; simp; omega)]
    simp only [Option.map_some, Option.getD_some]
    rw [Nat.div_eq_of_lt hi, Nat.mod_eq_of_lt hi, Nat.zero_mul, Nat.zero_add]

theorem sum_val (v : Nat → Bool) (f : Nat → Nat) (T : List Nat) (h : ∀ k ∈ T, ev v (f k) = false) : ev v (sum T f) = false := by
  unfold sum
  rw [ev_fold, List.map_map]
  induction T with
  | nil => rfl
  | cons a T ih =>
    rw [List.map_cons, List.foldr_cons, ih fun k hk => h k (List.mem_cons_of_mem _ hk), Function.comp_apply, h a (List.mem_cons_self ..)]
    rfl

theorem vars_len (n : Nat) : (vars n).length = 16 := by simp [vars]

theorem eqn_val {H H' : Bits} (hH : Hdr H) (hH' : Hdr H') (s s' : Nat) (il il' : Bool) (y y' q q' : Bits)
    (hE : ∀ i < 32, (sent s il (H ++ y) q).getD i false = (sent s' il' (H' ++ y') q').getD i false) (k : Nat) (hk : k < 32) :
    ev (vals H H') (eqn s s' il il' k) = false := by
  have e : H = (vars 0).map (ev (vals H H')) := vars_val _ H hH 0 (by omega) fun i hi => by
    unfold vals; rw [Nat.zero_add, if_pos hi]
  have e' : H' = (vars 13).map (ev (vals H H')) := vars_val _ H' hH' 13 (by omega) fun i hi => by
    unfold vals; rw [if_neg (by omega), if_pos (by omega), Nat.add_sub_cancel_left]
  have := hE k hk
  have a := sent_val s il (vals H H') (top_val H H') (vars 0) (vars_len 0) y q k hk
  have b := sent_val s' il' (vals H H') (top_val H H') (vars 13) (vars_len 13) y' q' k hk
  rw [← e] at a
  rw [← e'] at b
  unfold eqn
  rw [ev_xor, ← a, ← b, this, Bool.xor_self]

/-- The two encoders never send the same header bits. -/
theorem scheme_ne {H H' : Bits} (hH : Hdr H) (hH' : Hdr H') (il il' : Bool) (y y' q q' : Bits)
    (hE : ∀ i < 32, (sent 0 il (H ++ y) q).getD i false = (sent 1 il' (H' ++ y') q').getD i false) : False := by
  have := sum_val (vals H H') (eqn 0 1 il il') (clash il il') fun k hk => eqn_val hH hH' 0 1 il il' y y' q q' hE k (clash_lt il il' k hk)
  rw [clash_ok, top_val] at this
  cases this

/-- Two headers that look the same with and without interleaving. -/
theorem interleaving_same {H H' : Bits} (hH : Hdr H) (hH' : Hdr H') (s : Nat) (hs : s ≤ 1) (y y' q q' : Bits)
    (hE : ∀ i < 32, (sent s false (H ++ y) q).getD i false = (sent s true (H' ++ y') q').getD i false) :
    ∃ t : Bool, ∀ i < 13, H.getD (3 + i) false = ((same s).getD i false && t) ∧ H'.getD (3 + i) false = ((same s).getD i false && t) := by
  have key : ∀ i < 26, vals H H' i = ((same s).getD (i % 13) false && vals H H' (free s)) := by
    intro i hi
    obtain ⟨h1, h2⟩ := elim_ok s (by rw [List.mem_cons, List.mem_cons]; omega) i hi
    have := sum_val (vals H H') (eqn s s false true) ((elim s).getD i []) fun k hk => eqn_val hH hH' s s false true y y' q q' hE k (h1 k hk)
    rw [h2, ev_xor, ev_pow _ (by omega)] at this
    cases hb : (same s).getD (i % 13) false with
    | false =>
      rw [hb] at this
      simp only [Bool.false_eq_true, if_false, ev_zero, Bool.xor_false] at this
      rw [this]; rfl
    | true =>
      rw [hb] at this
      rw [if_pos rfl, ev_pow _ (by have : s = 0 ∨ s = 1 := by omega
                                   rcases this with rfl | rfl <;> decide)] at this
      rw [Bool.true_and]
      cases h1 : vals H H' i <;> cases h2 : vals H H' (free s) <;> rw [h1, h2] at this <;> simp_all
  refine ⟨vals H H' (free s), fun i hi => ⟨?_, ?_⟩⟩
  · have := key i (by omega)
    rw [Nat.mod_eq_of_lt hi] at this
    rw [← this]; unfold vals; rw [if_pos hi]
  · have := key (13 + i) (by omega)
    rw [Nat.add_mod_left, Nat.mod_eq_of_lt hi] at this
    rw [← this]; unfold vals; rw [if_neg (by omega), if_pos (by omega), Nat.add_sub_cancel_left]

end SunPhy.FskHeader
