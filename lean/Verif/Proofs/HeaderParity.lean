import Verif.Spec.OfdmBlind
import Verif.Props.C98
/-
The parity of the tell-tale header bits: the header is followed through check sequence, code and interleaver with every bit as a sum of information bits (a mask), so that one evaluation
covers all headers.
-/
namespace SunPhy.HeaderParity
open SunPhy Spec

/-- Value of the sum of the variables in the mask `m`. -/
def ev (v : Nat → Bool) (m : Nat) : Bool := (List.range 32).foldr (fun i b => xor (m.testBit i && v i) b) false

theorem ev_xor (v : Nat → Bool) (a b : Nat) : ev v (a ^^^ b) = xor (ev v a) (ev v b) := by
  unfold ev
  generalize List.range 32 = l
  induction l with
  | nil => rfl
  | cons i l ih =>
    rw [List.foldr_cons, List.foldr_cons, List.foldr_cons, ih, Nat.testBit_xor]
    cases a.testBit i <;> cases b.testBit i <;> cases v i <;> simp

theorem ev_zero (v : Nat → Bool) : ev v 0 = false := by
  unfold ev
  generalize List.range 32 = l
  induction l with
  | nil => rfl
  | cons i l ih => rw [List.foldr_cons, ih]; simp

theorem ev_pow (v : Nat → Bool) {i : Nat} (hi : i < 32) : ev v (2 ^ i) = v i := by
  have key : ∀ l : List Nat, l.Nodup → l.foldr (fun j b => xor ((2 ^ i).testBit j && v j) b) false = if i ∈ l then v i else false := by
    intro l
    induction l with
    | nil => intro _; rfl
    | cons j l ih =>
      intro hn
      obtain ⟨h1, h2⟩ := List.nodup_cons.1 hn
      rw [List.foldr_cons, ih h2, Nat.testBit_two_pow]
      by_cases e : i = j
      · subst e
        rw [if_neg h1, if_pos (List.mem_cons_self ..)]
        simp
      · have : (i ∈ j :: l) ↔ i ∈ l := by rw [List.mem_cons]; exact ⟨fun h => h.resolve_left e, Or.inr⟩
        simp only [this, e, decide_false, Bool.false_and, Bool.false_xor]
  unfold ev
  rw [key _ List.nodup_range, if_pos (List.mem_range.2 hi)]

/-- The mask of the constant. -/
def one : Nat := 2 ^ 22

theorem ev_fold (v : Nat → Bool) (l : List Nat) : ev v (l.foldr (· ^^^ ·) 0) = (l.map (ev v)).foldr xor false := by
  induction l with
  | nil => exact ev_zero v
  | cons a l ih => rw [List.foldr_cons, ev_xor, ih]; rfl

def clock : List Nat → Nat → List Nat
  | [r7, r6, r5, r4, r3, r2, r1, r0], b => [r6, r5, r4, r3, r2, r1 ^^^ (r7 ^^^ b), r0 ^^^ (r7 ^^^ b), r7 ^^^ b]
  | r, _ => r

theorem clock_ev (v : Nat → Bool) (r : List Nat) (b : Nat) (h : r.length = 8) :
    Ref.crcClock (r.map (ev v)) (ev v b) = (clock r b).map (ev v) ∧ (clock r b).length = 8 := by
  match r, h with
  | [r7, r6, r5, r4, r3, r2, r1, r0], _ =>
    refine ⟨?_, rfl⟩
    simp only [List.map, Ref.crcClock, clock, ev_xor]

def crc (x : List Nat) : List Nat := (x.foldl clock (List.replicate 8 one)).map (one ^^^ ·)

theorem crc_ev (v : Nat → Bool) (h1 : ev v one = true) (x : List Nat) : Ref.crc8 (x.map (ev v)) = (crc x).map (ev v) := by
  unfold Ref.crc8 crc
  have key : ∀ (x r : List Nat), r.length = 8 → (x.map (ev v)).foldl Ref.crcClock (r.map (ev v)) = (x.foldl clock r).map (ev v) := by
    intro x
    induction x with
    | nil => intro r _; rfl
    | cons b x ih =>
      intro r hr
      obtain ⟨e, hl⟩ := clock_ev v r b hr
      rw [List.map_cons, List.foldl_cons, List.foldl_cons, e, ih _ hl]
  have := key x (List.replicate 8 one) (by simp)
  rw [List.map_replicate, h1] at this
  rw [this, List.map_map, List.map_map]
  refine List.map_congr_left fun a _ => ?_
  simp only [Function.comp_apply, ev_xor, h1, Bool.true_xor]

def taps (T : List Nat) (x : List Nat) (n : Nat) : Nat := (T.map fun j => if j ≤ n then x.getD (n - j) 0 else 0).foldr (· ^^^ ·) 0

theorem taps_ev (v : Nat → Bool) (T : List Nat) (x : List Nat) (n : Nat) : tapSum T (x.map (ev v)) n = ev v (taps T x n) := by
  unfold tapSum taps
  rw [ev_fold, List.map_map]
  congr 1
  refine List.map_congr_left fun j _ => ?_
  unfold delayed
  simp only [Function.comp_apply]
  split
  · rw [List.getD_eq_getElem?_getD, List.getD_eq_getElem?_getD, List.getElem?_map]
    cases x[n - j]? with
    | none => exact (ev_zero v).symm
    | some a => rfl
  · exact (ev_zero v).symm

/-- Zeros at the end do not matter. -/
theorem taps_zeros (T : List Nat) (x : Bits) (k n : Nat) : tapSum T (x ++ List.replicate k false) n = tapSum T x n := by
  unfold tapSum
  congr 1
  refine List.map_congr_left fun j _ => ?_
  unfold delayed
  split
  · rw [List.getD_eq_getElem?_getD, List.getD_eq_getElem?_getD]
    by_cases h : n - j < x.length
    · rw [List.getElem?_append_left h]
    · rw [List.getElem?_append_right (by omega), List.getElem?_eq_none (by omega : x.length ≤ n - j), List.getElem?_replicate]
      split <;> rfl
  · rfl

/-- What comes later does not matter. -/
theorem taps_prefix (T : List Nat) (x y : Bits) (n : Nat) (hn : n < x.length) : tapSum T (x ++ y) n = tapSum T x n := by
  unfold tapSum
  congr 1
  refine List.map_congr_left fun j _ => ?_
  unfold delayed
  split
  · rw [List.getD_eq_getElem?_getD, List.getD_eq_getElem?_getD, List.getElem?_append_left (by omega)]
  · rfl

/-- Code bit `q` as a mask. -/
def code (x : List Nat) (q : Nat) : Nat := if q % 2 = 0 then taps [0, 2, 3, 5, 6] x (q / 2) else taps [0, 1, 2, 3, 6] x (q / 2)

/-- The information bits: four of the 22 are zero. -/
def info : List Nat := (List.range 22).map fun i => if i = 5 ∨ i = 17 ∨ i = 18 ∨ i = 21 then 0 else 2 ^ i

/-- The code bit in position `i` of the header of option `opt`. -/
def at' (opt il i : Nat) : Nat :=
  let M := Ref.headerMcs opt
  let K := depth il opt M
  i / K * K + Ref.source K (rows M) (step M) (i % K)

/-- The evaluation. -/
theorem masks : ∀ opt ∈ [1, 2, 3, 4], ∀ il ∈ [0, 1],
    ((Rx.telltale opt).map fun i => code (info ++ crc info) (at' opt il i)).foldr (· ^^^ ·) 0 = if (opt = 1) = (il = 0) then one else 0 := by decide +kernel

end SunPhy.HeaderParity
