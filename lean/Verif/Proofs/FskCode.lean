import Verif.Model.MrFsk
import Verif.Proofs.Conv
/-
Lemmas about the two MR-FSK convolutional encoders of `Model/MrFsk.lean`.
-/
namespace SunPhy
open Spec

/-- New register / `ui0` / `ui1`. -/
def fskStep (s : Nat) (M : Nat) (b : Bool) : Nat := (fskIter s M b).1
def fskU0 (s : Nat) (M : Nat) (b : Bool) : Bool := (fskIter s M b).2.1
def fskU1 (s : Nat) (M : Nat) (b : Bool) : Bool := (fskIter s M b).2.2

theorem fskIter_scheme {s : Nat} (h : s ≠ 0) : fskIter s = fskIter 1 := by
  funext M b; simp [fskIter, h]

theorem scheme01 {P : Nat → Prop} (hc : ∀ s, s ≠ 0 → (P 1 → P s)) (h0 : P 0) (h1 : P 1) : ∀ s, P s := by
  intro s
  by_cases h : s = 0
  · subst h; exact h0
  · exact hc s h h1

theorem fskEncode_nil (s M : Nat) : fskEncode s M [] = ([], M) := rfl
theorem fskEncode_cons (s M : Nat) (b : Bool) (bs : Bits) :
    fskEncode s M (b :: bs) = (fskU1 s M b :: fskU0 s M b :: (fskEncode s (fskStep s M b) bs).1,
      (fskEncode s (fskStep s M b) bs).2) := rfl

theorem fskEncode_append (s M : Nat) (x y : Bits) :
    fskEncode s M (x ++ y) = ((fskEncode s M x).1 ++ (fskEncode s (fskEncode s M x).2 y).1,
      (fskEncode s (fskEncode s M x).2 y).2) := by
  induction x generalizing M with
  | nil => rfl
  | cons b x ih => simp only [List.cons_append, fskEncode_cons, ih]

theorem fskEncode_length (s M : Nat) (x : Bits) : (fskEncode s M x).1.length = 2 * x.length := by
  induction x generalizing M with
  | nil => rfl
  | cons b x ih => simp only [fskEncode_cons, List.length_cons, ih]; omega

theorem fskStep_lt01 : ∀ s < 2, ∀ M < 8, ∀ b, fskStep s M b < 8 := by decide +kernel
theorem fskStep_lt (s : Nat) {M : Nat} (h : M < 8) (b : Bool) : fskStep s M b < 8 := by
  by_cases h0 : s = 0
  · subst h0; exact fskStep_lt01 0 (by decide) M h b
  · unfold fskStep; rw [fskIter_scheme h0]; exact fskStep_lt01 1 (by decide) M h b

theorem fskState_lt (s : Nat) {M : Nat} (h : M < 8) (x : Bits) : (fskEncode s M x).2 < 8 := by
  induction x generalizing M with
  | nil => exact h
  | cons b x ih => rw [fskEncode_cons]; exact ih (fskStep_lt s h b)

theorem fskTail01 : ∀ s < 2, ∀ M < 8, (fskEncode s M (fskTailBits s M)).2 = 0 := by decide +kernel

theorem fskEncode_scheme {s : Nat} (h : s ≠ 0) : ∀ (x : Bits) (M : Nat), fskEncode s M x = fskEncode 1 M x := by
  intro x
  induction x with
  | nil => intro M; rfl
  | cons b x ih => intro M; rw [fskEncode_cons, fskEncode_cons, ih]; unfold fskU0 fskU1 fskStep; rw [fskIter_scheme h]

theorem fskTail_zero (s : Nat) {M : Nat} (h : M < 8) : (fskEncode s M (fskTailBits s M)).2 = 0 := by
  by_cases h0 : s = 0
  · subst h0; exact fskTail01 0 (by decide) M h
  · rw [fskEncode_scheme h0]
    have : fskTailBits s M = fskTailBits 1 M := by simp [fskTailBits, h0]
    rw [this]; exact fskTail01 1 (by decide) M h

theorem fskTail_length (s M : Nat) : (fskTailBits s M).length = 3 := by
  unfold fskTailBits
  split
  · unfold rscTailBits; split <;> rfl
  · rfl

/-- Affine structure of the edge labels: the difference of two edges is the edge of the differences, up to the constant
label of the zero edge (NRNSC outputs are inverted). -/
theorem fsk_affine : ∀ s < 2, ∀ v < 8, ∀ v' < 8, ∀ b b',
    (fskU0 s v b ^^ fskU0 s v' b') = (fskU0 s (v ^^^ v') (b ^^ b') ^^ fskU0 s 0 false) ∧
    (fskU1 s v b ^^ fskU1 s v' b') = (fskU1 s (v ^^^ v') (b ^^ b') ^^ fskU1 s 0 false) ∧
    fskStep s v b ^^^ fskStep s v' b' = fskStep s (v ^^^ v') (b ^^ b') := by decide +kernel

/-- Weight of the difference edge. -/
def fskW (s v : Nat) (b : Bool) : Nat := b2n (fskU0 s v b ^^ fskU0 s 0 false) + b2n (fskU1 s v b ^^ fskU1 s 0 false)

/-- Certificate: least weight of a path from each register value to 0. -/
def potFsk : List Nat := [0, 2, 4, 2, 4, 4, 3, 3]

theorem potFsk_ok : ∀ s < 2, ∀ v < 8, ∀ b, potFsk.getD v 0 ≤ fskW s v b + potFsk.getD (fskStep s v b) 0 := by decide +kernel
theorem potFsk_start : ∀ s < 2, 6 ≤ fskW s 0 true + potFsk.getD (fskStep s 0 true) 0 := by decide +kernel

theorem fsk_edge {s : Nat} (hs : s < 2) {v v' : Nat} (h : v < 8) (h' : v' < 8) (b b' : Bool) (x y : Bits) :
    hamming (fskU1 s v b :: fskU0 s v b :: x) (fskU1 s v' b' :: fskU0 s v' b' :: y) = fskW s (v ^^^ v') (b ^^ b') + hamming x y := by
  rw [hamming_cons, hamming_cons, (fsk_affine s hs v h v' h' b b').1, (fsk_affine s hs v h v' h' b b').2.1]
  unfold fskW b2n
  omega

theorem fsk_dist {s : Nat} (hs : s < 2) (x x' : Bits) : ∀ {v v' : Nat}, v < 8 → v' < 8 → x.length = x'.length →
    (fskEncode s v x).2 = (fskEncode s v' x').2 →
    potFsk.getD (v ^^^ v') 0 ≤ hamming (fskEncode s v x).1 (fskEncode s v' x').1 := by
  induction x generalizing x' with
  | nil =>
    intro v v' _ _ hl he
    cases x' with
    | nil =>
      have : v = v' := he
      subst this
      rw [Nat.xor_self]; exact Nat.zero_le _
    | cons => simp at hl
  | cons b x ih =>
    intro v v' hv hv' hl he
    cases x' with
    | nil => simp at hl
    | cons b' x' =>
      rw [fskEncode_cons, fskEncode_cons] at he ⊢
      simp only at he ⊢
      rw [fsk_edge hs hv hv']
      have i := ih x' (fskStep_lt s hv b) (fskStep_lt s hv' b') (by simpa using hl) he
      rw [(fsk_affine s hs v hv v' hv' b b').2.2] at i
      have := potFsk_ok s hs (v ^^^ v') (Nat.xor_lt_two_pow (n := 3) hv hv') (b ^^ b')
      omega

theorem fsk_dist_start {s : Nat} (hs : s < 2) (x x' : Bits) : ∀ {v : Nat}, v < 8 → x.length = x'.length → x ≠ x' →
    (fskEncode s v x).2 = (fskEncode s v x').2 → 6 ≤ hamming (fskEncode s v x).1 (fskEncode s v x').1 := by
  induction x generalizing x' with
  | nil =>
    intro v _ hl hne _
    cases x' with
    | nil => exact absurd rfl hne
    | cons => simp at hl
  | cons b x ih =>
    intro v hv hl hne he
    cases x' with
    | nil => simp at hl
    | cons b' x' =>
      rw [fskEncode_cons, fskEncode_cons] at he ⊢
      simp only at he ⊢
      rw [fsk_edge hs hv hv, Nat.xor_self]
      by_cases hb : b = b'
      · subst hb
        have := ih x' (fskStep_lt s hv b) (by simpa using hl) (fun e => hne (by rw [e])) he
        omega
      · have e : (b ^^ b') = true := by cases b <;> cases b' <;> simp_all
        have i := fsk_dist hs x x' (fskStep_lt s hv b) (fskStep_lt s hv b') (by simpa using hl) he
        rw [(fsk_affine s hs v hv v hv b b').2.2, Nat.xor_self, e] at i
        have := potFsk_start s hs
        rw [e]; omega

/-- `_FEC` with tail and pad is one run of the encoder over `data ++ tail ++ pad`. -/
theorem fskFec_eq (s : Nat) (data : Bits) :
    fskFec s data = (fskEncode s 0 (data ++ fskTailBits s (fskEncode s 0 data).2 ++ fskPadBits data.length)).1 := by
  unfold fskFec
  rw [fskEncode_append, fskEncode_append]
  simp only [if_true, List.append_assoc]

theorem fskPad_length (d : Nat) : (fskPadBits d).length = if d / 8 % 2 = 0 then 13 else 5 := by
  unfold fskPadBits; split <;> rfl

theorem fskFec_length (s : Nat) (data : Bits) :
    (fskFec s data).length = 2 * (data.length + 3 + if data.length / 8 % 2 = 0 then 13 else 5) := by
  rw [fskFec_eq, fskEncode_length, List.length_append, List.length_append, fskTail_length, fskPad_length]

/-- Different inputs give different code bits (from any 3-bit register). -/
theorem fskU_inj : ∀ s < 2, ∀ v < 8, ∀ b b', fskU0 s v b = fskU0 s v b' → b = b' := by decide +kernel

theorem fskEncode_inj {s : Nat} (hs : s < 2) (x x' : Bits) : ∀ {v : Nat}, v < 8 →
    (fskEncode s v x).1 = (fskEncode s v x').1 → x = x' := by
  induction x generalizing x' with
  | nil =>
    intro v _ h
    cases x' with
    | nil => rfl
    | cons b x' => rw [fskEncode_cons, fskEncode_nil] at h; simp at h
  | cons b x ih =>
    intro v hv h
    cases x' with
    | nil => rw [fskEncode_cons, fskEncode_nil] at h; simp at h
    | cons b' x' =>
      rw [fskEncode_cons, fskEncode_cons] at h
      simp only [List.cons.injEq] at h
      have := fskU_inj s hs v hv b b' h.2.1
      subst this
      rw [ih x' (fskStep_lt s hv b) h.2.2]

end SunPhy
