import Verif.Proofs.FskCode
import Verif.Props.C10
/-
C36 — MR-FSK FEC terminates the trellis.
C64 — the two MR-FSK encoders are the standard's convolutional codes.
-/
namespace SunPhy.C36
open SunPhy Spec

/-- The register (three most recent bits, most recent in bit 2). -/
def reg3 (b0 b1 b2 : Bool) : Nat := b2n b0 * 4 + b2n b1 * 2 + b2n b2
def regOf3 (past : Bits) : Nat := reg3 (past.getD 0 false) (past.getD 1 false) (past.getD 2 false)

theorem nrnsc_reg : ∀ a b c x, nrnscIter (reg3 a b c) x = (reg3 x a b, !(x ^^ a ^^ b ^^ c), !(x ^^ b ^^ c)) := by decide
theorem rsc_reg : ∀ a b c x, rscIter (reg3 a b c) x = (reg3 (x ^^ a ^^ b ^^ c) a b, x, ((x ^^ a ^^ b ^^ c) ^^ b ^^ c)) := by decide

theorem nrnsc_taps (x : Bits) : ∀ (past : Bits) (i : Nat), i < x.length →
    (fskEncode 0 (regOf3 past) x).1[2 * i]? = some (!tapSum [0, 2, 3] (past.reverse ++ x) (past.length + i)) ∧
    (fskEncode 0 (regOf3 past) x).1[2 * i + 1]? = some (!tapSum [0, 1, 2, 3] (past.reverse ++ x) (past.length + i)) := by
  induction x with
  | nil => intro past i h; simp at h
  | cons b x ih =>
    intro past i h
    have hit : fskIter 0 (regOf3 past) b = _ := nrnsc_reg _ _ _ b
    rw [fskEncode_cons]
    unfold fskU0 fskU1 fskStep
    rw [hit]
    simp only
    cases i with
    | zero =>
      simp only [Nat.mul_zero, List.getElem?_cons_zero, Nat.zero_add, List.getElem?_cons_succ, Option.some.injEq]
      unfold tapSum
      simp only [List.map_cons, List.map_nil, List.foldr_cons, List.foldr_nil, C10.delayed_past, C10.delayed_now]
      generalize past.getD 0 false = p0
      generalize past.getD 1 false = p1
      generalize past.getD 2 false = p2
      clear ih h hit
      revert b p0 p1 p2
      decide
    | succ i =>
      have := ih (b :: past) i (by simpa using h)
      rw [show 2 * (i + 1) = 2 * i + 1 + 1 by omega]
      simp only [List.getElem?_cons_succ]
      rw [show past.length + (i + 1) = (b :: past).length + i by simp; omega]
      simpa [regOf3] using this

/-- The pad bits: 13 of them when the data has an even number of whole octets, else 5. -/
def pad (dataSize : Nat) : Bits := if dataSize / 8 % 2 = 0 then natBits 13 0b0101100001011 else natBits 5 0b01011

theorem pad_eq (n : Nat) : fskPadBits n = pad n := by
  unfold fskPadBits pad
  split <;> rfl

/-- **C64 (NRNSC).**  With `phyFSKFECScheme = 0` the coded bits are `1 + x[n] + x[n-2] + x[n-3]` and
`1 + x[n] + x[n-1] + x[n-2] + x[n-3]` modulo 2, `x` being the data, three zero tail bits and the pad bits; `x` is zero before the
start. -/
theorem C64_nrnsc (data x : Bits) (hx : x = data ++ [false, false, false] ++ pad data.length) :
    (fskFec 0 data).length = 2 * x.length ∧
      ∀ n, n < x.length →
        (fskFec 0 data)[2 * n]? = some (!tapSum [0, 2, 3] x n) ∧
        (fskFec 0 data)[2 * n + 1]? = some (!tapSum [0, 1, 2, 3] x n) := by
  have hF : fskFec 0 data = (fskEncode 0 (regOf3 []) x).1 := by
    rw [fskFec_eq, hx, pad_eq]; rfl
  refine ⟨by rw [hF, fskEncode_length], fun n hn => ?_⟩
  rw [hF]
  have := nrnsc_taps x [] n hn
  simpa using this

/-- The recursive stream `w[n] = x[n] + w[n-1] + w[n-2] + w[n-3]`, past values given most recent first. -/
def recStream (past : Bits) : Bits → Bits
  | [] => []
  | x :: xs => let w := x ^^ past.getD 0 false ^^ past.getD 1 false ^^ past.getD 2 false
               w :: recStream (w :: past) xs

theorem recStream_length (past x : Bits) : (recStream past x).length = x.length := by
  induction x generalizing past with
  | nil => rfl
  | cons b x ih => simp [recStream, ih]

theorem rsc_taps (x : Bits) : ∀ (past : Bits) (i : Nat), i < x.length →
    (recStream past x)[i]? = some (x.getD i false ^^ tapSum [1, 2, 3] (past.reverse ++ recStream past x) (past.length + i)) ∧
    (fskEncode 1 (regOf3 past) x).1[2 * i]? = some (tapSum [0, 2, 3] (past.reverse ++ recStream past x) (past.length + i)) ∧
    (fskEncode 1 (regOf3 past) x).1[2 * i + 1]? = some (x.getD i false) := by
  induction x with
  | nil => intro past i h; simp at h
  | cons b x ih =>
    intro past i h
    have hit : fskIter 1 (regOf3 past) b = _ := rsc_reg _ _ _ b
    rw [fskEncode_cons]
    unfold fskU0 fskU1 fskStep
    rw [hit]
    simp only [recStream]
    cases i with
    | zero =>
      simp only [Nat.mul_zero, List.getElem?_cons_zero, Nat.zero_add, List.getElem?_cons_succ, Option.some.injEq]
      unfold tapSum
      simp only [List.map_cons, List.map_nil, List.foldr_cons, List.foldr_nil, C10.delayed_past, C10.delayed_now, List.getD_cons_zero]
      generalize past.getD 0 false = p0
      generalize past.getD 1 false = p1
      generalize past.getD 2 false = p2
      clear ih h hit
      revert b p0 p1 p2
      decide
    | succ i =>
      have := ih ((b ^^ past.getD 0 false ^^ past.getD 1 false ^^ past.getD 2 false) :: past) i (by simpa using h)
      rw [show 2 * (i + 1) = 2 * i + 1 + 1 by omega]
      simp only [List.getElem?_cons_succ, List.getD_cons_succ]
      rw [show past.length + (i + 1) = ((b ^^ past.getD 0 false ^^ past.getD 1 false ^^ past.getD 2 false) :: past).length + i by
        simp; omega]
      simpa [regOf3] using this

theorem rsc_state (x : Bits) : ∀ past : Bits, (fskEncode 1 (regOf3 past) x).2 = regOf3 ((recStream past x).reverse ++ past) := by
  induction x with
  | nil => intro past; simp [fskEncode, recStream]
  | cons b x ih =>
    intro past
    have hit : fskIter 1 (regOf3 past) b = _ := rsc_reg _ _ _ b
    rw [fskEncode_cons]
    unfold fskStep
    rw [hit]
    have := ih ((b ^^ past.getD 0 false ^^ past.getD 1 false ^^ past.getD 2 false) :: past)
    simp only [recStream, List.reverse_cons, List.append_assoc, List.singleton_append]
    exact this

theorem recStream_append (past x y : Bits) :
    recStream past (x ++ y) = recStream past x ++ recStream ((recStream past x).reverse ++ past) y := by
  induction x generalizing past with
  | nil => simp [recStream]
  | cons b x ih => simp [recStream, ih]

theorem rsc_tail_zeros : ∀ a b c : Bool, recStream [a, b, c] (fskTailBits 1 (reg3 a b c)) = [false, false, false] := by decide

theorem recStream_past3 (past y : Bits) :
    recStream past y = recStream [past.getD 0 false, past.getD 1 false, past.getD 2 false] y := by
  have gen : ∀ (y past past' : Bits), (∀ i < 3, past.getD i false = past'.getD i false) → recStream past y = recStream past' y := by
    intro y
    induction y with
    | nil => intros; rfl
    | cons b y ih =>
      intro past past' h
      have h0 := h 0 (by decide); have h1 := h 1 (by decide); have h2 := h 2 (by decide)
      simp only [recStream, h0, h1, h2]
      congr 1
      apply ih
      intro i hi
      rcases i with _ | _ | _ | i
      · rfl
      · simpa using h0
      · simpa using h1
      · omega
  apply gen
  intro i hi
  rcases i with _ | _ | _ | i
  · rfl
  · rfl
  · rfl
  · omega

/-- **C64 (RSC).**  With `phyFSKFECScheme = 1` the second bit of each pair is the data bit itself (systematic), the first one is
`w[n] + w[n-2] + w[n-3]` of the recursive stream `w[n] = x[n] + w[n-1] + w[n-2] + w[n-3]` (zero before the start), where `x` is the data,
the three tail bits that make three consecutive `w` zero, and the pad bits. -/
theorem C64_rsc (data : Bits) :
    ∃ tail x w : Bits, tail.length = 3 ∧ x = data ++ tail ++ pad data.length ∧ w.length = x.length ∧
      (fskFec 1 data).length = 2 * x.length ∧
      (∀ j < 3, w[data.length + j]? = some false) ∧
      ∀ n, n < x.length →
        w[n]? = some (x.getD n false ^^ tapSum [1, 2, 3] w n) ∧
        (fskFec 1 data)[2 * n]? = some (tapSum [0, 2, 3] w n) ∧
        (fskFec 1 data)[2 * n + 1]? = some (x.getD n false) := by
  refine ⟨fskTailBits 1 (fskEncode 1 0 data).2, data ++ fskTailBits 1 (fskEncode 1 0 data).2 ++ pad data.length,
    recStream [] (data ++ fskTailBits 1 (fskEncode 1 0 data).2 ++ pad data.length), fskTail_length _ _, rfl, recStream_length _ _, ?_, ?_, ?_⟩
  · rw [fskFec_eq, fskEncode_length, pad_eq]
  · have hs := rsc_state data []
    rw [show regOf3 [] = 0 from rfl] at hs
    have ht : recStream ((recStream [] data).reverse ++ []) (fskTailBits 1 (fskEncode 1 0 data).2) = [false, false, false] := by
      rw [recStream_past3, hs]
      exact rsc_tail_zeros _ _ _
    intro j hj
    rw [recStream_append, recStream_append, ht, List.append_assoc, List.getElem?_append_right (by rw [recStream_length]; omega),
      recStream_length, show data.length + j - data.length = j by omega]
    rcases j with _ | _ | _ | j
    · rfl
    · rfl
    · rfl
    · omega
  · intro n hn
    rw [fskFec_eq, pad_eq]
    have := rsc_taps _ [] n hn
    rw [show regOf3 [] = 0 from rfl] at this
    simpa using this

/-- **C36 (register).**  After the data and the three tail bits the register of either encoder is 0, so the pad bits are encoded from
state 0. -/
theorem C36_terminated (scheme : Nat) (data : Bits) :
    ∃ tail : Bits, tail.length = 3 ∧ (fskEncode scheme 0 (data ++ tail)).2 = 0 ∧
      fskFec scheme data = (fskEncode scheme 0 (data ++ tail)).1 ++ (fskEncode scheme 0 (pad data.length)).1 ∧
      fskFec scheme data true false = (fskEncode scheme 0 (data ++ tail)).1 := by
  refine ⟨fskTailBits scheme (fskEncode scheme 0 data).2, fskTail_length _ _, ?_, ?_, ?_⟩
  · rw [fskEncode_append]; exact fskTail_zero scheme (fskState_lt scheme (by decide) data)
  · have hz : (fskEncode scheme (fskEncode scheme 0 data).2 (fskTailBits scheme (fskEncode scheme 0 data).2)).2 = 0 :=
      fskTail_zero scheme (fskState_lt scheme (by decide) data)
    rw [fskFec_eq, fskEncode_append, fskEncode_append, hz, pad_eq]
  · unfold fskFec
    rw [fskEncode_append]
    simp

/-- **C36 (observable).**  The coded pad bits at the end of the frame do not depend on the data: for equally long data they are the same
in every frame. -/
theorem C36_pad_independent (scheme : Nat) (data data' : Bits) (h : data.length = data'.length) :
    (fskFec scheme data).drop (2 * (data.length + 3)) = (fskFec scheme data').drop (2 * (data.length + 3)) := by
  obtain ⟨t, ht, -, e, -⟩ := C36_terminated scheme data
  obtain ⟨t', ht', -, e', -⟩ := C36_terminated scheme data'
  rw [e, e', List.drop_left' (by rw [fskEncode_length]; simp [ht]), List.drop_left' (by rw [fskEncode_length]; simp [ht', h]), h]

example : (fskEncode 1 0 [true, false, true]).2 ≠ 0 ∧ (fskEncode 0 0 [true, false, true]).2 ≠ 0 := by decide

end SunPhy.C36
