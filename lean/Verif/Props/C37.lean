import Verif.Proofs.FskFrame
/-
C37 — MR-FSK FEC output size fits the interleaver.
C39 — MR-FSK interleaving is a self-inverse block permutation.
-/
namespace SunPhy.C37
open SunPhy

/-- **C37 (size).**  Coded size for `d` data bits. -/
theorem C37_size (scheme : Nat) (data : Bits) :
    (fskFec scheme data).length = 2 * (data.length + 3 + if data.length / 8 % 2 = 0 then 13 else 5) := fskFec_length scheme data

/-- **C37 (octet-aligned).**  The coded size is a multiple of 32 exactly for whole numbers of octets. -/
theorem C37_multiple (scheme : Nat) (data : Bits) : (fskFec scheme data).length % 32 = 0 ↔ data.length % 8 = 0 := by
  rw [fskFec_length]
  split <;> omega

/-- **C39 (errors).**  The interleaver accepts exactly the sizes that are multiples of 32; other sizes raise `ValueError`. -/
theorem C39_accepts (data : Bits) :
    ((∃ out, fskInterleaver data = .ok out) ↔ data.length % 32 = 0) ∧
    (data.length % 32 ≠ 0 → fskInterleaver data = .error .ValueError) := by
  unfold fskInterleaver reshapeRows
  by_cases h : data.length % 32 = 0
  · rw [if_neg (by omega)]
    simp only [h, iff_true, ne_eq, not_true_eq_false, false_implies, and_true]
    exact ⟨_, rfl⟩
  · rw [if_pos (by omega)]
    refine ⟨⟨(fun ⟨_, h'⟩ => by cases h'), fun h' => absurd h' h⟩, fun _ => rfl⟩

theorem interleaver_ok {data : Bits} (h : data.length % 32 = 0) : fskInterleaver data = .ok ((chunks 32 data).flatMap fskInterleaveBlock) := by
  unfold fskInterleaver reshapeRows
  rw [if_neg (by omega)]; rfl

theorem block_form (b : Bits) : fskInterleaveBlock b = (List.range 32).map fun j => b.getD (2 * fskT (j / 2) + j % 2) false := by
  simp [fskInterleaveBlock, List.range, List.range.loop, fskT, List.replicate, List.set]

theorem block_length (b : Bits) : (fskInterleaveBlock b).length = 32 := by rw [block_form]; simp

theorem fskT_lt : ∀ k < 16, fskT k < 16 := by decide
theorem fskT_invol : ∀ k < 16, fskT (fskT k) = k := by decide

theorem block_invol {b : Bits} (h : b.length = 32) : fskInterleaveBlock (fskInterleaveBlock b) = b := by
  apply List.ext_getElem?
  intro j
  by_cases hj : j < 32
  · rw [block_form, List.getElem?_map, List.getElem?_range hj, Option.map_some, block_form, List.getElem?_eq_getElem (by omega)]
    have hk : j / 2 < 16 := by omega
    have ht := fskT_lt _ hk
    rw [List.getD_eq_getElem?_getD, List.getElem?_map, List.getElem?_range (by omega), Option.map_some, Option.getD_some,
      show (2 * fskT (j / 2) + j % 2) / 2 = fskT (j / 2) by omega, show (2 * fskT (j / 2) + j % 2) % 2 = j % 2 by omega,
      fskT_invol _ hk, show 2 * (j / 2) + j % 2 = j by omega, List.getD_eq_getElem?_getD, List.getElem?_eq_getElem (by omega),
      Option.getD_some]
  · rw [List.getElem?_eq_none (by rw [block_length]; omega), List.getElem?_eq_none (by omega)]

theorem interleaver_length {data : Bits} (h : data.length % 32 = 0) : ((chunks 32 data).flatMap fskInterleaveBlock).length = data.length := by
  rw [flatMap_length_const _ 32 _ (fun b _ => block_length b), chunks_length]; omega

/-- **C39 (involution).**  Interleaving twice gives the input back. -/
theorem C39_involution (data out : Bits) (h : fskInterleaver data = .ok out) : fskInterleaver out = .ok data ∧ out.length = data.length := by
  have hm : data.length % 32 = 0 := (C39_accepts data).1.1 ⟨_, h⟩
  rw [interleaver_ok hm] at h
  have hl := interleaver_length hm
  rw [Except.ok.inj h] at hl
  refine ⟨?_, hl⟩
  rw [interleaver_ok (by omega), ← Except.ok.inj h]
  congr 1
  rw [show (chunks 32 data).flatMap fskInterleaveBlock = ((chunks 32 data).map fskInterleaveBlock).flatten from rfl,
    chunks_of_flatten (by decide) _ (by simp [block_length])]
  rw [List.flatMap_map]
  have : ∀ c ∈ chunks 32 data, (fskInterleaveBlock (fskInterleaveBlock c)) = c := fun c hc => block_invol (mem_chunks_length hc)
  rw [show (chunks 32 data).flatMap (fun a => fskInterleaveBlock (fskInterleaveBlock a)) =
    ((chunks 32 data).map fun a => fskInterleaveBlock (fskInterleaveBlock a)).flatten from rfl, List.map_congr_left this, List.map_id',
    chunks_flatten (by decide) _ hm]

/-- **C39 (permutation).**  Bit `i` of block `q` moves to the pair `15 - 4*(k mod 4) - k/4` of the same block, `k = i/2` being its pair,
keeping its place in the pair. -/
theorem C39_permutation (data out : Bits) (h : fskInterleaver data = .ok out) (q i : Nat) (hi : i < 32) (hq : 32 * q + i < data.length) :
    out[32 * q + 2 * (15 - 4 * (i / 2 % 4) - i / 2 / 4) + i % 2]? = data[32 * q + i]? := by
  have hm : data.length % 32 = 0 := (C39_accepts data).1.1 ⟨_, h⟩
  rw [interleaver_ok hm] at h
  have hb : ∀ (bs : List Bits), (∀ b ∈ bs, b.length = 32) → ∀ (q j : Nat), j < 32 → q < bs.length →
      ((bs.map fskInterleaveBlock).flatten)[32 * q + j]? = ((bs.flatten)[32 * q + (2 * fskT (j / 2) + j % 2)]?) := by
    intro bs
    induction bs with
    | nil => intro _ q j _ h; simp at h
    | cons b bs ih =>
      intro hbs q j hj hq
      have hb32 := hbs b (by simp)
      have ht := fskT_lt (j / 2) (by omega)
      rw [List.map_cons, List.flatten_cons, List.flatten_cons]
      cases q with
      | zero =>
        simp only [Nat.mul_zero, Nat.zero_add]
        rw [List.getElem?_append_left (by rw [block_length]; omega), List.getElem?_append_left (by omega), block_form,
          List.getElem?_map, List.getElem?_range (by omega), Option.map_some, List.getD_eq_getElem?_getD,
          List.getElem?_eq_getElem (by omega : 2 * fskT (j / 2) + j % 2 < b.length), Option.getD_some]
      | succ q =>
        rw [List.getElem?_append_right (by rw [block_length]; omega), List.getElem?_append_right (by omega), block_length, hb32,
          show 32 * (q + 1) + j - 32 = 32 * q + j by omega,
          show 32 * (q + 1) + (2 * fskT (j / 2) + j % 2) - 32 = 32 * q + (2 * fskT (j / 2) + j % 2) by omega]
        exact ih (fun b hb => hbs b (by simp [hb])) q j hj (by simpa using hq)
  have e := hb (chunks 32 data) (fun b hb => mem_chunks_length hb) q (2 * fskT (i / 2) + i % 2)
    (by have := fskT_lt (i / 2) (by omega); omega) (by rw [chunks_length]; omega)
  have hk : i / 2 < 16 := by omega
  rw [show (2 * fskT (i / 2) + i % 2) / 2 = fskT (i / 2) by omega, show (2 * fskT (i / 2) + i % 2) % 2 = i % 2 by omega, fskT_invol _ hk,
    show 2 * (i / 2) + i % 2 = i by omega, chunks_flatten (by decide) _ hm] at e
  rw [← e, ← Except.ok.inj h, Nat.add_assoc]
  rfl

/-- **C37 (frames).**  With FEC and interleaving, a bit message of fewer than 2048 octets is modulated exactly when it is a whole number of
octets; otherwise `ValueError`.  Without interleaving (or FEC) every such message is. -/
theorem C37_frames (o : FskObj) (a : Arg) (m : Bits) (hm : checkBinaryArray a = .ok m) (hl : m.length / 8 < 2048) :
    ((∃ bits, ((fskBinary a).call o).1 = .ok bits) ↔ (m.length % 8 = 0 ∨ ¬ (o.params.fecEnabled = true ∧ o.params.interleaving = true))) ∧
    (∀ e, ((fskBinary a).call o).1 = .error e → e = .ValueError) := by
  rw [(fskBinary_result a o).1, hm]
  simp only
  unfold fskBits
  rw [fsk_phr_ok _ hl]
  simp only
  unfold fskCoded
  cases o.params.fecEnabled
  · simp
  · cases o.params.interleaving
    · simp
    · simp only [if_true, not_true_eq_false, and_self, or_false]
      generalize hh : [false, false, false, o.params.fcsType == 1, o.params.scramble] ++ natBits 11 (m.length / 8) ++ m = d
      have hd : d.length = 16 + m.length := by rw [← hh]; simp [natBits_length]; omega
      have key := C37_multiple o.params.fecScheme d
      by_cases h8 : m.length % 8 = 0
      · rw [interleaver_ok (key.2 (by omega))]
        simp [h8]
      · rw [(C39_accepts _).2 (fun h => h8 (by have := key.1 h; omega))]
        simp [h8]

example : (fskInterleaver (List.replicate 15 true ++ List.replicate 17 false)).toBool = true := by decide
example : checkBinaryArray (bitsArg (List.replicate 13 true)) = .ok (List.replicate 13 true) ∧ 13 / 8 < 2048 := by decide +kernel

end SunPhy.C37
