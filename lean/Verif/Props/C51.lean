import Verif.Proofs.Dsss
import Verif.Props.C38
/-
C51 — the DSSS spreading tables are consistent codes.
C52 — DSSS spreading is reversible, also with chip errors.
-/
namespace SunPhy.C51
open SunPhy Spec

/-- Group size, chips per group and minimum distance `(n, x, d)` announced by the name of each table. -/
def sizes : Code → Nat × Nat × Nat
  | .c2_1 => (1, 2, 2) | .c4_1 => (1, 4, 4) | .c8_1_0 => (1, 8, 8) | .c8_1_1 => (1, 8, 8) | .c16_1_0 => (1, 16, 16) | .c16_1_1 => (1, 16, 16)
  | .c32_1_0 => (1, 32, 32) | .c32_1_1 => (1, 32, 32) | .c64_1 => (1, 64, 64) | .c128_1 => (1, 128, 128)
  | .c8_4 => (4, 8, 4) | .c16_4 => (4, 16, 6) | .c32_4 => (4, 32, 12)

/-- **C51 (tables).**  Each table has `2^n` entries; keys have `n` bits and are distinct, codewords have `x` chips, and two entries
differ in at least `d` chips, `d` being attained. -/
theorem C51_tables (c : Code) :
    c.table.length = 2 ^ (sizes c).1 ∧
    (∀ e ∈ c.table, e.1.length = (sizes c).1 ∧ e.2.length = (sizes c).2.1) ∧
    (∀ e ∈ c.table, ∀ e' ∈ c.table, e ≠ e' → e.1 ≠ e'.1 ∧ (sizes c).2.2 ≤ hamming e.2 e'.2) ∧
    ∃ e ∈ c.table, ∃ e' ∈ c.table, e ≠ e' ∧ hamming e.2 e'.2 = (sizes c).2.2 := by
  cases c <;> decide +kernel

/-- **C51 (one-bit tables).**  The chips of `0` and `1` are complementary. -/
theorem C51_complementary (c : Code) (h : (sizes c).1 = 1) :
    c.lookup [true] = (c.lookup [false]).map (List.map not) ∧ ∃ x, c.lookup [false] = .ok x := by
  cases c <;> first | (exfalso; revert h; decide) | exact ⟨by decide +kernel, _, rfl⟩

/-- The spreading tuples used by the modulator. -/
def Configured (codes : List Code) : Prop :=
  ∃ b, codes = shrSpreading b ∨ codes = phrSpreading b ∨ ∃ rm, psduSpreadingDsss b rm = .ok (some codes)

theorem configured_mem {codes : List Code} (h : Configured codes) :
    codes ∈ [[.c32_1_0], [.c32_1_0, .c32_1_1], [.c64_1], [.c128_1], [.c8_1_0, .c8_1_1], [.c16_1_0, .c16_1_1], [.c4_1], [.c16_4],
      [.c32_4], [.c2_1], [Code.c8_4]] := by
  obtain ⟨b, h⟩ := h
  rcases h with rfl | rfl | ⟨rm, h⟩
  · cases b <;> decide
  · cases b <;> decide
  · unfold psduSpreadingDsss at h
    split at h
    · have := Option.some.inj (Except.ok.inj h); subst this; cases b <;> decide
    split at h
    · have := Option.some.inj (Except.ok.inj h); subst this; cases b <;> decide
    split at h
    · have := Option.some.inj (Except.ok.inj h); subst this; cases b <;> decide
    split at h
    · cases b <;> first | (cases Except.ok.inj h; decide) | cases h
    · cases h

/-- All the codes of a configured tuple have the sizes of its first one. -/
theorem configured_sizes {codes : List Code} (h : Configured codes) :
    ∃ n x d, Uniform codes n x ∧ 0 < d ∧ ∀ c ∈ codes, sizes c = (n, x, d) := by
  have := configured_mem h
  clear h
  simp only [List.mem_cons, List.not_mem_nil, or_false] at this
  have mk : ∀ (codes : List Code) (n x d : Nat), (codes ≠ [] ∧ (∀ c ∈ codes, c.keyLen = n) ∧ (∀ c ∈ codes, c.chipLen = x) ∧ 0 < d ∧ ∀ c ∈ codes, sizes c = (n, x, d)) →
      ∃ n x d, Uniform codes n x ∧ 0 < d ∧ ∀ c ∈ codes, sizes c = (n, x, d) :=
    fun codes n x d h => ⟨n, x, d, ⟨h.1, h.2.1, h.2.2.1⟩, h.2.2.2.1, h.2.2.2.2⟩
  rcases this with rfl | rfl | rfl | rfl | rfl | rfl | rfl | rfl | rfl | rfl | rfl
  · exact mk _ 1 32 32 (by decide +kernel)
  · exact mk _ 1 32 32 (by decide +kernel)
  · exact mk _ 1 64 64 (by decide +kernel)
  · exact mk _ 1 128 128 (by decide +kernel)
  · exact mk _ 1 8 8 (by decide +kernel)
  · exact mk _ 1 16 16 (by decide +kernel)
  · exact mk _ 1 4 4 (by decide +kernel)
  · exact mk _ 4 16 6 (by decide +kernel)
  · exact mk _ 4 32 12 (by decide +kernel)
  · exact mk _ 1 2 2 (by decide +kernel)
  · exact mk _ 4 8 4 (by decide +kernel)

/-- Decoding of one chip block: the key of the first codeword at less than half the distance `d`. -/
def despreadBlock (c : Code) (d : Nat) (blk : Bits) : Bits :=
  ((c.table.find? fun e => decide (2 * hamming e.2 blk < d)).map (·.1)).getD []

/-- Decoding of a chip sequence, blocks of `x` chips, the codes being used in turn. -/
def despread (codes : List Code) (x d : Nat) (r : Bits) : Bits :=
  ((chunks x r).zipIdx).flatMap fun (b : Bits × Nat) =>
    match codes[b.2 % codes.length]? with
    | some c => despreadBlock c d b.1
    | none => []

/-- **C52 (spreading).**  For a message of a whole number of `n`-bit groups, block `i` of the output is the codeword of group `i` in
code `i mod k` of the tuple; the size is `(len/n)·x`.  Other sizes raise `ValueError`. -/
theorem C52_spread (codes : List Code) (hc : Configured codes) (c0 : Code) (h0 : codes[0]? = some c0) (m : Bits) :
    (m.length % (sizes c0).1 ≠ 0 → dsss m codes = .error .ValueError) ∧
    (m.length % (sizes c0).1 = 0 → ∃ out, dsss m codes = .ok out ∧ out.length = m.length / (sizes c0).1 * (sizes c0).2.1 ∧
      ∀ i < m.length / (sizes c0).1, ∃ c, codes[i % codes.length]? = some c ∧
        ((m.drop (i * (sizes c0).1)).take (sizes c0).1, (out.drop (i * (sizes c0).2.1)).take (sizes c0).2.1) ∈ c.table) := by
  obtain ⟨n, x, d, hu, -, hs⟩ := configured_sizes hc
  rw [hs c0 (List.mem_of_getElem? h0)]
  simp only
  refine ⟨dsss_error hu m, fun hm => ⟨_, dsss_ok hu m hm, spreadOf_length hu m, fun i hi => ?_⟩⟩
  obtain ⟨c, hc, hmem⟩ := uniform_get hu i
  refine ⟨c, hc, ?_⟩
  have hx := (uniform_pos hu).2
  have hn := (uniform_pos hu).1
  have e1 : (chunks x (spreadOf codes n m))[i]? = some (((spreadOf codes n m).drop (i * x)).take x) := by
    unfold chunks
    rw [List.getElem?_map, List.getElem?_range (by rw [spreadOf_length hu, Nat.mul_div_cancel _ hx]; exact hi)]; rfl
  have e2 : (chunks n m)[i]? = some ((m.drop (i * n)).take n) := by
    unfold chunks
    rw [List.getElem?_map, List.getElem?_range hi]; rfl
  rw [spreadOf_chunks hu, List.getElem?_map, List.getElem?_zipIdx, e2] at e1
  simp only [Option.map_some, Option.some.injEq, Nat.zero_add] at e1
  rw [← e1]
  unfold rowChips
  rw [hc]
  refine (lookup_ok c _ ?_).2.2
  rw [hu.key c hmem]
  have hle : (i + 1) * n ≤ m.length := by
    have := Nat.mul_le_mul_right n (show i + 1 ≤ m.length / n from hi)
    exact Nat.le_trans this (Nat.div_mul_le_self _ _)
  rw [Nat.add_mul] at hle
  simp; omega

theorem despread_one {c : Code} {n x d : Nat} (hs : sizes c = (n, x, d)) (key blk : Bits) (hk : key.length = c.keyLen)
    (hb : blk.length = x) (hd : 2 * hamming blk (c.chips key) < d) : despreadBlock c d blk = key := by
  obtain ⟨-, hl, hm⟩ := lookup_ok c key hk
  obtain ⟨-, hlen, hdist, -⟩ := C51_tables c
  rw [hs] at hlen hdist
  simp only at hlen hdist
  unfold despreadBlock
  have hcl : (c.chips key).length = x := (hlen _ hm).2
  cases hf : c.table.find? fun e => decide (2 * hamming e.2 blk < d) with
  | none =>
    have := List.find?_eq_none.1 hf _ hm
    rw [C38.hamming_comm] at hd
    simp at this; omega
  | some e =>
    have he := List.mem_of_find?_eq_some hf
    have hp := List.find?_some hf
    simp only [decide_eq_true_eq] at hp
    have : e = (key, c.chips key) := by
      by_contra hne
      have h1 := (hdist e he _ hm hne).2
      have h2 := C38.hamming_triangle e.2 blk (c.chips key) (by rw [(hlen e he).2, hb]) (by rw [hcl, hb])
      simp only at h1
      omega
    rw [this]; rfl

/-- **C52 (recovery).**  If each received chip block has fewer than `d/2` errors, decoding the blocks restores the message. -/
theorem C52_recover (codes : List Code) (hc : Configured codes) (c0 : Code) (h0 : codes[0]? = some c0) (m out r : Bits)
    (h : dsss m codes = .ok out) (hr : r.length = out.length)
    (herr : ∀ i, 2 * hamming ((r.drop (i * (sizes c0).2.1)).take (sizes c0).2.1) ((out.drop (i * (sizes c0).2.1)).take (sizes c0).2.1) < (sizes c0).2.2) :
    despread codes (sizes c0).2.1 (sizes c0).2.2 r = m := by
  obtain ⟨n, x, d, hu, hd0, hs⟩ := configured_sizes hc
  rw [hs c0 (List.mem_of_getElem? h0)] at *
  simp only at *
  have hm : m.length % n = 0 := by
    by_contra hm
    rw [dsss_error hu m hm] at h; cases h
  rw [dsss_ok hu m hm] at h
  obtain rfl := Except.ok.inj h
  have hx := (uniform_pos hu).2
  have hn := (uniform_pos hu).1
  unfold despread
  have key : (((chunks x r).zipIdx).map fun (b : Bits × Nat) => match codes[b.2 % codes.length]? with | some c => despreadBlock c d b.1 | none => [])
      = chunks n m := by
    apply List.ext_getElem?
    intro i
    have hlr : r.length / x = m.length / n := by rw [hr, spreadOf_length hu, Nat.mul_div_cancel _ hx]
    by_cases hi : i < m.length / n
    · have e1 : (chunks x r)[i]? = some ((r.drop (i * x)).take x) := by
        unfold chunks
        rw [List.getElem?_map, List.getElem?_range (by omega)]; rfl
      have e2 : (chunks n m)[i]? = some ((m.drop (i * n)).take n) := by
        unfold chunks
        rw [List.getElem?_map, List.getElem?_range hi]; rfl
      have e3 : (chunks x (spreadOf codes n m))[i]? = some (((spreadOf codes n m).drop (i * x)).take x) := by
        unfold chunks
        rw [List.getElem?_map, List.getElem?_range (by rw [spreadOf_length hu, Nat.mul_div_cancel _ hx]; exact hi)]; rfl
      rw [spreadOf_chunks hu, List.getElem?_map, List.getElem?_zipIdx, e2] at e3
      simp only [Option.map_some, Option.some.injEq, Nat.zero_add] at e3
      obtain ⟨c, hcc, hmem⟩ := uniform_get hu i
      rw [List.getElem?_map, List.getElem?_zipIdx, e1, e2]
      simp only [Option.map_some, Nat.zero_add, hcc, Option.some.injEq]
      have hk : (List.take n (List.drop (i * n) m)).length = n := mem_chunks_length (List.mem_of_getElem? e2)
      refine despread_one (hs c hmem) _ _ (by rw [hu.key c hmem, hk]) (mem_chunks_length (List.mem_of_getElem? e1)) ?_
      have := herr i
      rw [← e3] at this
      unfold rowChips at this
      rw [hcc] at this
      exact this
    · rw [List.getElem?_eq_none, List.getElem?_eq_none]
      · simp [chunks_length]; omega
      · simp [chunks_length]; omega
  rw [List.flatMap_def, key, chunks_flatten hn m hm]

/-- **C52 (injective).** -/
theorem C52_injective (codes : List Code) (hc : Configured codes) (m m' out : Bits) (h : dsss m codes = .ok out)
    (h' : dsss m' codes = .ok out) : m = m' := by
  obtain ⟨n, x, d, hu, hd, hs⟩ := configured_sizes hc
  obtain ⟨c0, h0, hmem⟩ := uniform_get hu 0
  rw [Nat.zero_mod] at h0
  have hd' : 0 < (sizes c0).2.2 := by rw [hs c0 hmem]; exact hd
  rw [← C52_recover codes hc c0 h0 m out out h rfl (fun i => by rw [hamming_self]; omega),
    ← C52_recover codes hc c0 h0 m' out out h' rfl (fun i => by rw [hamming_self]; omega)]

/-- A configured tuple of two codes, a message, and a chip error that is corrected. -/
example : Configured [.c8_1_0, .c8_1_1] ∧
    dsss [true, false] [.c8_1_0, .c8_1_1] = .ok (natBits 16 0b0100111001100011) ∧
    despread [.c8_1_0, .c8_1_1] 8 8 (natBits 16 0b0101111001110011) = [true, false] :=
  ⟨⟨.b470, .inr (.inl rfl)⟩, by decide +kernel, by decide +kernel⟩

end SunPhy.C51
