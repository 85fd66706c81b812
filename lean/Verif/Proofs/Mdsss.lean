import Verif.Proofs.OqpskCode
import Verif.Proofs.OfdmStream
/-
The MDSSS spreader.
-/
namespace SunPhy

/-- Codeword of a group of three bits. -/
def groupWord (N : Nat) (g : Bits) : Res (List Int) := do hadamardCodeword N 3 (← toInt g)

theorem groupWord_ok : ∀ N ∈ [4, 8, 16, 32], ∀ a b c,
    (groupWord N [a, b, c]).map List.length = .ok N := by decide +kernel

theorem groupWord_some {N : Nat} (hN : N ∈ [4, 8, 16, 32]) {g : Bits} (hg : g.length = 3) : ∃ r, groupWord N g = .ok r ∧ r.length = N := by
  obtain ⟨a, b, c, rfl⟩ := bits3 hg
  have := groupWord_ok N hN a b c
  cases e : groupWord N [a, b, c] with
  | error _ => rw [e] at this; cases this
  | ok r => rw [e] at this; exact ⟨r, rfl, Except.ok.inj this⟩

theorem hadamardRow_ok {N : Nat} (hN : N ∈ [4, 8, 16, 32]) {bs : Bits} (h3 : bs.length % 3 = 0) (hne : 0 < bs.length) :
    ∃ r, hadamardEncodeRow N bs = .ok r ∧ r.length = bs.length / 3 * N := by
  have hl : (chunks 3 bs).length = bs.length / 3 := chunks_length _ _
  let g (x : Bits) : List Int := match groupWord N x with | .ok r => r | .error _ => []
  have hm : List.mapM (groupWord N) (chunks 3 bs) = .ok ((chunks 3 bs).map g) := by
    apply mapM_eq_ok
    intro x hx
    obtain ⟨r, e, -⟩ := groupWord_some hN (mem_chunks_length hx)
    simp only [g, e]
  refine ⟨((chunks 3 bs).map g).flatten, ?_, ?_⟩
  · unfold hadamardEncodeRow reshapeRows
    rw [if_neg (by omega)]
    simp only [bind, Except.bind]
    rw [if_neg (by intro e; rw [e] at hl; simp at hl; omega)]
    have hm' : List.mapM (fun g => (toInt g).bind fun v => hadamardCodeword N 3 v) (chunks 3 bs) = .ok ((chunks 3 bs).map g) := hm
    simp only [bind, Except.bind] at hm'
    rw [hm']; rfl
  · rw [← List.flatMap_def, flatMap_length_const _ N, hl]
    intro x hx
    obtain ⟨r, e, hr⟩ := groupWord_some hN (mem_chunks_length hx)
    simp only [g, e, hr]

theorem hadamardRow_error {N : Nat} {bs : Bits} (h3 : bs.length % 3 ≠ 0) : hadamardEncodeRow N bs = .error .ValueError := by
  unfold hadamardEncodeRow reshapeRows
  rw [if_pos (Or.inr h3)]; rfl

theorem insertP_length (m : Bits) : (insertP m).length = m.length + m.length / 8 := by
  unfold insertP
  rw [List.length_append, flatMap_length_const _ 9, chunks_length, List.length_drop]
  · omega
  · intro x hx; rw [List.length_append, mem_chunks_length hx]; rfl

/-- Bits entering the Hadamard encoders: the message padded with `len mod 8` zeros, plus one zero per octet. -/
def tpcBits (l : Nat) : Nat := l + l % 8 + (l + l % 8) / 8

theorem tpc_bits (t : Bits) : (insertP (t ++ List.replicate (t.length % 8) false)).length = tpcBits t.length := by
  rw [insertP_length]; simp [tpcBits]

theorem tpc_error (t : Bits) (N : Nat) (h : tpcBits t.length % 3 ≠ 0) : tpc t N = .error .ValueError := by
  unfold tpc
  simp only
  rw [tpc_bits, if_pos h]

theorem spc_sum (r0 r1 r2 : List Int) (h1 : r1.length = r0.length) (h2 : r2.length = r0.length) :
    ((spcEncoder r0 r1 r2).map List.length).sum = 4 * r0.length := by
  unfold spcEncoder
  simp only [List.map_cons, List.map_nil, List.sum_cons, List.sum_nil, List.length_append, List.length_map, List.length_take, List.length_replicate]
  rw [flatMap_length_const _ 4 _ (by simp), List.length_range]
  omega

theorem tpc_ok (t : Bits) {N : Nat} (hN : N ∈ [4, 8, 16, 32]) (h : tpcBits t.length % 9 = 0) (h0 : 0 < tpcBits t.length) :
    ∃ rows, tpc t N = .ok rows ∧ 16 ≤ (rows.map List.length).sum := by
  have hm : (insertP (t ++ List.replicate (t.length % 8) false)).length % 3 = 0 := by rw [tpc_bits]; omega
  have len : ∀ off < 3, (everyNth 3 off (insertP (t ++ List.replicate (t.length % 8) false))).length = tpcBits t.length / 3 := by
    intro off ho
    rw [everyNth_length ho _ hm, tpc_bits]
  have row : ∀ off < 3, ∃ r, hadamardEncodeRow N (everyNth 3 off (insertP (t ++ List.replicate (t.length % 8) false))) = .ok r ∧
      r.length = tpcBits t.length / 3 / 3 * N := by
    intro off ho
    have := len off ho
    obtain ⟨r, e, hr⟩ := hadamardRow_ok (N := N) hN (bs := everyNth 3 off (insertP (t ++ List.replicate (t.length % 8) false))) (by omega) (by omega)
    exact ⟨r, e, by rw [hr, this]⟩
  obtain ⟨r0, e0, l0⟩ := row 0 (by decide)
  obtain ⟨r1, e1, l1⟩ := row 1 (by decide)
  obtain ⟨r2, e2, l2⟩ := row 2 (by decide)
  refine ⟨spcEncoder r0 r1 r2, ?_, ?_⟩
  · unfold tpc hadamardEncoder
    simp only
    rw [if_neg (by omega), mapM_ok_cons, e0, mapM_ok_cons, e1, mapM_ok_cons, e2, mapM_ok_nil]
    rfl
  · rw [spc_sum r0 r1 r2 (by omega) (by omega), l0]
    have h4 : 4 ≤ N := by
      simp only [List.mem_cons, List.not_mem_nil, or_false] at hN; omega
    have : 1 * 4 ≤ tpcBits t.length / 3 / 3 * N := Nat.mul_le_mul (by omega) h4
    omega

theorem covering_ok : ∀ N ∈ [4, 8, 16, 32], (coveringCode N).map List.length = .ok (4 * N) := by decide +kernel

/-- The multiplexer outputs the covering code, whatever the bit streams. -/
theorem multiplex_eq (rows : List (List Int)) {N : Nat} (hN : N ∈ [4, 8, 16, 32]) (h : 16 ≤ (rows.map List.length).sum) :
    spreadingMultiplexing rows N = coveringCode N := by
  have hc := covering_ok N hN
  cases e : coveringCode N with
  | error _ => rw [e] at hc; cases hc
  | ok c =>
    rw [e] at hc
    have hc : c.length = 4 * N := Except.ok.inj hc
    have h4 : 4 ≤ N := by
      simp only [List.mem_cons, List.not_mem_nil, or_false] at hN; omega
    unfold spreadingMultiplexing
    simp only
    rw [e]
    simp only [bind, Except.bind]
    rw [mapM_eq_ok _ (fun _ => (0 : Int)) (List.range (4 * N)) (by
      intro i hi
      have hi := List.mem_range.1 hi
      have : i / N < 4 := Nat.div_lt_of_lt_mul (by rw [Nat.mul_comm]; exact hi)
      rw [List.getElem?_replicate, if_pos (by omega)])]
    simp only
    unfold bcast
    rw [if_pos (by simp [hc])]
    congr 1
    apply List.ext_getElem (by simp [hc])
    intro i h1 h2
    simp

theorem mdsss_ok (t : Bits) {f : Nat} (hf : f / 4 ∈ [4, 8, 16, 32]) (h : tpcBits t.length % 9 = 0) (h0 : 0 < tpcBits t.length) :
    mdsss t f = coveringCode (f / 4) := by
  obtain ⟨rows, e, hs⟩ := tpc_ok t hf h h0
  unfold mdsss
  simp only
  rw [e]
  exact multiplex_eq rows hf hs

theorem mdsss_error (t : Bits) (f : Nat) (h : tpcBits t.length % 3 ≠ 0) : mdsss t f = .error .ValueError := by
  unfold mdsss
  simp only
  rw [tpc_error t _ h]; rfl

theorem tpcBits_octets (L : Nat) : tpcBits (8 * L) = 9 * L := by unfold tpcBits; omega

theorem tpcBits_coded (NB : Nat) : (NB % 2 = 0 → tpcBits (126 * NB) % 9 = 0) ∧ (NB % 2 = 1 → tpcBits (126 * NB) % 3 = 1) := by
  unfold tpcBits
  constructor
  · intro h
    have : (126 * NB) % 8 = if NB % 4 = 0 then 0 else 4 := by split <;> omega
    split at this <;> omega
  · intro h
    have : (126 * NB) % 8 = if NB % 4 = 1 then 6 else 2 := by split <;> omega
    split at this <;> omega

end SunPhy
