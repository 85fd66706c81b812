import Verif.Proofs.ModLemmas
/-
C08 — constellation mapping (`BPSK/QPSK/QAM16.convert`) is reversible, Gray coded and has the documented levels.
-/
namespace SunPhy.C08
open SunPhy

/-- Documented one-dimensional Gray levels of a bit pair. -/
def level2 : Bool → Bool → Int
  | false, false => -3
  | false, true => -1
  | true, true => 1
  | true, false => 3

def level1 : Bool → Int
  | false => -1
  | true => 1

/-- Documented point of one group of bits (first bits give the real part). -/
def point : ModKind → Bits → GI
  | .BPSK, [b0] => ⟨level1 b0, 0⟩
  | .QPSK, [b0, b1] => ⟨level1 b0, level1 b1⟩
  | .QAM16, [b0, b1, b2, b3] => ⟨level2 b0 b1, level2 b2 b3⟩
  | _, _ => ⟨0, 0⟩

/-- A receiver's hard decision on one point. -/
def slice : ModKind → GI → Bits
  | .BPSK, p => [decide (0 < p.re)]
  | .QPSK, p => [decide (0 < p.re), decide (0 < p.im)]
  | .QAM16, p => [decide (0 < p.re), decide (p.re.natAbs < 2), decide (0 < p.im), decide (p.im.natAbs < 2)]

theorem bits4 {b : Bits} (h : b.length = 4) : ∃ b0 b1 b2 b3, b = [b0, b1, b2, b3] := by
  match b, h with
  | [b0, b1, b2, b3], _ => exact ⟨b0, b1, b2, b3, rfl⟩

theorem bits2 {b : Bits} (h : b.length = 2) : ∃ b0 b1, b = [b0, b1] := by
  match b, h with
  | [b0, b1], _ => exact ⟨b0, b1, rfl⟩

theorem bits1 {b : Bits} (h : b.length = 1) : ∃ b0, b = [b0] := by
  match b, h with
  | [b0], _ => exact ⟨b0, rfl⟩

theorem slice_point (k : ModKind) (b : Bits) (h : b.length = k.bitsPerSymbol) : slice k (point k b) = b := by
  cases k with
  | BPSK => obtain ⟨b0, rfl⟩ := bits1 h; revert b0; decide
  | QPSK => obtain ⟨b0, b1, rfl⟩ := bits2 h; revert b0 b1; decide
  | QAM16 => obtain ⟨b0, b1, b2, b3, rfl⟩ := bits4 h; revert b0 b1 b2 b3; decide

theorem bps_pos (k : ModKind) : 0 < k.bitsPerSymbol := by cases k <;> decide

/-- **C08 (levels and count).**  On every bit array whose length is a multiple of `bits_per_symbol`, `convert` succeeds and
returns the documented point of each group of bits, in order; there are `length / bits_per_symbol` points. -/
theorem C08_levels (k : ModKind) (col : Bits) (h : col.length % k.bitsPerSymbol = 0) :
    k.convert col = .ok ((chunks k.bitsPerSymbol col).map (point k)) ∧
    ((chunks k.bitsPerSymbol col).map (point k)).length = col.length / k.bitsPerSymbol := by
  refine ⟨?_, by rw [List.length_map, chunks_length]⟩
  cases k with
  | BPSK =>
    simp only [ModKind.convert, bpskConvert, ModKind.bitsPerSymbol]
    congr 1
    refine blockInduction (n := 1) (P := fun col => col.map (fun b => (⟨bpsk b, 0⟩ : GI)) = (chunks 1 col).map (point .BPSK))
      (by decide) rfl ?_ col (by omega)
    intro b l hb _ ih
    rw [chunks_append (by decide) hb, List.map_append, ih]
    obtain ⟨b0, rfl⟩ := bits1 hb
    cases b0 <;> rfl
  | QPSK =>
    simp only [ModKind.bitsPerSymbol] at h ⊢
    simp only [ModKind.convert, qpskConvert, h]
    rw [if_neg (by simp), bcast_eq _ _ _ (by rw [everyNth_length (by decide) _ h, everyNth_length (by decide) _ h])]
    congr 1
    refine blockInduction (n := 2) (P := fun col => List.zipWith (fun r i => (⟨bpsk r, bpsk i⟩ : GI)) (everyNth 2 0 col)
      (everyNth 2 1 col) = (chunks 2 col).map (point .QPSK)) (by decide) rfl ?_ col h
    intro b l hb _ ih
    rw [chunks_append (by decide) hb, everyNth_block hb (by decide), everyNth_block hb (by decide), List.zipWith_cons_cons, ih]
    obtain ⟨b0, b1, rfl⟩ := bits2 hb
    cases b0 <;> cases b1 <;> rfl
  | QAM16 =>
    simp only [ModKind.bitsPerSymbol] at h ⊢
    simp only [ModKind.convert, qam16Convert, bind, Except.bind]
    have hl : ∀ off, off < 4 → ((everyNth 4 off col).map bpsk).length = col.length / 4 := fun off ho => by
      rw [List.length_map, everyNth_length ho _ h]
    rw [bcast_eq _ _ _ (by rw [hl 0 (by decide), hl 1 (by decide)])]
    simp only
    rw [bcast_eq _ _ _ (by rw [hl 2 (by decide), hl 3 (by decide)])]
    simp only
    rw [bcast_eq _ _ _ (by rw [List.length_zipWith, List.length_zipWith, hl 0 (by decide), hl 1 (by decide), hl 2 (by decide), hl 3 (by decide)])]
    congr 1
    refine blockInduction (n := 4) (P := fun col => List.zipWith (fun r i => (⟨r, i⟩ : GI))
      (List.zipWith (fun b0 b1 => b0 * (2 - b1)) ((everyNth 4 0 col).map bpsk) ((everyNth 4 1 col).map bpsk))
      (List.zipWith (fun b0 b1 => b0 * (2 - b1)) ((everyNth 4 2 col).map bpsk) ((everyNth 4 3 col).map bpsk))
      = (chunks 4 col).map (point .QAM16)) (by decide) rfl ?_ col h
    intro b l hb _ ih
    rw [chunks_append (by decide) hb, everyNth_block hb (by decide), everyNth_block hb (by decide), everyNth_block hb (by decide),
      everyNth_block hb (by decide)]
    simp only [List.map_cons, List.zipWith_cons_cons, ih]
    obtain ⟨b0, b1, b2, b3, rfl⟩ := bits4 hb
    cases b0 <;> cases b1 <;> cases b2 <;> cases b3 <;> rfl

/-- **C08 (reversible).**  Hard decisions on the points restore the bits. -/
theorem C08_reversible (k : ModKind) (col : Bits) (h : col.length % k.bitsPerSymbol = 0) (pts : List GI)
    (hp : k.convert col = .ok pts) : pts.flatMap (slice k) = col := by
  rw [(C08_levels k col h).1] at hp
  cases hp
  rw [List.flatMap_map]
  have : (chunks k.bitsPerSymbol col).flatMap (fun b => slice k (point k b)) = (chunks k.bitsPerSymbol col).flatMap id := by
    apply List.flatMap_congr
    intro b hb
    exact slice_point k b (mem_chunks_length hb)
  rw [this, List.flatMap_id, chunks_flatten (bps_pos k) col h]

/-- **C08 (any number of OFDM symbols).**  The same holds column by column for a matrix of bits. -/
theorem C08_columns (k : ModKind) (cols : List Bits) (h : ∀ c ∈ cols, c.length % k.bitsPerSymbol = 0) :
    ∃ pts, cols.mapM k.convert = .ok pts ∧ pts.length = cols.length ∧
      pts.map (fun p => p.flatMap (slice k)) = cols := by
  refine ⟨_, mapM_eq_ok _ (fun c => (chunks k.bitsPerSymbol c).map (point k)) cols fun c hc => (C08_levels k c (h c hc)).1,
    by simp, ?_⟩
  rw [List.map_map]
  conv_rhs => rw [← List.map_id cols]
  apply List.map_congr_left
  intro c hc
  exact C08_reversible k c (h c hc) _ (C08_levels k c (h c hc)).1

/-- Number of positions in which two bit groups differ. -/
def hamming (a b : Bits) : Nat := (List.zipWith xor a b).count true

/-- Horizontal or vertical neighbours on the grid of odd integers. -/
def Neighbours (p q : GI) : Prop :=
  (p.im = q.im ∧ (p.re - q.re).natAbs = 2) ∨ (p.re = q.re ∧ (p.im - q.im).natAbs = 2)

instance : DecidableRel Neighbours := fun p q => by unfold Neighbours; infer_instance

/-- **C08 (Gray).**  Groups mapped to neighbouring points differ in exactly one bit (all three modulations; the statement
is about the whole finite alphabet). -/
theorem C08_gray (k : ModKind) (a b : Bits) (pa pb : GI) (ha : a.length = k.bitsPerSymbol) (hb : b.length = k.bitsPerSymbol)
    (hpa : k.convert a = .ok [pa]) (hpb : k.convert b = .ok [pb]) (hn : Neighbours pa pb) : hamming a b = 1 := by
  have one : ∀ (x : Bits) (px : GI), x.length = k.bitsPerSymbol → k.convert x = .ok [px] → px = point k x := by
    intro x px hx hpx
    rw [(C08_levels k x (by rw [hx, Nat.mod_self])).1] at hpx
    have : chunks k.bitsPerSymbol x = [x] := by
      have := chunks_append (bps_pos k) hx []
      rwa [List.append_nil, chunks_nil] at this
    rw [this] at hpx
    simp only [Except.ok.injEq, List.map_cons, List.map_nil, List.cons.injEq, and_true] at hpx
    exact hpx.symm
  rw [one a pa ha hpa, one b pb hb hpb] at hn
  clear one hpa hpb
  revert hn
  cases k with
  | BPSK =>
    obtain ⟨a0, rfl⟩ := bits1 ha; obtain ⟨b0, rfl⟩ := bits1 hb
    revert a0 b0; decide
  | QPSK =>
    obtain ⟨a0, a1, rfl⟩ := bits2 ha; obtain ⟨b0, b1, rfl⟩ := bits2 hb
    revert a0 a1 b0 b1; decide
  | QAM16 =>
    obtain ⟨a0, a1, a2, a3, rfl⟩ := bits4 ha; obtain ⟨b0, b1, b2, b3, rfl⟩ := bits4 hb
    revert a0 a1 a2 a3 b0 b1 b2 b3; decide +kernel

example : ModKind.QAM16.convert [true, false, false, true, false, false, true, true] = .ok [⟨3, -1⟩, ⟨-3, 1⟩] := by decide
example : Neighbours ⟨3, -1⟩ ⟨1, -1⟩ ∧ ModKind.QAM16.convert [true, true, false, true] = .ok [⟨1, -1⟩] := by decide

end SunPhy.C08
