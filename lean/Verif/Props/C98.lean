import Verif.Props.C97
import Verif.Props.C31
/-
C98 — frames with different headers are far apart, whatever their lengths; with C97: the nearest signal identifies the octet message among all messages.
-/
namespace SunPhy.C98
open SunPhy Spec Complex C97
noncomputable section

/-- Guaranteed squared distance of the header symbols, for each option. -/
def headerDist : Nat → ℝ | 1 => 160 | 2 => 160 | 3 => 80 | 4 => 40 | _ => 0

theorem distSq_append_le (a b c d : List ℂ) (h : a.length = c.length) : distSq a c ≤ distSq (a ++ b) (c ++ d) := by
  rw [distSq_append _ _ _ _ h]
  linarith [distSq_nonneg b d]

/-! ### Symbols of two configurations of the same option -/

theorem symbol_dist2 {p p' : OfdmParams} (h : Supported p) (ho' : p'.option = p.option) (m m' : Bits) (n : Nat) :
    ((allTones (Ref.nfft p.option)).map fun t => ‖Ref.toneValue p m n t - Ref.toneValue p' m' n t‖ ^ 2).sum ≤ distSq (Ref.symbol p m n) (Ref.symbol p' m' n) := by
  obtain ⟨_, ho, _⟩ := C91.mcs_le h
  obtain ⟨h8, hN⟩ := C91.nfft_facts _ ho
  have e := C91.wave_window h8 hN (fun t => Ref.toneValue p m n t - Ref.toneValue p' m' n t) 1
  simp only [norm_one, one_pow, one_mul] at e
  rw [← C91.energy_map, ← e, C91.energy_map]
  unfold Ref.symbol
  simp only [ho']
  rw [distSq_map, show 5 * Ref.nfft p.option / 4 = Ref.nfft p.option / 4 + Ref.nfft p.option by omega, List.range_add, List.map_append, List.sum_append, List.map_map]
  have h0 : 0 ≤ ((List.range (Ref.nfft p.option / 4)).map fun (k : Nat) =>
      ‖Ref.wave (Ref.nfft p.option) (Ref.toneValue p m n) ((k : Int) - ((Ref.nfft p.option / 4 : Nat) : Int)) -
        Ref.wave (Ref.nfft p.option) (Ref.toneValue p' m' n) ((k : Int) - ((Ref.nfft p.option / 4 : Nat) : Int))‖ ^ 2).sum := by
    apply List.sum_nonneg
    intro v hv
    obtain ⟨k, -, rfl⟩ := List.mem_map.1 hv
    positivity
  refine le_trans (le_of_eq ?_) (le_add_of_nonneg_left h0)
  congr 1
  apply List.map_congr_left
  intro k _
  simp only [Function.comp]
  rw [wave_sub]
  congr 3
  push_cast; ring

theorem hdr_facts : ∀ p ∈ allSupported, (bitsOf (Ref.headerMcs p.option) = 1 ∨ bitsOf (Ref.headerMcs p.option) = 2) ∧
    Spec.spreadOf (Ref.headerMcs p.option) * (tonesOf p.option / Spec.spreadOf (Ref.headerMcs p.option)) = tonesOf p.option ∧
    Ref.headerTable p.interleaving p.option ≤ Ref.headerCount p ∧
    Ref.headerTable p.interleaving p.option * Ref.symbolBits p.option (Ref.headerMcs p.option) % depth p.interleaving p.option (Ref.headerMcs p.option) = 0 ∧
    0 < depth p.interleaving p.option (Ref.headerMcs p.option) ∧
    36 ≤ Ref.headerTable p.interleaving p.option * Ref.symbolBits p.option (Ref.headerMcs p.option) / 2 ∧
    Ref.headerTable p.interleaving p.option * Ref.symbolBits p.option (Ref.headerMcs p.option) % 2 = 0 ∧
    Ref.headerTable p.interleaving p.option * Ref.symbolBits p.option (Ref.headerMcs p.option) / 2 ≤
      Ref.headerCount p * Ref.symbolBits p.option (Ref.headerMcs p.option) / 2 ∧
    lowestMcs p.option = Ref.headerMcs p.option ∧ p.mcs < 32 ∧ p.scrambler < 4 := by
  decide +kernel

theorem data_dist (o M : Nat) (hw : bitsOf M = 1 ∨ bitsOf M = 2 ∨ bitsOf M = 4) (hD : Spec.spreadOf M * (tonesOf o / Spec.spreadOf M) = tonesOf o) (x y : Bits) (n : Nat) :
    Spec.spreadOf M * (perBit (bitsOf M) * S (Ref.symbolBits o M) fun i => neq (x.getD (n * Ref.symbolBits o M + i) false) (y.getD (n * Ref.symbolBits o M + i) false)) ≤
    S (tonesOf o) fun d => ‖Ref.dataValue o M x n d - Ref.dataValue o M y n d‖ ^ 2 := by
  conv_rhs => rw [← hD]
  rw [S_mul, ← S_const]
  apply S_le
  intro c _
  rw [← S_scale]
  have hb : Ref.symbolBits o M = tonesOf o / Spec.spreadOf M * bitsOf M := rfl
  conv_lhs => rw [hb]
  rw [S_mul]
  apply S_le
  intro d hd
  rw [S_scale]
  simp only [Ref.dataValue]
  have hD0 : 0 < tonesOf o / Spec.spreadOf M := by omega
  rw [Nat.mul_comm c, Nat.mul_add_mod, Nat.mod_eq_of_lt hd, Nat.mul_add_div hD0, ← sub_mul, norm_mul, C91.turn_norm, mul_one]
  refine le_trans (le_of_eq ?_) (point_dist _ hw _ _)
  congr 1
  apply S_congr
  intro j _
  rw [← hb, Nat.add_assoc]

theorem header_symbol {p p' : OfdmParams} (h : Supported p) (ho' : p'.option = p.option) (m m' : Bits) (n : Nat) (hn : n < Ref.headerCount p) (hn' : n < Ref.headerCount p')
    (M : Nat) (hM : M = Ref.headerMcs p.option) :
    Spec.spreadOf M * (perBit (bitsOf M) * S (Ref.symbolBits p.option M) fun i =>
      neq ((Ref.headerStream p (m.length / 8)).getD (n * Ref.symbolBits p.option M + i) false)
        ((Ref.headerStream p' (m'.length / 8)).getD (n * Ref.symbolBits p.option M + i) false)) ≤
    ((allTones (Ref.nfft p.option)).map fun t => ‖Ref.toneValue p m n t - Ref.toneValue p' m' n t‖ ^ 2).sum := by
  obtain ⟨_, ho, _⟩ := C91.mcs_le h
  obtain ⟨hw, hD, -⟩ := hdr_facts p (mem_allSupported h)
  rw [← hM] at hw hD
  obtain ⟨s1, s2⟩ := C91.sets_length p.option ho
  have hk : n % (Ref.pilotSets p.option).length < 13 := lt_of_lt_of_le (Nat.mod_lt _ (by omega)) s2
  have hc := tone_count p.option ho _ hk
  simp only [Nat.mod_mod] at hc
  change (dataToneList _ _ _ (Ref.pilotTones p.option n)).length = _ at hc
  refine le_trans ?_ (filter_sum_le (allTones (Ref.nfft p.option))
    (fun t => ¬ isGuard (Ref.nfft p.option) (Ref.guardLow p.option) (Ref.guardHigh p.option) t ∧ t ≠ 0 ∧ t ∉ Ref.pilotTones p.option n)
    (fun t => ‖Ref.toneValue p m n t - Ref.toneValue p' m' n t‖ ^ 2) (fun i => by positivity))
  have e : ((dataToneList (Ref.nfft p.option) (Ref.guardLow p.option) (Ref.guardHigh p.option) (Ref.pilotTones p.option n)).map
      fun t => ‖Ref.toneValue p m n t - Ref.toneValue p' m' n t‖ ^ 2) =
      (dataToneList (Ref.nfft p.option) (Ref.guardLow p.option) (Ref.guardHigh p.option) (Ref.pilotTones p.option n)).map fun t =>
        (fun d => ‖Ref.dataValue p.option M (Ref.headerStream p (m.length / 8)) n d -
          Ref.dataValue p.option M (Ref.headerStream p' (m'.length / 8)) n d‖ ^ 2)
        ((dataToneList (Ref.nfft p.option) (Ref.guardLow p.option) (Ref.guardHigh p.option) (Ref.pilotTones p.option n)).idxOf t) := by
    apply List.map_congr_left
    intro t ht
    unfold dataToneList at ht
    have ht := (List.mem_filter.1 ht).2
    simp only [decide_eq_true_eq] at ht
    obtain ⟨g1, g2, g3⟩ := ht
    unfold Ref.toneValue
    simp only [ho']
    have g12 : ¬ (isGuard (Ref.nfft p.option) (Ref.guardLow p.option) (Ref.guardHigh p.option) t ∨ t = 0) := fun hg => hg.elim g1 g2
    simp only [if_neg g12, if_neg g3, if_pos hn, if_pos hn', hM]
  change _ ≤ ((dataToneList (Ref.nfft p.option) (Ref.guardLow p.option) (Ref.guardHigh p.option) (Ref.pilotTones p.option n)).map _).sum
  have nd : (dataToneList (Ref.nfft p.option) (Ref.guardLow p.option) (Ref.guardHigh p.option) (Ref.pilotTones p.option n)).Nodup := (tones_nodup _).filter _
  rw [e, C97.map_idxOf _ nd (fun d => ‖Ref.dataValue p.option M (Ref.headerStream p (m.length / 8)) n d -
          Ref.dataValue p.option M (Ref.headerStream p' (m'.length / 8)) n d‖ ^ 2), hc]
  exact data_dist p.option M (by rcases hw with hw | hw; exact Or.inl hw; exact Or.inr (Or.inl hw)) hD _ _ n

/-! ### Header bits -/

/-- The part of the header that is common to all MCS: information, check sequence, zeros up to the predetermined number of symbols. -/
def base (p : OfdmParams) (octets : Nat) : Bits :=
  Ref.headerInfo p.mcs octets p.scrambler ++ Ref.crc8 (Ref.headerInfo p.mcs octets p.scrambler) ++
    List.replicate (Ref.headerTable p.interleaving p.option * Ref.symbolBits p.option (Ref.headerMcs p.option) / 2 - 30) false

theorem info_length (a b c : Nat) : (Ref.headerInfo a b c).length = 22 := by simp [Ref.headerInfo, Ref.field]

theorem crcClock_length (r : Bits) (b : Bool) (h : r.length = 8) : (Ref.crcClock r b).length = 8 := by
  unfold Ref.crcClock
  split
  · rfl
  · exact h

theorem crc_length (x : Bits) : (Ref.crc8 x).length = 8 := by
  unfold Ref.crc8
  rw [List.length_map]
  have : ∀ (x r : Bits), r.length = 8 → (x.foldl Ref.crcClock r).length = 8 := by
    intro x
    induction x with
    | nil => intro r h; exact h
    | cons b x ih => intro r h; exact ih _ (crcClock_length r b h)
  exact this x _ rfl

theorem field_inj {w a b : Nat} (ha : a < 2 ^ w) (hb : b < 2 ^ w) (h : Ref.field w a = Ref.field w b) : a = b := by
  rw [field_eq, field_eq] at h
  exact natBits_inj ha hb h

theorem info_inj {a b c a' b' c' : Nat} (ha : a < 32) (hb : b ≤ 2047) (hc : c < 4) (ha' : a' < 32) (hb' : b' ≤ 2047) (hc' : c' < 4)
    (h : Ref.headerInfo a b c = Ref.headerInfo a' b' c') : a = a' ∧ b = b' ∧ c = c' := by
  unfold Ref.headerInfo at h
  have l : ∀ w v, (Ref.field w v).length = w := by simp [Ref.field]
  have h1 := List.append_inj h (by simp [l])
  have h2 := List.append_inj h1.1 (by simp [l])
  have h3 := List.append_inj h2.1 (by simp [l])
  have h4 := List.append_inj h3.1 (by simp [l])
  have h5 := List.append_inj h4.1 (by simp [l])
  exact ⟨field_inj (by omega) (by omega) h5.1, field_inj (by omega) (by omega) h4.2, field_inj (by omega) (by omega) h2.2⟩

theorem base_hamming {p p' : OfdmParams} (h : Supported p) (h' : Supported p') (ho' : p'.option = p.option) (hi : p'.interleaving = p.interleaving) (n n' : Nat)
    (hn : n ≤ 2047) (hn' : n' ≤ 2047) (hne : (p.mcs, n, p.scrambler) ≠ (p'.mcs, n', p'.scrambler)) :
    10 ≤ hamming (Ref.conv (base p n)) (Ref.conv (base p' n')) := by
  obtain ⟨-, -, -, -, -, h36, -, -, -, hm, hs⟩ := hdr_facts p (mem_allSupported h)
  obtain ⟨-, -, -, -, -, -, -, -, -, hm', hs'⟩ := hdr_facts p' (mem_allSupported h')
  rw [← conv_eq, ← conv_eq]
  unfold base
  rw [ho', hi, show Ref.headerTable p.interleaving p.option * Ref.symbolBits p.option (Ref.headerMcs p.option) / 2 - 30 =
    6 + (Ref.headerTable p.interleaving p.option * Ref.symbolBits p.option (Ref.headerMcs p.option) / 2 - 36) by omega, ← List.replicate_append_replicate,
    ← List.append_assoc, ← List.append_assoc]
  refine C13.C13_half _ _ _ (by simp [info_length, crc_length]) ?_
  intro e
  have := (List.append_inj e (by simp [info_length])).1
  obtain ⟨e1, e2, e3⟩ := info_inj hm hn hs hm' hn' hs' this
  exact hne (by rw [e1, e2, e3])

theorem conv_append (x y : Bits) : ∃ z, Ref.conv (x ++ y) = Ref.conv x ++ z := by
  rw [← conv_eq, ← conv_eq]
  rw [rateHalfOut_append]
  exact ⟨_, rfl⟩

theorem source_lt {K : Nat} (hK : 0 < K) (R s j : Nat) : Ref.source K R s j < K := by
  unfold Ref.source
  cases e : (List.range K).find? (fun k => perm1 K R (perm2 K R s k) == j) with
  | none => simpa using hK
  | some k =>
    have := List.mem_of_find?_eq_some e
    simpa using this

theorem interleave_append {K : Nat} (hK : 0 < K) (R s : Nat) (x y : Bits) (hx : x.length % K = 0) (i : Nat) (hi : i < x.length) :
    (Ref.interleave K R s (x ++ y)).getD i false = (Ref.interleave K R s x).getD i false := by
  unfold Ref.interleave
  have hb : (i / K + 1) * K ≤ x.length := by
    obtain ⟨q, hq⟩ := Nat.dvd_of_mod_eq_zero hx
    have : i / K < q := by rw [Nat.div_lt_iff_lt_mul hK, Nat.mul_comm, ← hq]; exact hi
    rw [hq, Nat.mul_comm K]
    exact Nat.mul_le_mul_right _ this
  have hs := source_lt hK R s (i % K)
  have hlt : i / K * K + Ref.source K R s (i % K) < x.length := by
    have := Nat.add_mul (i / K) 1 K
    omega
  rw [List.getD_eq_getElem?_getD, List.getD_eq_getElem?_getD, List.getElem?_map, List.getElem?_map, List.getElem?_range (by simp; omega), List.getElem?_range hi]
  simp only [Option.map_some, Option.getD_some]
  rw [if_pos hb, if_pos (by rw [List.length_append]; omega), List.getD_eq_getElem?_getD, List.getD_eq_getElem?_getD, List.getElem?_append_left hlt]

/-- Interleaving complete blocks of header bits only moves the positions. -/
theorem interleave_hamming {p : OfdmParams} (h : Supported p) {M : Nat} (hM : M = p.mcs ∨ M = lowestMcs p.option) (x y : Bits) (hl : x.length = y.length)
    (hx : x.length % depth p.interleaving p.option M = 0) :
    hamming (Ref.interleave (depth p.interleaving p.option M) (rows M) (step M) x) (Ref.interleave (depth p.interleaving p.option M) (rows M) (step M) y) =
      hamming x y := by
  have hpos : 0 < depth p.interleaving p.option M := by
    have := (C19.table_ok h hM).2
    rwa [(C19.table_eq h hM).1] at this
  have hz : (List.zipWith xor x y).length = x.length := by simp [hl]
  have hlin : List.zipWith xor (Ref.interleave (depth p.interleaving p.option M) (rows M) (step M) x)
      (Ref.interleave (depth p.interleaving p.option M) (rows M) (step M) y) = p.interleaver (List.zipWith xor x y) M := by
    rw [interleave_eq h hM]
    unfold Ref.interleave
    rw [hz, ← hl]
    apply List.ext_getElem?
    intro i
    rw [List.getElem?_zipWith, List.getElem?_map, List.getElem?_map, List.getElem?_map]
    by_cases hi : i < x.length
    · rw [List.getElem?_range hi]
      simp only [Option.map_some]
      split
      · congr 1
        generalize i / _ * _ + _ = j
        simp only [List.getD_eq_getElem?_getD, List.getElem?_zipWith]
        by_cases hj : j < x.length
        · rw [List.getElem?_eq_getElem hj, List.getElem?_eq_getElem (by omega : j < y.length)]; rfl
        · rw [List.getElem?_eq_none (by omega), List.getElem?_eq_none (by omega : y.length ≤ j)]; rfl
      · rfl
    · rw [List.getElem?_eq_none (by simpa using hi)]; rfl
  unfold hamming
  rw [hlin]
  apply List.Perm.count_eq
  obtain ⟨-, hl2, hp⟩ := C19.C19_reversible p h M hM (List.zipWith xor x y) (by rw [hz]; exact hx)
  have f1 := chunks_flatten hpos (List.zipWith xor x y) (by rw [hz]; exact hx)
  have f2 := chunks_flatten hpos (p.interleaver (List.zipWith xor x y) M) (by rw [hl2, hz]; exact hx)
  rw [← f2]
  conv_rhs => rw [← f1]
  clear hlin hz hl2 f1 f2
  generalize chunks _ (p.interleaver (List.zipWith xor x y) M) = u at *
  generalize chunks _ (List.zipWith xor x y) = w at *
  induction hp with
  | nil => exact List.Perm.refl _
  | cons h1 _ ih => simp only [List.flatten_cons]; exact h1.append ih

theorem conv_length (x : Bits) : (Ref.conv x).length = 2 * x.length := by simp [Ref.conv]

theorem interleave_length (K R s : Nat) (x : Bits) : (Ref.interleave K R s x).length = x.length := by simp [Ref.interleave]

theorem base_length {p : OfdmParams} (h : Supported p) (n : Nat) :
    2 * (base p n).length = Ref.headerTable p.interleaving p.option * Ref.symbolBits p.option (Ref.headerMcs p.option) := by
  obtain ⟨-, -, -, -, -, h36, h2, -⟩ := hdr_facts p (mem_allSupported h)
  unfold base
  simp only [List.length_append, info_length, crc_length, List.length_replicate]
  omega

/-- The bits of the predetermined header symbols. -/
def baseStream (p : OfdmParams) (n : Nat) : Bits :=
  Ref.interleave (depth p.interleaving p.option (Ref.headerMcs p.option)) (rows (Ref.headerMcs p.option)) (step (Ref.headerMcs p.option)) (Ref.conv (base p n))

theorem stream_base {p : OfdmParams} (h : Supported p) (n i : Nat)
    (hi : i < Ref.headerTable p.interleaving p.option * Ref.symbolBits p.option (Ref.headerMcs p.option)) :
    (Ref.headerStream p n).getD i false = (baseStream p n).getD i false := by
  obtain ⟨-, -, -, hd, hd0, h36, h2, hle, -⟩ := hdr_facts p (mem_allSupported h)
  have e : Ref.header p n = base p n ++ List.replicate (Ref.headerCount p * Ref.symbolBits p.option (Ref.headerMcs p.option) / 2 -
      Ref.headerTable p.interleaving p.option * Ref.symbolBits p.option (Ref.headerMcs p.option) / 2) false := by
    unfold Ref.header base
    rw [List.append_assoc (_ ++ _), List.replicate_append_replicate]
    congr 2
    omega
  obtain ⟨z, hz⟩ := conv_append (base p n) (List.replicate (Ref.headerCount p * Ref.symbolBits p.option (Ref.headerMcs p.option) / 2 -
      Ref.headerTable p.interleaving p.option * Ref.symbolBits p.option (Ref.headerMcs p.option) / 2) false)
  unfold Ref.headerStream baseStream
  simp only
  rw [e, hz, interleave_append hd0 _ _ _ _ (by rw [conv_length, base_length h]; exact hd) i (by rw [conv_length, base_length h]; exact hi)]

theorem dist_table : ∀ o ∈ [1, 2, 3, 4], headerDist o = 10 * (Spec.spreadOf (Ref.headerMcs o) * perBit (bitsOf (Ref.headerMcs o))) := by
  intro o ho
  simp only [List.mem_cons, List.not_mem_nil, or_false] at ho
  rcases ho with rfl | rfl | rfl | rfl <;> norm_num [headerDist, Ref.headerMcs, Spec.spreadOf, perBit, bitsOf]

theorem frame_header {p p' : OfdmParams} (h : Supported p) (h' : Supported p') (ho' : p'.option = p.option) (hi : p'.interleaving = p.interleaving) (m m' : Bits)
    (hn : m.length / 8 ≤ 2047) (hn' : m'.length / 8 ≤ 2047) (hne : (p.mcs, m.length / 8, p.scrambler) ≠ (p'.mcs, m'.length / 8, p'.scrambler)) :
    headerDist p.option ≤ distSq (Ref.frame p m) (Ref.frame p' m') := by
  obtain ⟨hw, hD, ht, hd, hd0, h36, h2, hle, hlow, -⟩ := hdr_facts p (mem_allSupported h)
  obtain ⟨-, -, ht', -⟩ := hdr_facts p' (mem_allSupported h')
  obtain ⟨_, ho, _⟩ := C91.mcs_le h
  rw [ho', hi] at ht'
  obtain ⟨r, hr⟩ : ∃ r, Ref.symbolCount p m.length = Ref.headerTable p.interleaving p.option + r := ⟨Ref.symbolCount p m.length - Ref.headerTable p.interleaving p.option, by
    unfold Ref.symbolCount; omega⟩
  obtain ⟨r', hr'⟩ : ∃ r, Ref.symbolCount p' m'.length = Ref.headerTable p.interleaving p.option + r := ⟨Ref.symbolCount p' m'.length - Ref.headerTable p.interleaving p.option, by
    unfold Ref.symbolCount; omega⟩
  have hlen : ∀ i, (Ref.symbol p m i).length = (Ref.symbol p' m' i).length := by intro i; simp [Ref.symbol, ho']
  have hlen2 : ((List.range (Ref.headerTable p.interleaving p.option)).flatMap (Ref.symbol p m)).length =
      ((List.range (Ref.headerTable p.interleaving p.option)).flatMap (Ref.symbol p' m')).length := by
    rw [List.length_flatMap, List.length_flatMap]
    congr 1
    exact List.map_congr_left fun i _ => hlen i
  unfold Ref.frame
  rw [ho', hr, hr', List.range_add, List.range_add, List.flatMap_append, List.flatMap_append, distSq_append _ _ _ _ rfl, distSq_self, zero_add]
  refine le_trans ?_ (distSq_append_le _ _ _ _ hlen2)
  rw [distSq_flatMap _ _ _ hlen]
  change _ ≤ S (Ref.headerTable p.interleaving p.option) fun n => distSq (Ref.symbol p m n) (Ref.symbol p' m' n)
  refine le_trans ?_ (S_le fun n hn => (header_symbol h ho' m m' n (lt_of_lt_of_le hn ht) (lt_of_lt_of_le hn ht') _ rfl).trans (symbol_dist2 h ho' m m' _))
  rw [S_scale, S_scale, ← S_mul _ _ (fun i => neq ((Ref.headerStream p (m.length / 8)).getD i false) ((Ref.headerStream p' (m'.length / 8)).getD i false))]
  have hb := base_length h (m.length / 8)
  have hb' := base_length h' (m'.length / 8)
  rw [ho', hi] at hb'
  have l1 : (baseStream p (m.length / 8)).length = Ref.headerTable p.interleaving p.option * Ref.symbolBits p.option (Ref.headerMcs p.option) := by
    unfold baseStream; rw [interleave_length, conv_length, hb]
  have l2 : (baseStream p' (m'.length / 8)).length = Ref.headerTable p.interleaving p.option * Ref.symbolBits p.option (Ref.headerMcs p.option) := by
    unfold baseStream; rw [interleave_length, conv_length, hb']
  have hH : 10 ≤ hamming (baseStream p (m.length / 8)) (baseStream p' (m'.length / 8)) := by
    have := base_hamming h h' ho' hi _ _ hn hn' hne
    unfold baseStream
    rw [ho', hi]
    have hM := interleave_hamming h (Or.inr rfl) (Ref.conv (base p (m.length / 8))) (Ref.conv (base p' (m'.length / 8)))
      (by rw [conv_length, conv_length, hb, hb']) (by rw [conv_length, hb, hlow]; exact hd)
    rw [hlow] at hM
    rw [hM]; exact this
  have e : (S (Ref.headerTable p.interleaving p.option * Ref.symbolBits p.option (Ref.headerMcs p.option)) fun i =>
      neq ((Ref.headerStream p (m.length / 8)).getD i false) ((Ref.headerStream p' (m'.length / 8)).getD i false)) =
      ((hamming (baseStream p (m.length / 8)) (baseStream p' (m'.length / 8)) : Nat) : ℝ) := by
    rw [hamming_S _ _ (by rw [l1, l2]), l1]
    apply S_congr
    intro i hi2
    rw [stream_base h _ i hi2, stream_base h' _ i (by rw [ho', hi]; exact hi2)]
  rw [e, dist_table _ ho]
  have hH' : (10 : ℝ) ≤ ((hamming (baseStream p (m.length / 8)) (baseStream p' (m'.length / 8)) : Nat) : ℝ) := by exact_mod_cast hH
  have : 0 ≤ perBit (bitsOf (Ref.headerMcs p.option)) := by unfold perBit; split <;> norm_num
  have h2 : 0 ≤ (Spec.spreadOf (Ref.headerMcs p.option) : ℝ) * perBit (bitsOf (Ref.headerMcs p.option)) := mul_nonneg (Nat.cast_nonneg _) this
  have h3 := mul_le_mul_of_nonneg_left hH' h2
  rw [mul_comm, mul_assoc _ (perBit _) (((hamming _ _ : Nat) : ℝ))] at h3
  exact h3

/-- **C98 (headers).**  Two modulators with the same option and interleaving setting but any MCS and scrambler modulate two messages of any lengths.  If the MCS,
the length in octets or the scrambler differ, the squared distance of the signals (over the shorter one) is at least 160, 160, 80, 40 for options 1..4. -/
theorem C98_header (o o' : OfdmObj) (h : Supported o.params) (h' : Supported o'.params) (ho : o'.params.option = o.params.option)
    (hi : o'.params.interleaving = o.params.interleaving) (a a' : Arg) (m m' : Bits)
    (ha : checkBinaryArray a = .ok m) (ha' : checkBinaryArray a' = .ok m')
    (hne : (o.params.mcs, m.length / 8, o.params.scrambler) ≠ (o'.params.mcs, m'.length / 8, o'.params.scrambler))
    (iq iq' : List ℂ) (fs fs' : ℚ) (hr : ((ofdmModBitsToIQ a).call o).1 = .ok (iq, fs)) (hr' : ((ofdmModBitsToIQ a').call o').1 = .ok (iq', fs')) :
    headerDist o.params.option ≤ distSq iq iq' := by
  have k := (C15.C15_bitsToIQ o h a m ha).1.1 ⟨_, hr⟩
  have k' := (C15.C15_bitsToIQ o' h' a' m' ha').1.1 ⟨_, hr'⟩
  obtain ⟨_, e, -⟩ := C67.C67_reference o h a m ha k.1 k.2
  obtain ⟨_, e', -⟩ := C67.C67_reference o' h' a' m' ha' k'.1 k'.2
  rw [e] at hr
  rw [e'] at hr'
  have r1 := congrArg Prod.fst (Except.ok.inj hr)
  have r2 := congrArg Prod.fst (Except.ok.inj hr')
  simp only at r1 r2
  subst r1; subst r2
  exact frame_header h h' ho hi m m' k.2 k'.2 hne

/-- **C98 (messages).**  Two octet messages, of any lengths, for modulators with the same supported configuration: if they differ, the squared distance of
the signals (over the shorter one) is at least the smaller of the header and the payload bound. -/
theorem C98_messages (o o' : OfdmObj) (h : Supported o.params) (hp : o'.params = o.params) (a a' : Arg) (msg msg' : List UInt8)
    (ha : C01.Denotes a msg) (ha' : C01.Denotes a' msg') (hne : msg ≠ msg') (h1 : msg ≠ []) (h1' : msg' ≠ [])
    (iq iq' : List ℂ) (fs fs' : ℚ) (hr : ((ofdmModBytesToIQ a).call o).1 = .ok (iq, fs)) (hr' : ((ofdmModBytesToIQ a').call o').1 = .ok (iq', fs')) :
    min (headerDist o.params.option) (minDist o.params.mcs) ≤ distSq iq iq' := by
  have key : ∀ (o : OfdmObj) (a : Arg) (msg : List UInt8) (iq : List ℂ) (fs : ℚ), Supported o.params → C01.Denotes a msg → msg ≠ [] →
      ((ofdmModBytesToIQ a).call o).1 = .ok (iq, fs) →
      ∃ b : Bits, toBinaryArray a = .ok b ∧ b.length = 8 * msg.length ∧ msg.length ≤ 2047 ∧ Ref.frame o.params b = iq := by
    intro o a msg iq fs hS ha h0 hr
    have h1 : 1 ≤ msg.length := List.length_pos_of_ne_nil h0
    obtain ⟨b, hb, hl, er⟩ := ofdmBytesResult_octets o.params ha h1
    have r := (bytesToIQ_result hS a).1
    rw [hr, er] at r
    by_cases h2 : msg.length ≤ 2047
    · obtain ⟨_, e, -⟩ := C67.C67_bytes o hS a b hb (by omega) (by omega)
      rw [e] at hr
      have r1 := congrArg Prod.fst (Except.ok.inj hr)
      exact ⟨b, hb, hl, h2, r1⟩
    · rw [if_neg h2] at r; cases r
  obtain ⟨b, hb, hl, l2, rfl⟩ := key o a msg iq fs h ha h1 hr
  obtain ⟨b', hb', hl', l2', rfl⟩ := key o' a' msg' iq' fs' (by rw [hp]; exact h) ha' h1' hr'
  rw [hp]
  by_cases hlen : msg.length = msg'.length
  · refine le_trans (min_le_right _ _) (frame_dist h b b' (by omega) ?_)
    rintro rfl
    exact hne (C01.C01_injective a a' msg msg' b ha ha' h1 h1' hb hb')
  · refine le_trans (min_le_left _ _) (frame_header h h rfl rfl b b' (by omega) (by omega) ?_)
    intro e
    rw [Prod.mk.injEq, Prod.mk.injEq] at e
    omega

/-- **C98 (identification).**  The transmitted signal, cut to the length of a candidate's signal or less, is closer to what was received than the candidate whenever
the noise energy is less than a quarter of the bound. -/
theorem C98_noise (o o' : OfdmObj) (h : Supported o.params) (hp : o'.params = o.params) (a a' : Arg) (msg msg' : List UInt8)
    (ha : C01.Denotes a msg) (ha' : C01.Denotes a' msg') (hne : msg ≠ msg') (h1 : msg ≠ []) (h1' : msg' ≠ [])
    (iq iq' : List ℂ) (fs fs' : ℚ) (hr : ((ofdmModBytesToIQ a).call o).1 = .ok (iq, fs)) (hr' : ((ofdmModBytesToIQ a').call o').1 = .ok (iq', fs'))
    (r : List ℂ) (hrl : r.length = min iq.length iq'.length) (hn : distSq r iq < min (headerDist o.params.option) (minDist o.params.mcs) / 4) :
    distSq r iq < distSq r iq' := by
  have hd := C98_messages o o' h hp a a' msg msg' ha ha' hne h1 h1' iq iq' fs fs' hr hr'
  have cut : ∀ x y : List ℂ, distSq x y = distSq (x.take (min x.length y.length)) (y.take (min x.length y.length)) := by
    intro x y
    unfold distSq
    congr 1
    apply List.ext_getElem (by simp)
    intro i i1 i2
    simp
  have cut2 : ∀ y : List ℂ, r.length ≤ y.length → distSq r y = distSq r (y.take r.length) := by
    intro y hy
    rw [cut r y, Nat.min_eq_left hy, List.take_length]
  have := distSq_triangle r (iq.take r.length) (iq'.take r.length) (by simp; omega) (by simp; omega)
  rw [← cut2 _ (by omega), ← cut2 _ (by omega), hrl, ← cut] at this
  linarith

/-! Non-vacuity. -/
example : Supported ⟨0, 2, 1, 2⟩ ∧ Supported ⟨3, 2, 1, 1⟩ ∧ C01.Denotes (.bytes [0x12, 0xFF]) [0x12, 0xFF] ∧
    ∀ p, Supported p → ∀ b : UInt8, ∃ r, ((ofdmModBytesToIQ (.bytes [b])).call { params := p }).1 = .ok r := by
  refine ⟨⟨by decide, by decide, by decide⟩, ⟨by decide, by decide, by decide⟩, rfl, fun p hp b => ?_⟩
  have r := (bytesToIQ_result (o := { params := p }) hp (.bytes [b])).1
  obtain ⟨_, -, -, e⟩ := ofdmBytesResult_octets p (a := .bytes [b]) (msg := [b]) rfl (by simp)
  rw [if_pos (by simp)] at e
  exact ⟨_, r.trans e⟩

end
end SunPhy.C98
