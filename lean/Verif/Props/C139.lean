import Verif.Props.C137
import Verif.Props.C95
import Verif.Spec.OfdmErasures
/-
C139 — The convolutional code of MR-OFDM and its interleaver bridge lost tones: with rate 1/2, one tone may be lost even without frequency spreading.
-/
namespace SunPhy.C139
open SunPhy Spec Complex C137
noncomputable section

/-! ### Copies -/

theorem copy_left {option M n d c : Nat} {lost : Finset Int} (h : Rx.copyLeft option M lost n d = some c) :
    c < Spec.spreadOf M ∧ Rx.dataTone option n (d + c * (tonesOf option / Spec.spreadOf M)) ∉ lost := by
  unfold Rx.copyLeft at h
  have h1 := List.mem_range.1 (List.mem_of_find?_eq_some h)
  have h2 := List.find?_some h
  simp only [decide_eq_true_eq] at h2
  exact ⟨h1, h2⟩

theorem none_left {option M n d : Nat} {lost : Finset Int} (h : Rx.copyLeft option M lost n d = none) (c : Nat) (hc : c < Spec.spreadOf M) :
    Rx.dataTone option n (d + c * (tonesOf option / Spec.spreadOf M)) ∈ lost := by
  unfold Rx.copyLeft at h
  have := List.find?_eq_none.1 h c (List.mem_range.2 hc)
  simpa only [decide_eq_true_eq, not_not] using this

theorem copy_lt {option M d c : Nat} (hd : d < tonesOf option / Spec.spreadOf M) (hc : c < Spec.spreadOf M) : d + c * (tonesOf option / Spec.spreadOf M) < tonesOf option := by
  have hle : Spec.spreadOf M * (tonesOf option / Spec.spreadOf M) ≤ tonesOf option := Nat.mul_div_le _ _
  have := Nat.mul_le_mul_right (tonesOf option / Spec.spreadOf M) (Nat.succ_le_of_lt hc)
  rw [Nat.succ_mul] at this
  omega

/-- A value all of whose copies are lost costs as many tones as it has copies. -/
theorem one_lost {p : OfdmParams} (h : Supported p) {M n d : Nat} {lost : Finset Int} (hd : d < tonesOf p.option / Spec.spreadOf M)
    (hn : Rx.copyLeft p.option M lost n d = none) : Spec.spreadOf M ≤ lost.card := by
  have := Finset.card_le_card_of_injOn (s := Finset.range (Spec.spreadOf M)) (t := lost) (fun c => Rx.dataTone p.option n (d + c * (tonesOf p.option / Spec.spreadOf M)))
    (fun c hc => none_left hn c (Finset.mem_range.1 hc)) (by
      intro c hc c' hc' hcc
      have hc := Finset.mem_range.1 (Finset.mem_coe.1 hc)
      have hc' := Finset.mem_range.1 (Finset.mem_coe.1 hc')
      have := dataTone_inj h n (copy_lt hd hc) (copy_lt hd hc') hcc
      exact Nat.eq_of_mul_eq_mul_right (show 0 < tonesOf p.option / Spec.spreadOf M by omega) (by omega))
  rwa [Finset.card_range] at this

/-- Two different values of a symbol cost twice as many. -/
theorem two_lost {p : OfdmParams} (h : Supported p) {M n d d' : Nat} {lost : Finset Int} (hd : d < tonesOf p.option / Spec.spreadOf M)
    (hd' : d' < tonesOf p.option / Spec.spreadOf M) (hne : d ≠ d')
    (hn : Rx.copyLeft p.option M lost n d = none) (hn' : Rx.copyLeft p.option M lost n d' = none) : 2 * Spec.spreadOf M ≤ lost.card := by
  have := Finset.card_le_card_of_injOn (s := Finset.range 2 ×ˢ Finset.range (Spec.spreadOf M)) (t := lost)
    (fun e => Rx.dataTone p.option n ((if e.1 = 0 then d else d') + e.2 * (tonesOf p.option / Spec.spreadOf M)))
    (by
      rintro ⟨e, c⟩ hc
      have hc := (Finset.mem_product.1 (Finset.mem_coe.1 hc)).2
      have hc := Finset.mem_range.1 hc
      simp only
      split
      · exact none_left hn c hc
      · exact none_left hn' c hc) (by
      rintro ⟨e, c⟩ hc ⟨e', c'⟩ hc' hcc
      obtain ⟨q1, q2⟩ := Finset.mem_product.1 (Finset.mem_coe.1 hc)
      obtain ⟨q1', q2'⟩ := Finset.mem_product.1 (Finset.mem_coe.1 hc')
      simp only [Finset.mem_range] at q1 q2 q1' q2' hcc
      have hx : (if e = 0 then d else d') < tonesOf p.option / Spec.spreadOf M := by split <;> assumption
      have hx' : (if e' = 0 then d else d') < tonesOf p.option / Spec.spreadOf M := by split <;> assumption
      have := dataTone_inj h n (copy_lt hx q2) (copy_lt hx' q2') hcc
      generalize tonesOf p.option / Spec.spreadOf M = D at *
      have m1 := congrArg (· % D) this
      have m2 := congrArg (· / D) this
      simp only [Nat.add_mul_mod_self_right, Nat.mod_eq_of_lt hx, Nat.mod_eq_of_lt hx'] at m1
      simp only [Nat.add_mul_div_right _ _ (show 0 < D by omega), Nat.div_eq_of_lt hx, Nat.div_eq_of_lt hx', Nat.zero_add] at m2
      have : e = e' := by
        by_cases a : e = 0 <;> by_cases b : e' = 0 <;> simp only [a, b, if_true, if_false] at m1 <;> omega
      exact Prod.ext this m2)
  rwa [Finset.card_product, Finset.card_range, Finset.card_range] at this

/-! ### Decisions -/

/-- The decisions that are made are right. -/
theorem coded_left {p : OfdmParams} (h : Supported p) (m : Bits) (lost : Nat → Finset Int) (r : List ℂ) (hc : Tones p m lost r) (M n0 : Nat) (stream : Bits) (cnt : Nat)
    (hw : bitsOf M = 1 ∨ bitsOf M = 2 ∨ bitsOf M = 4) (hD : 0 < tonesOf p.option / Spec.spreadOf M)
    (hS : ∀ n < cnt, n0 + n < Ref.symbolCount p m.length ∧ C91.schemeOf p (n0 + n) = M ∧
      ∀ t ∈ dataToneList (Ref.nfft p.option) (Ref.guardLow p.option) (Ref.guardHigh p.option) (Ref.pilotTones p.option (n0 + n)),
        Ref.toneValue p m (n0 + n) t = Ref.dataValue p.option M stream n
          ((dataToneList (Ref.nfft p.option) (Ref.guardLow p.option) (Ref.guardHigh p.option) (Ref.pilotTones p.option (n0 + n))).idxOf t))
    (i : Nat) (hi : i < cnt * Ref.symbolBits p.option M) (v : Bool) (hv : Rx.codedBitLeft p.option lost r M n0 i = some v) : v = stream.getD i false := by
  have hw0 : 0 < bitsOf M := by omega
  have hsb : Ref.symbolBits p.option M = tonesOf p.option / Spec.spreadOf M * bitsOf M := rfl
  have hb0 : 0 < Ref.symbolBits p.option M := by rw [hsb]; exact Nat.mul_pos hD hw0
  have hn : i / Ref.symbolBits p.option M < cnt := by rwa [Nat.div_lt_iff_lt_mul hb0]
  obtain ⟨g1, g2, g3⟩ := hS _ hn
  have hmod := Nat.mod_lt i hb0
  have hd : i % Ref.symbolBits p.option M / bitsOf M < tonesOf p.option / Spec.spreadOf M := by
    rw [Nat.div_lt_iff_lt_mul hw0, ← hsb]; exact hmod
  unfold Rx.codedBitLeft at hv
  simp only at hv
  obtain ⟨c, hcl, hv⟩ := Option.map_eq_some_iff.1 hv
  obtain ⟨c1, c2⟩ := copy_left hcl
  subst hv
  have hle : Spec.spreadOf M * (tonesOf p.option / Spec.spreadOf M) ≤ tonesOf p.option := Nat.mul_div_le _ _
  have hdt : i % Ref.symbolBits p.option M / bitsOf M + c * (tonesOf p.option / Spec.spreadOf M) < tonesOf p.option := by
    have := Nat.mul_le_mul_right (tonesOf p.option / Spec.spreadOf M) (Nat.succ_le_of_lt c1)
    rw [Nat.succ_mul] at this
    omega
  obtain ⟨t1, t2⟩ := C100.dataTone_mem h (n0 + i / Ref.symbolBits p.option M) _ hdt
  have hval := g3 _ t1
  rw [t2] at hval
  have hclose := hc _ g1 _ (List.mem_of_mem_filter t1) c2
  rw [hval, g2] at hclose
  have m1 : (i % Ref.symbolBits p.option M / bitsOf M + c * (tonesOf p.option / Spec.spreadOf M)) % (tonesOf p.option / Spec.spreadOf M) =
      i % Ref.symbolBits p.option M / bitsOf M := by rw [Nat.add_mul_mod_self_right, Nat.mod_eq_of_lt hd]
  have m2 : (i % Ref.symbolBits p.option M / bitsOf M + c * (tonesOf p.option / Spec.spreadOf M)) / (tonesOf p.option / Spec.spreadOf M) = c := by
    rw [Nat.add_mul_div_right _ _ hD, Nat.div_eq_of_lt hd, Nat.zero_add]
  simp only [Ref.dataValue, m1, m2] at hclose
  generalize Ref.turns (Spec.spreadOf M) c (i % Ref.symbolBits p.option M / bitsOf M + 1) = k at *
  generalize Rx.toneValue p.option r (n0 + i / Ref.symbolBits p.option M) _ = z at *
  have hI : (I : ℂ) ^ k ≠ 0 := pow_ne_zero _ I_ne_zero
  have hz : ‖z / I ^ k -
      Ref.point (bitsOf M) (fun j => stream.getD (i / Ref.symbolBits p.option M * Ref.symbolBits p.option M + i % Ref.symbolBits p.option M / bitsOf M * bitsOf M + j) false)‖ ^ 2 <
      C100.margin (bitsOf M) := by
    refine lt_of_eq_of_lt ?_ hclose
    rw [← norm_turn k]
    rw [sub_mul, div_mul_cancel₀ _ hI]
  rw [C100.slice_ok _ hw _ _ hz _ (Nat.mod_lt _ hw0)]
  congr 1
  have a1 := Nat.div_add_mod i (Ref.symbolBits p.option M)
  have a2 := Nat.div_add_mod (i % Ref.symbolBits p.option M) (bitsOf M)
  rw [Nat.mul_comm] at a1 a2
  omega
where
  norm_turn (k : Nat) {z : ℂ} : ‖z * I ^ k‖ ^ 2 = ‖z‖ ^ 2 := by rw [norm_mul, C91.turn_norm, mul_one]

/-! ### Which bits are left -/

/-- Number of tones that may be lost in symbol `n`: one less than the copies of a value; with rate 1/2, and when interleaving stays within the symbol, one less than the copies of two values. -/
def spare (p : OfdmParams) (n : Nat) : Nat :=
  if Ref.threeQuarters (C91.schemeOf p n) = false ∧ (p.interleaving = 0 ∨ Spec.spreadOf (C91.schemeOf p n) = 1) then 2 * Spec.spreadOf (C91.schemeOf p n) - 1
  else Spec.spreadOf (C91.schemeOf p n) - 1

theorem spare_le (p : OfdmParams) (n : Nat) : spare p n ≤ 2 * Spec.spreadOf (C91.schemeOf p n) - 1 := by unfold spare; split <;> omega

theorem spread_pos (M : Nat) : 0 < Spec.spreadOf M := by unfold Spec.spreadOf; split <;> decide

theorem some_of_few {p : OfdmParams} (h : Supported p) (r : List ℂ) (M n0 i : Nat) (lost : Nat → Finset Int) (hw : 0 < bitsOf M) (hD : 0 < tonesOf p.option / Spec.spreadOf M)
    (hf : (lost (n0 + i / Ref.symbolBits p.option M)).card < Spec.spreadOf M) : (Rx.codedBitLeft p.option lost r M n0 i).isSome := by
  by_contra hn
  have hn : Rx.codedBitLeft p.option lost r M n0 i = none := by simpa using hn
  unfold Rx.codedBitLeft at hn
  simp only [Option.map_eq_none_iff] at hn
  have hb0 : 0 < Ref.symbolBits p.option M := Nat.mul_pos hD hw
  have := one_lost h (by rw [Nat.div_lt_iff_lt_mul hw]; exact Nat.mod_lt i hb0) hn
  omega

theorem some_of_pair {p : OfdmParams} (h : Supported p) (r : List ℂ) (M n0 i i' : Nat) (lost : Nat → Finset Int) (hw : 0 < bitsOf M) (hD : 0 < tonesOf p.option / Spec.spreadOf M)
    (hs : i / Ref.symbolBits p.option M = i' / Ref.symbolBits p.option M) (hne : i % Ref.symbolBits p.option M / bitsOf M ≠ i' % Ref.symbolBits p.option M / bitsOf M)
    (hf : (lost (n0 + i / Ref.symbolBits p.option M)).card < 2 * Spec.spreadOf M) :
    (Rx.codedBitLeft p.option lost r M n0 i).isSome ∨ (Rx.codedBitLeft p.option lost r M n0 i').isSome := by
  by_contra hcon
  rw [not_or] at hcon
  have hn : Rx.codedBitLeft p.option lost r M n0 i = none := by simpa using hcon.1
  have hn' : Rx.codedBitLeft p.option lost r M n0 i' = none := by simpa using hcon.2
  unfold Rx.codedBitLeft at hn hn'
  simp only [Option.map_eq_none_iff] at hn hn'
  rw [← hs] at hn'
  have hb0 : 0 < Ref.symbolBits p.option M := Nat.mul_pos hD hw
  have := two_lost h (by rw [Nat.div_lt_iff_lt_mul hw]; exact Nat.mod_lt i hb0) (by rw [Nat.div_lt_iff_lt_mul hw]; exact Nat.mod_lt i' hb0) hne hn hn'
  omega

/-- Where coded bit `k` is after interleaving. -/
abbrev place (p : OfdmParams) (M k : Nat) : Nat :=
  k / depth p.interleaving p.option M * depth p.interleaving p.option M +
    perm1 (depth p.interleaving p.option M) (rows M) (perm2 (depth p.interleaving p.option M) (rows M) (step M) (k % depth p.interleaving p.option M))

theorem place_lt {p : OfdmParams} (h : Supported p) {M : Nat} (hM : M = p.mcs ∨ M = lowestMcs p.option) (L k : Nat) (hL : L % depth p.interleaving p.option M = 0) (hk : k < L) :
    place p M k < L := by
  obtain ⟨hpos, hp⟩ := C100.perm_facts h hM
  have hb := C100.block_le hpos hL hk
  have q1 := (hp (k % depth p.interleaving p.option M) (Nat.mod_lt _ hpos)).1
  unfold place
  rw [Nat.add_mul, Nat.one_mul] at hb
  omega

theorem depth_even : ∀ p ∈ allSupported, ∀ M ∈ [p.mcs, lowestMcs p.option], depth p.interleaving p.option M % 2 = 0 ∧
    (p.interleaving = 0 ∨ Spec.spreadOf M = 1 → depth p.interleaving p.option M = Ref.symbolBits p.option M) ∧ 0 < bitsOf M ∧ 0 < tonesOf p.option / Spec.spreadOf M := by decide +kernel

/-- Of the two bits of each information bit one is left. -/
theorem pair_left {p : OfdmParams} (h : Supported p) {M : Nat} (hM : M = p.mcs ∨ M = lowestMcs p.option) (r : List ℂ) (n0 k cnt : Nat) (lost : Nat → Finset Int)
    (hk : 2 * k + 1 < cnt * Ref.symbolBits p.option M) (hL : cnt * Ref.symbolBits p.option M % depth p.interleaving p.option M = 0)
    (hq : Ref.threeQuarters M = false) (hcnt : ∀ n < cnt, C91.schemeOf p (n0 + n) = M)
    (hf : ∀ n < cnt, (lost (n0 + n)).card ≤ spare p (n0 + n)) :
    (Rx.codedBitLeft p.option lost r M n0 (place p M (2 * k))).isSome ∨ (Rx.codedBitLeft p.option lost r M n0 (place p M (2 * k + 1))).isSome := by
  obtain ⟨he, hds, hw, hD⟩ := depth_even p (mem_allSupported h) M (by simpa using hM)
  have hb0 : 0 < Ref.symbolBits p.option M := Nat.mul_pos hD hw
  obtain ⟨hpos, hp⟩ := C100.perm_facts h hM
  have hsp := spread_pos M
  have hpl := place_lt h hM (cnt * Ref.symbolBits p.option M) (2 * k) hL (by omega)
  have hn : place p M (2 * k) / Ref.symbolBits p.option M < cnt := by rwa [Nat.div_lt_iff_lt_mul hb0]
  have g2 := hcnt _ hn
  have hfn := hf _ hn
  unfold spare at hfn
  rw [g2] at hfn
  by_cases hc : p.interleaving = 0 ∨ Spec.spreadOf M = 1
  · rw [if_pos ⟨hq, hc⟩] at hfn
    have hK := hds hc
    have hsep := C95.separated _ (mem_mcsOptIntl h) M (by simpa using hM) (2 * k % depth p.interleaving p.option M) (by simpa using Nat.mod_lt _ hpos)
    have hm : (2 * k + 1) % depth p.interleaving p.option M = 2 * k % depth p.interleaving p.option M + 1 ∧
        (2 * k + 1) / depth p.interleaving p.option M = 2 * k / depth p.interleaving p.option M ∧ 2 * k % depth p.interleaving p.option M + 1 < depth p.interleaving p.option M := by
      obtain ⟨j, hj⟩ : ∃ j, depth p.interleaving p.option M = 2 * j := ⟨depth p.interleaving p.option M / 2, by omega⟩
      clear hsep
      rw [hj] at hpos ⊢
      have e1 : 2 * k % (2 * j) = 2 * (k % j) := Nat.mul_mod_mul_left 2 k j
      have e2 := Nat.mod_lt k (show 0 < j by omega)
      have e3 : 2 * k + 1 = (2 * k % (2 * j) + 1) + 2 * j * (2 * k / (2 * j)) := by have := Nat.mod_add_div (2 * k) (2 * j); omega
      have e4 : 2 * k % (2 * j) + 1 < 2 * j := by omega
      refine ⟨?_, ?_, e4⟩
      · rw [e3, Nat.add_mul_mod_self_left, Nat.mod_eq_of_lt e4]
      · rw [e3, Nat.add_mul_div_left _ _ hpos, Nat.div_eq_of_lt e4, Nat.zero_add]
    obtain ⟨m1, m2, m3⟩ := hm
    have hsep := hsep.1 1 (by simp) m3
    have q1 := (hp _ (Nat.mod_lt (2 * k) hpos)).1
    have q2 := (hp _ m3).1
    refine some_of_pair h r M n0 _ _ lost hw hD ?_ ?_ (by omega)
    · unfold place
      rw [m1, m2, ← hK]
      generalize perm1 _ _ _ = x at q1 ⊢
      generalize perm1 _ _ _ = y at q2 ⊢
      rw [Nat.mul_comm, Nat.mul_add_div hpos, Nat.mul_add_div hpos, Nat.div_eq_of_lt q1, Nat.div_eq_of_lt q2]
    · unfold place
      rw [m1, m2, ← hK]
      unfold C19.position at hsep
      generalize perm1 _ _ _ = x at q1 hsep ⊢
      generalize perm1 _ _ _ = y at q2 hsep ⊢
      rwa [Nat.mul_comm, Nat.mul_add_mod, Nat.mul_add_mod, Nat.mod_eq_of_lt q1, Nat.mod_eq_of_lt q2]
  · rw [if_neg (fun hh => hc hh.2)] at hfn
    exact Or.inl (some_of_few h r M n0 _ lost hw hD (by omega))

/-! ### Decoding -/

theorem decode_left (x : Bits) (y : Nat → Option Bool) (len : Nat) (hl : len ≤ x.length) (hy : ∀ q < 2 * len, ∀ v, y q = some v → v = (Ref.conv x).getD q false)
    (hp : ∀ n < len, (y (2 * n)).isSome ∨ (y (2 * n + 1)).isSome) : Rx.decodeHalfLeft y len = x.take len := by
  refine C100.decode_ok x _ _ _ (fun n d hd => ?_) len hl fun n hn => ?_
  · split at hd <;> simp only [List.mem_cons, List.not_mem_nil, or_false] at hd <;> omega
  · by_cases hs : (y (2 * n)).isSome
    · rw [if_pos hs, if_pos hs]
      obtain ⟨v, hv⟩ := Option.isSome_iff_exists.1 hs
      rw [hv, Option.getD_some, hy _ (by omega) v hv, C100.conv_getD x _ (by omega), if_pos (by omega), show 2 * n / 2 = n by omega]
    · rw [if_neg hs, if_neg hs]
      obtain ⟨v, hv⟩ := Option.isSome_iff_exists.1 ((hp n hn).resolve_left hs)
      rw [hv, Option.getD_some, hy _ (by omega) v hv, C100.conv_getD x _ (by omega), if_neg (by omega), show (2 * n + 1) / 2 = n by omega]

/-- A bit that is left is the coded bit before interleaving. -/
theorem deinterleave_left {p : OfdmParams} (h : Supported p) {M : Nat} (hM : M = p.mcs ∨ M = lowestMcs p.option) (x : Bits)
    (hx : x.length % depth p.interleaving p.option M = 0) (y : Nat → Option Bool)
    (hy : ∀ i < x.length, ∀ v, y i = some v → v = (Ref.interleave (depth p.interleaving p.option M) (rows M) (step M) x).getD i false) (k : Nat) (hk : k < x.length) (v : Bool)
    (hv : Rx.deinterleaveLeft (depth p.interleaving p.option M) (rows M) (step M) y k = some v) : v = x.getD k false := by
  have e := C100.deinterleave_ok h hM x hx (fun i => (Ref.interleave (depth p.interleaving p.option M) (rows M) (step M) x).getD i false) (fun _ _ => rfl) k hk
  rw [← e]
  exact hy _ (place_lt h hM x.length k hx hk) v hv

/-! ### Header and payload -/

theorem header_bits {p : OfdmParams} (h : Supported p) (m : Bits) (lost : Nat → Finset Int) (r : List ℂ) (hc : Tones p m lost r) (i : Nat)
    (hi : i < Ref.headerTable p.interleaving p.option * Ref.symbolBits p.option (Ref.headerMcs p.option)) (v : Bool) (hv : Rx.codedBitLeft p.option lost r (Ref.headerMcs p.option) 0 i = some v) :
    v = (Ref.headerStream p (m.length / 8)).getD i false := by
  obtain ⟨hw, hD, ht, -⟩ := C98.hdr_facts p (mem_allSupported h)
  have hD0 : 0 < tonesOf p.option / Spec.spreadOf (Ref.headerMcs p.option) := by
    have key : ∀ p ∈ allSupported, 0 < tonesOf p.option / Spec.spreadOf (Ref.headerMcs p.option) := by decide +kernel
    exact key p (mem_allSupported h)
  refine coded_left h m lost r hc (Ref.headerMcs p.option) 0 (Ref.headerStream p (m.length / 8)) (Ref.headerTable p.interleaving p.option)
    (by rcases hw with hw | hw; exact Or.inl hw; exact Or.inr (Or.inl hw)) hD0 (by
      intro n hn
      have hnh : 0 + n < Ref.headerCount p := by omega
      refine ⟨by unfold Ref.symbolCount; omega, by unfold C91.schemeOf; rw [if_pos hnh], fun t htm => ?_⟩
      have ht2 := (List.mem_filter.1 htm).2
      simp only [decide_eq_true_eq] at ht2
      obtain ⟨g1, g2, g3⟩ := ht2
      unfold Ref.toneValue
      simp only
      have g12 : ¬ (isGuard (Ref.nfft p.option) (Ref.guardLow p.option) (Ref.guardHigh p.option) t ∨ t = 0) := fun hg => hg.elim g1 g2
      rw [if_neg g12, if_neg g3, if_pos hnh]
      simp only [Nat.zero_add]) i hi v hv

theorem header_left {p : OfdmParams} (h : Supported p) (m : Bits) (lost : Nat → Finset Int) (r : List ℂ) (hc : Tones p m lost r)
    (hf : ∀ n < Ref.headerCount p, (lost n).card ≤ spare p n) :
    Rx.headerLeft p.option p.interleaving (Rx.codedBitLeft p.option lost r) =
      Ref.headerInfo p.mcs (m.length / 8) p.scrambler ++ Ref.crc8 (Ref.headerInfo p.mcs (m.length / 8) p.scrambler) := by
  obtain ⟨hw, hD, ht, hd, hd0, h36, h2, hle, hlow, -⟩ := C98.hdr_facts p (mem_allSupported h)
  have hb := C98.base_length h (m.length / 8)
  have coded := header_bits h m lost r hc
  have hcl : (Ref.conv (C98.base p (m.length / 8))).length = Ref.headerTable p.interleaving p.option * Ref.symbolBits p.option (Ref.headerMcs p.option) := by
    rw [C98.conv_length, hb]
  have hq : Ref.threeQuarters (Ref.headerMcs p.option) = false := by
    have key : ∀ p ∈ allSupported, Ref.threeQuarters (Ref.headerMcs p.option) = false := by decide +kernel
    exact key p (mem_allSupported h)
  unfold Rx.headerLeft
  simp only
  rw [decode_left (C98.base p (m.length / 8)) _ 30 (by omega)]
  · unfold C98.base
    rw [List.take_left' (by simp [C98.info_length, C98.crc_length])]
  · intro q hq2
    refine deinterleave_left h (Or.inr hlow.symm) _ (by rw [hcl]; exact hd) _ (fun i hi => ?_) q (by omega)
    rw [hcl] at hi
    intro v hv
    rw [coded i hi v hv, C98.stream_base h _ i hi]
    rfl
  · intro n hn
    refine pair_left h (Or.inr hlow.symm) r 0 n (Ref.headerTable p.interleaving p.option) lost (by omega) hd hq (fun n hn => ?_) (fun n hn => ?_)
    · have hnh : 0 + n < Ref.headerCount p := by omega
      unfold C91.schemeOf; rw [if_pos hnh]
    · exact hf _ (by omega)

theorem payload_bits {p : OfdmParams} (h : Supported p) (m : Bits) (lost : Nat → Finset Int) (r : List ℂ) (hc : Tones p m lost r) (i : Nat)
    (hi : i < (Ref.payloadStream p m).length) (v : Bool) (hv : Rx.codedBitLeft p.option lost r p.mcs (Ref.headerCount p) i = some v) :
    v = (Ref.payloadStream p m).getD i false := by
  obtain ⟨hw, -⟩ := C97.cfg_facts p (mem_allSupported h)
  obtain ⟨hD0, hg0⟩ := C100.pay_facts p (mem_allSupported h)
  have hsl := C97.stream_length h m
  have coded := coded_left h m lost r hc p.mcs (Ref.headerCount p) (Ref.payloadStream p m) (Ref.groups p m.length * Spec.spreadOf p.mcs) hw hD0 (by
      intro n hn
      have hnh : ¬ Ref.headerCount p + n < Ref.headerCount p := by omega
      refine ⟨by unfold Ref.symbolCount; omega, by unfold C91.schemeOf; rw [if_neg hnh], fun t htm => ?_⟩
      have ht2 := (List.mem_filter.1 htm).2
      simp only [decide_eq_true_eq] at ht2
      obtain ⟨g1, g2, g3⟩ := ht2
      unfold Ref.toneValue
      simp only
      have g12 : ¬ (isGuard (Ref.nfft p.option) (Ref.guardLow p.option) (Ref.guardHigh p.option) t ∨ t = 0) := fun hg => hg.elim g1 g2
      rw [if_neg g12, if_neg g3, if_neg hnh]
      simp only [Nat.add_sub_cancel_left])
  rw [← hsl] at coded
  exact coded i hi v hv

theorem payload_left {p : OfdmParams} (h : Supported p) (m : Bits) (lost : Nat → Finset Int) (r : List ℂ) (hc : Tones p m lost r)
    (hf : ∀ n < Ref.symbolCount p m.length, (lost n).card ≤ spare p n) :
    Rx.payloadLeft p (Rx.codedBitLeft p.option lost r) (8 * (m.length / 8)) = m.take (8 * (m.length / 8)) := by
  obtain ⟨hw, -⟩ := C97.cfg_facts p (mem_allSupported h)
  obtain ⟨hD0, hg0⟩ := C100.pay_facts p (mem_allSupported h)
  obtain ⟨-, -, -, -, -, e6, -, -, -, e10, -, -, -, -, h34⟩ := ref_tables p (mem_allSupported h)
  have hlen := C100.groups_le h m.length
  have hpl : (Ref.payload p m).length = Ref.groups p m.length * Ref.groupBits p.option p.mcs := by simp [Ref.payload]
  have hsl := C97.stream_length h m
  have coded := payload_bits h m lost r hc
  have hcode : (if Ref.threeQuarters p.mcs then Ref.conv34 (Ref.payload p m) else Ref.conv (Ref.payload p m)).length % depth p.interleaving p.option p.mcs = 0 := by
    have key : ∀ p ∈ allSupported, ∀ g, g = Ref.groupBits p.option p.mcs →
        (if Ref.threeQuarters p.mcs then 4 * g / 3 else 2 * g) % depth p.interleaving p.option p.mcs = 0 := by
      intro p hp g hg
      subst hg
      revert p
      decide +kernel
    have k1 := key p (mem_allSupported h) _ rfl
    split
    · rename_i hq
      rw [if_pos hq] at k1
      obtain ⟨c, hc3⟩ := Nat.dvd_of_mod_eq_zero (h34 hq)
      unfold Ref.conv34
      rw [List.length_map, List.length_range, hpl, hc3, show 4 * (Ref.groups p m.length * (3 * c)) / 3 = Ref.groups p m.length * (4 * c) by
        rw [show 4 * (Ref.groups p m.length * (3 * c)) = Ref.groups p m.length * (4 * c) * 3 by ring, Nat.mul_div_cancel _ (by norm_num)]]
      rw [hc3, show 4 * (3 * c) / 3 = 4 * c by omega] at k1
      rw [Nat.mul_mod, k1]; simp
    · rename_i hq
      rw [if_neg hq] at k1
      rw [C98.conv_length, hpl, show 2 * (Ref.groups p m.length * Ref.groupBits p.option p.mcs) = Ref.groups p m.length * (2 * Ref.groupBits p.option p.mcs) by ring, Nat.mul_mod, k1]; simp
  have hcl : (if Ref.threeQuarters p.mcs then Ref.conv34 (Ref.payload p m) else Ref.conv (Ref.payload p m)).length = (Ref.payloadStream p m).length := by
    unfold Ref.payloadStream; rw [C98.interleave_length]
  have dei := deinterleave_left h (Or.inl rfl) _ hcode (Rx.codedBitLeft p.option lost r p.mcs (Ref.headerCount p)) (fun i hi v hv => by
    rw [coded i (by rw [← hcl]; exact hi) v hv]; rfl)
  have hcnt : ∀ n < Ref.groups p m.length * Spec.spreadOf p.mcs, Ref.headerCount p + n < Ref.symbolCount p m.length ∧ C91.schemeOf p (Ref.headerCount p + n) = p.mcs := by
    intro n hn
    have hnh : ¬ Ref.headerCount p + n < Ref.headerCount p := by omega
    exact ⟨by unfold Ref.symbolCount; omega, by unfold C91.schemeOf; rw [if_neg hnh]⟩
  obtain ⟨-, -, hw0, -⟩ := depth_even p (mem_allSupported h) p.mcs (by simp)
  have hb0 : 0 < Ref.symbolBits p.option p.mcs := Nat.mul_pos hD0 hw0
  rw [hcl, hsl] at hcode
  have hx : (if Ref.threeQuarters p.mcs then Rx.decode34 (fun i => (Rx.deinterleaveLeft (depth p.interleaving p.option p.mcs) (rows p.mcs) (step p.mcs)
        (Rx.codedBitLeft p.option lost r p.mcs (Ref.headerCount p)) i).getD false) (8 * (m.length / 8))
      else Rx.decodeHalfLeft (Rx.deinterleaveLeft (depth p.interleaving p.option p.mcs) (rows p.mcs) (step p.mcs) (Rx.codedBitLeft p.option lost r p.mcs (Ref.headerCount p))) (8 * (m.length / 8))) =
      (Ref.payload p m).take (8 * (m.length / 8)) := by
    split
    · rename_i hq
      simp only [if_pos hq] at dei hcl
      obtain ⟨c, hc3⟩ := Nat.dvd_of_mod_eq_zero (h34 hq)
      refine C100.decode34_ok _ _ _ (by rw [hpl]; omega) (by rw [hpl, hc3, show Ref.groups p m.length * (3 * c) = 3 * (Ref.groups p m.length * c) by ring]; omega) fun q hq2 => ?_
      have hq3 : q < (Ref.conv34 (Ref.payload p m)).length := by unfold Ref.conv34; simpa using hq2
      have hpq := place_lt h (Or.inl rfl) _ q hcode (by rw [← hsl, ← hcl]; exact hq3)
      have hn : place p p.mcs q / Ref.symbolBits p.option p.mcs < Ref.groups p m.length * Spec.spreadOf p.mcs := by rwa [Nat.div_lt_iff_lt_mul hb0]
      have fewn := hf _ (hcnt _ hn).1
      unfold spare at fewn
      rw [(hcnt _ hn).2, if_neg (fun hh => by rw [hq] at hh; exact absurd hh.1 (by decide))] at fewn
      have hs := some_of_few h r p.mcs (Ref.headerCount p) (place p p.mcs q) lost hw0 hD0 (by have := spread_pos p.mcs; omega)
      obtain ⟨v, hv⟩ := Option.isSome_iff_exists.1 hs
      have hv' : Rx.deinterleaveLeft (depth p.interleaving p.option p.mcs) (rows p.mcs) (step p.mcs) (Rx.codedBitLeft p.option lost r p.mcs (Ref.headerCount p)) q = some v := hv
      rw [hv', Option.getD_some]
      exact dei q hq3 v hv'
    · rename_i hq
      simp only [if_neg hq] at dei hcl
      have hlc := C98.conv_length (Ref.payload p m)
      refine decode_left _ _ _ (by rw [hpl]; omega) (fun q hq2 => dei q (by rw [hlc, hpl]; omega)) fun n hn => ?_
      exact pair_left h (Or.inl rfl) r (Ref.headerCount p) n (Ref.groups p m.length * Spec.spreadOf p.mcs) lost (by rw [← hsl, ← hcl, hlc, hpl]; omega) hcode
        (by simpa using hq) (fun n hn => (hcnt n hn).2) (fun n hn => hf _ (hcnt n hn).1)
  unfold Rx.payloadLeft
  simp only
  rw [hx]
  refine (range_map_ext (by simp; omega) _ fun i hi => ?_).symm
  rw [List.getElem?_take_of_lt hi, List.getD_eq_getElem?_getD, List.getElem?_take_of_lt hi]
  unfold Ref.payload
  simp only
  rw [List.getElem?_map, List.getElem?_range (by omega)]
  simp only [Option.map_some, Option.getD_some]
  rw [if_pos (by omega), ← Bool.xor_assoc, Bool.xor_self, Bool.false_xor, List.getD_eq_getElem?_getD, List.getElem?_eq_getElem (by omega)]
  rfl

theorem receive_left {p : OfdmParams} (h : Supported p) (m : Bits) (h2 : m.length / 8 ≤ 2047) (lost : Nat → Finset Int) (r : List ℂ) (hc : Tones p m lost r) (hf : ∀ n < Ref.symbolCount p m.length, (lost n).card ≤ spare p n) :
    Rx.receiveErasing p.option p.interleaving lost r = some (p.mcs, p.scrambler, m.take (8 * (m.length / 8))) := by
  obtain ⟨-, -, -, -, -, -, -, -, -, hm, hs⟩ := C98.hdr_facts p (mem_allSupported h)
  have hh := header_left h m lost r hc (fun n hn => hf n (by unfold Ref.symbolCount; omega))
  have hl := C98.info_length p.mcs (m.length / 8) p.scrambler
  unfold Rx.receiveErasing
  simp only
  have t22 : (Rx.headerLeft p.option p.interleaving (Rx.codedBitLeft p.option lost r)).take 22 = Ref.headerInfo p.mcs (m.length / 8) p.scrambler := by rw [hh, List.take_left' hl]
  have d22 : (Rx.headerLeft p.option p.interleaving (Rx.codedBitLeft p.option lost r)).drop 22 = Ref.crc8 (Ref.headerInfo p.mcs (m.length / 8) p.scrambler) := by rw [hh, List.drop_left' hl]
  have fl : ∀ w v, (Ref.field w v).length = w := by intro w v; simp [Ref.field]
  have t5 : (Rx.headerLeft p.option p.interleaving (Rx.codedBitLeft p.option lost r)).take 5 = Ref.field 5 p.mcs := by
    rw [hh]; unfold Ref.headerInfo
    simp only [List.append_assoc]
    rw [List.take_left' (fl _ _)]
  have t11 : ((Rx.headerLeft p.option p.interleaving (Rx.codedBitLeft p.option lost r)).drop 6).take 11 = Ref.field 11 (m.length / 8) := by
    rw [hh]; unfold Ref.headerInfo
    rw [show Ref.field 5 p.mcs ++ [false] ++ Ref.field 11 (m.length / 8) ++ [false, false] ++ Ref.field 2 p.scrambler ++ [false] ++
      Ref.crc8 (Ref.field 5 p.mcs ++ [false] ++ Ref.field 11 (m.length / 8) ++ [false, false] ++ Ref.field 2 p.scrambler ++ [false]) =
      (Ref.field 5 p.mcs ++ [false]) ++ (Ref.field 11 (m.length / 8) ++ ([false, false] ++ Ref.field 2 p.scrambler ++ [false] ++
      Ref.crc8 (Ref.field 5 p.mcs ++ [false] ++ Ref.field 11 (m.length / 8) ++ [false, false] ++ Ref.field 2 p.scrambler ++ [false]))) by simp only [List.append_assoc],
      List.drop_left' (by simp [fl]), List.take_left' (fl _ _)]
  have t2 : ((Rx.headerLeft p.option p.interleaving (Rx.codedBitLeft p.option lost r)).drop 19).take 2 = Ref.field 2 p.scrambler := by
    rw [hh]; unfold Ref.headerInfo
    rw [show Ref.field 5 p.mcs ++ [false] ++ Ref.field 11 (m.length / 8) ++ [false, false] ++ Ref.field 2 p.scrambler ++ [false] ++
      Ref.crc8 (Ref.field 5 p.mcs ++ [false] ++ Ref.field 11 (m.length / 8) ++ [false, false] ++ Ref.field 2 p.scrambler ++ [false]) =
      (Ref.field 5 p.mcs ++ [false] ++ Ref.field 11 (m.length / 8) ++ [false, false]) ++ (Ref.field 2 p.scrambler ++ ([false] ++
      Ref.crc8 (Ref.field 5 p.mcs ++ [false] ++ Ref.field 11 (m.length / 8) ++ [false, false] ++ Ref.field 2 p.scrambler ++ [false]))) by simp only [List.append_assoc],
      List.drop_left' (by simp [fl]), List.take_left' (fl _ _)]
  rw [t22, d22, if_pos rfl, t5, t11, t2, C100.number_field (by omega), C100.number_field (by omega), C100.number_field (by omega)]
  have := payload_left h m lost r hc hf
  rw [show (⟨p.mcs, p.option, p.interleaving, p.scrambler⟩ : OfdmParams) = p from rfl, this]

/-! ### The receiver -/

/-- **C139 (octets).**  Let `r` be a frame that `bytesToIQ` returned, disturbed in the useful part of symbol `n` by interference of any strength confined to the tones `lost n`
and by noise of less energy than 1 (BPSK), 1/2 (QPSK) or 1/10 (16-QAM).  If in every symbol at most `spare` tones are lost, the receiver that uses copies and code recovers MCS, scrambler and
the octets of the message. -/
theorem C139_octets (o : OfdmObj) (h : Supported o.params) (a : Arg) (msg : List UInt8) (ha : C01.Denotes a msg) (h0 : msg ≠ []) (iq : List ℂ) (fs : ℚ)
    (hr : ((ofdmModBytesToIQ a).call o).1 = .ok (iq, fs)) (r : List ℂ) (hl : iq.length ≤ r.length) (lost : Nat → Finset Int)
    (hf : ∀ n < Ref.symbolCount o.params (8 * msg.length), (lost n).card ≤ spare o.params n)
    (J : Nat → Int → ℂ) (hJ : ∀ n, ∀ t ∉ lost n, J n t = 0)
    (hn : ∀ n < Ref.symbolCount o.params (8 * msg.length), rest o.params.option iq r n (J n) < C100.margin (bitsOf (C91.schemeOf o.params n))) :
    ∃ b, Rx.receiveErasing o.params.option o.params.interleaving lost r = some (o.params.mcs, o.params.scrambler, b) ∧ Rx.octets b = msg := by
  obtain ⟨b, hb, hbl, l2, rfl⟩ := C100.bytes_frame o a msg iq fs h ha h0 hr
  refine ⟨b, ?_, C100.octets_ok a msg ha h0 b hb⟩
  rw [← hbl] at hf hn
  have := receive_left h b (by omega) lost r (tones_jam h b lost r hl J hJ hn) hf
  rw [List.take_of_length_le (show b.length ≤ 8 * (b.length / 8) by omega)] at this
  exact this

/-- How many continuous waves a configuration stands: none with rate 3/4 (MCS 4 and 6); without interleaving over the copies 7, 3, 3, 1, 1 and with it 3, 1, 1, 1, 1 for MCS 0, 1, 2, 3, 5. -/
def waves (p : OfdmParams) : Nat :=
  match p.mcs, p.interleaving with
  | 0, 0 => 7 | 1, 0 => 3 | 2, 0 => 3 | 0, _ => 3 | 1, _ => 1 | 2, _ => 1 | 3, _ => 1 | 5, _ => 1 | _, _ => 0

theorem waves_spare : ∀ p ∈ allSupported, ∀ M ∈ [p.mcs, Ref.headerMcs p.option],
    waves p ≤ if Ref.threeQuarters M = false ∧ (p.interleaving = 0 ∨ Spec.spreadOf M = 1) then 2 * Spec.spreadOf M - 1 else Spec.spreadOf M - 1 := by decide +kernel

/-- **C139 (continuous waves).**  Continuous waves of any amplitudes on up to `waves` tones during the whole transmission do no harm: in particular one wave on any tone, for every scheme of rate 1/2. -/
theorem C139_waves (o : OfdmObj) (h : Supported o.params) (a : Arg) (msg : List UInt8) (ha : C01.Denotes a msg) (h0 : msg ≠ []) (iq : List ℂ) (fs : ℚ)
    (hr : ((ofdmModBytesToIQ a).call o).1 = .ok (iq, fs)) (L : Finset Int) (hL : ∀ t ∈ L, t ∈ allTones (Ref.nfft o.params.option)) (A : Int → ℂ) (hc : L.card ≤ waves o.params) :
    ∃ b, Rx.receiveErasing o.params.option o.params.interleaving (fun _ => L) (jammed (Ref.nfft o.params.option) L A iq) =
      some (o.params.mcs, o.params.scrambler, b) ∧ Rx.octets b = msg := by
  have hlen : (jammed (Ref.nfft o.params.option) L A iq).length = iq.length := by simp [jammed]
  obtain ⟨J, hJ, hn⟩ := waves_rest o h a msg ha h0 iq fs hr L hL A
  refine C139_octets o h a msg ha h0 iq fs hr _ (le_of_eq hlen.symm) _ (fun n _ => hc.trans ?_) J hJ hn
  unfold spare C91.schemeOf
  split
  · exact waves_spare _ (mem_allSupported h) _ (by simp)
  · exact waves_spare _ (mem_allSupported h) _ (by simp)

/-! Non-vacuity: QPSK without spreading and one lost tone; BPSK with four copies and seven lost tones. -/
example : Supported ⟨3, 1, 1, 2⟩ ∧ waves ⟨3, 1, 1, 2⟩ = 1 ∧ Supported ⟨5, 4, 0, 0⟩ ∧ waves ⟨5, 4, 0, 0⟩ = 1 ∧ Supported ⟨0, 1, 0, 0⟩ ∧ waves ⟨0, 1, 0, 0⟩ = 7 ∧
    (∀ t ∈ ({-17, -3, 1, 2, 5, 40, 41} : Finset Int), t ∈ allTones (Ref.nfft 1)) ∧ ({-17, -3, 1, 2, 5, 40, 41} : Finset Int).card ≤ 7 ∧
    C01.Denotes (.bytes [0x12, 0xFF]) [0x12, 0xFF] :=
  ⟨⟨by decide, by decide, by decide⟩, rfl, ⟨by decide, by decide, by decide⟩, rfl, ⟨by decide, by decide, by decide⟩, rfl, by decide +kernel, by decide, rfl⟩

end
end SunPhy.C139
