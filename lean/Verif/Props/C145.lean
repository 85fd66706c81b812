import Verif.Props.C139
import Verif.Spec.OfdmBridge
/-
C145 — The rate 3/4 schemes of MR-OFDM also survive one lost tone per symbol.
-/
namespace SunPhy.C145
open SunPhy Spec Complex C137 C139
noncomputable section

/-! ### The code -/

/-- What decoding the three information bits of group `g` needs. -/
structure Enough (y : Nat → Option Bool) (g : Nat) : Prop where
  first : (y (4 * g)).isSome ∨ (y (4 * g + 1)).isSome
  second : (y (4 * g + 2)).isSome ∨ ((y (4 * g + 3)).isSome ∧ (y (4 * g + 4)).isSome ∧ (y (4 * g + 5)).isSome)
  third : (y (4 * g + 3)).isSome ∨ ((y (4 * g + 4)).isSome ∧ (y (4 * g + 5)).isSome)

theorem delayed_shift (x : Bits) (n d k : Nat) : delayed x (n + k) (d + k) = delayed x n d := by
  unfold delayed
  split <;> split <;> first | omega | rfl | skip
  congr 1
  omega

theorem bits34 (x : Bits) (h3 : x.length % 3 = 0) (g : Nat) (hg : 3 * g + 3 ≤ x.length) :
    (Ref.conv34 x).getD (4 * g) false = tapSum [0, 2, 3, 5, 6] x (3 * g) ∧ (Ref.conv34 x).getD (4 * g + 1) false = tapSum [0, 1, 2, 3, 6] x (3 * g) ∧
    (Ref.conv34 x).getD (4 * g + 2) false = tapSum [0, 2, 3, 5, 6] x (3 * g + 1) ∧ (Ref.conv34 x).getD (4 * g + 3) false = tapSum [0, 1, 2, 3, 6] x (3 * g + 2) := by
  have get : ∀ q < 4 * x.length / 3, (Ref.conv34 x).getD q false = (Ref.conv x).getD (6 * (q / 4) + [0, 1, 2, 5].getD (q % 4) 0) false := by
    intro q hq
    unfold Ref.conv34
    rw [List.getD_eq_getElem?_getD, List.getElem?_map, List.getElem?_range hq]
    rfl
  refine ⟨?_, ?_, ?_, ?_⟩
  · rw [get _ (by omega), show 4 * g % 4 = 0 by omega, show [0, 1, 2, 5].getD 0 0 = 0 from rfl, show 6 * (4 * g / 4) + 0 = 2 * (3 * g) by omega,
      C100.conv_getD x _ (by omega), if_pos (by omega), show 2 * (3 * g) / 2 = 3 * g by omega]
  · rw [get _ (by omega), show (4 * g + 1) % 4 = 1 by omega, show [0, 1, 2, 5].getD 1 0 = 1 from rfl, show 6 * ((4 * g + 1) / 4) + 1 = 2 * (3 * g) + 1 by omega,
      C100.conv_getD x _ (by omega), if_neg (by omega), show (2 * (3 * g) + 1) / 2 = 3 * g by omega]
  · rw [get _ (by omega), show (4 * g + 2) % 4 = 2 by omega, show [0, 1, 2, 5].getD 2 0 = 2 from rfl, show 6 * ((4 * g + 2) / 4) + 2 = 2 * (3 * g + 1) by omega,
      C100.conv_getD x _ (by omega), if_pos (by omega), show 2 * (3 * g + 1) / 2 = 3 * g + 1 by omega]
  · rw [get _ (by omega), show (4 * g + 3) % 4 = 3 by omega, show [0, 1, 2, 5].getD 3 0 = 5 from rfl, show 6 * ((4 * g + 3) / 4) + 5 = 2 * (3 * g + 2) + 1 by omega,
      C100.conv_getD x _ (by omega), if_neg (by omega), show (2 * (3 * g + 2) + 1) / 2 = 3 * g + 2 by omega]

/-- The decoder is right if all that it needs is left and right. -/
theorem decode34_left (x : Bits) (h3 : x.length % 3 = 0) (y : Nat → Option Bool) (len : Nat) (hl : len + 5 ≤ x.length)
    (hy : ∀ q < 4 * x.length / 3, ∀ v, y q = some v → v = (Ref.conv34 x).getD q false) (hp : ∀ g, 3 * g < len → Enough y g) : Rx.decode34Left y len = x.take len := by
  have hget : ∀ q < 4 * x.length / 3, (y q).isSome → (y q).getD false = (Ref.conv34 x).getD q false := by
    intro q hq hs
    obtain ⟨v, hv⟩ := Option.isSome_iff_exists.1 hs
    rw [hv, Option.getD_some]
    exact hy q hq v hv
  refine C100.decode_ok x _ _ _ (fun n d hd => ?_) len (by omega) fun n hn => ?_
  · unfold Rx.sum34 at hd
    simp only at hd
    repeat' split at hd
    all_goals simp only [List.mem_cons, List.not_mem_nil, or_false] at hd; omega
  · obtain ⟨e1, e2, e3⟩ := hp (n / 3) (by omega)
    obtain ⟨b0, b1, b2, b3⟩ := bits34 x h3 (n / 3) (by omega)
    obtain ⟨b4, b5, -, -⟩ := bits34 x h3 (n / 3 + 1) (by omega)
    rw [show 4 * (n / 3 + 1) = 4 * (n / 3) + 4 by ring] at b4 b5
    rw [show 3 * (n / 3 + 1) = 3 * (n / 3) + 3 by ring] at b4 b5
    have q0 := hget (4 * (n / 3)) (by omega)
    have q1 := hget (4 * (n / 3) + 1) (by omega)
    have q2 := hget (4 * (n / 3) + 2) (by omega)
    have q3 := hget (4 * (n / 3) + 3) (by omega)
    have q4 := hget (4 * (n / 3) + 4) (by omega)
    have q5 := hget (4 * (n / 3) + 4 + 1) (by omega)
    rw [b0] at q0; rw [b1] at q1; rw [b2] at q2; rw [b3] at q3; rw [b4] at q4; rw [b5] at q5
    have hr : n % 3 = 0 ∨ n % 3 = 1 ∨ n % 3 = 2 := by omega
    simp only [id]
    rcases hr with hr | hr | hr
    · have hn3 : n = 3 * (n / 3) := by omega
      unfold Rx.sum34
      simp only [hr, if_true]
      by_cases hs : (y (4 * (n / 3))).isSome
      · simp only [hs, if_true, List.foldl_cons, List.foldl_nil, Bool.false_xor]
        rw [q0 hs, ← hn3]
      · simp only [hs, Bool.false_eq_true, if_false, List.foldl_cons, List.foldl_nil, Bool.false_xor]
        rw [q1 (e1.resolve_left hs), ← hn3]
    · have hn3 : n = 3 * (n / 3) + 1 := by omega
      unfold Rx.sum34
      simp only [hr, if_true, show ¬ (1 = 0) by decide, if_false]
      by_cases hs : (y (4 * (n / 3) + 2)).isSome
      · simp only [hs, if_true, List.foldl_cons, List.foldl_nil, Bool.false_xor]
        rw [q2 hs, ← hn3]
      · simp only [hs, Bool.false_eq_true, if_false, List.foldl_cons, List.foldl_nil, Bool.false_xor]
        obtain ⟨f3, f4, f5⟩ := e2.resolve_left hs
        rw [q3 f3, q4 f4, show 4 * (n / 3) + 5 = 4 * (n / 3) + 4 + 1 from rfl, q5 f5, show 3 * (n / 3) + 2 = n + 1 by omega, show 3 * (n / 3) + 3 = n + 2 by omega]
        have s : ∀ d k, delayed x (n + k) (d + k) = delayed x n d := fun d k => delayed_shift x n d k
        have s1 : delayed x (n + 1) 1 = delayed x n 0 := s 0 1
        have s2 : delayed x (n + 1) 2 = delayed x n 1 := s 1 1
        have s3 : delayed x (n + 1) 3 = delayed x n 2 := s 2 1
        have s6 : delayed x (n + 1) 6 = delayed x n 5 := s 5 1
        have u0 : delayed x (n + 2) 1 = delayed x (n + 1) 0 := delayed_shift x (n + 1) 0 1
        have u5 : delayed x (n + 2) 5 = delayed x n 3 := s 3 2
        unfold tapSum
        simp only [List.map_cons, List.map_nil, List.foldr_cons, List.foldr_nil, s1, s2, s3, s6, u0, u5]
        generalize delayed x (n + 1) 0 = a0
        generalize delayed x (n + 2) 0 = a1
        generalize delayed x (n + 2) 2 = a2
        generalize delayed x (n + 2) 3 = a3
        generalize delayed x (n + 2) 6 = a6
        generalize delayed x n 0 = c0
        generalize delayed x n 1 = c1
        generalize delayed x n 2 = c2
        generalize delayed x n 3 = c3
        generalize delayed x n 5 = c5
        clear * -
        decide +revert
    · have hn3 : n = 3 * (n / 3) + 2 := by omega
      unfold Rx.sum34
      simp only [hr, show ¬ (2 = 0) by decide, show ¬ (2 = 1) by decide, if_false]
      by_cases hs : (y (4 * (n / 3) + 3)).isSome
      · simp only [hs, if_true, List.foldl_cons, List.foldl_nil, Bool.false_xor]
        rw [q3 hs, ← hn3]
      · simp only [hs, Bool.false_eq_true, if_false, List.foldl_cons, List.foldl_nil, Bool.false_xor]
        obtain ⟨f4, f5⟩ := e3.resolve_left hs
        rw [q4 f4, show 4 * (n / 3) + 5 = 4 * (n / 3) + 4 + 1 from rfl, q5 f5, show 3 * (n / 3) + 3 = n + 1 by omega]
        have u0 : delayed x (n + 1) 1 = delayed x n 0 := delayed_shift x n 0 1
        have u5 : delayed x (n + 1) 5 = delayed x n 4 := delayed_shift x n 4 1
        unfold tapSum
        simp only [List.map_cons, List.map_nil, List.foldr_cons, List.foldr_nil, u0, u5]
        generalize delayed x (n + 1) 0 = a1
        generalize delayed x (n + 1) 2 = a2
        generalize delayed x (n + 1) 3 = a3
        generalize delayed x (n + 1) 6 = a6
        generalize delayed x n 0 = c0
        generalize delayed x n 4 = c4
        clear * -
        decide +revert

/-! ### Which bits are left -/

/-- How many tones may be lost in which symbol: as in C139, but also one tone in each symbol of a payload of rate 3/4, if this tone does not move down by more than half the bandwidth
from one symbol to the next. -/
structure Few (p : OfdmParams) (len : Nat) (lost : Nat → Finset Int) : Prop where
  header : ∀ n < Ref.headerCount p, (lost n).card ≤ spare p n
  half : Ref.threeQuarters p.mcs = false → ∀ n, Ref.headerCount p ≤ n → n < Ref.symbolCount p len → (lost n).card ≤ spare p n
  one : Ref.threeQuarters p.mcs = true → ∀ n, Ref.headerCount p ≤ n → n < Ref.symbolCount p len → (lost n).card ≤ 1
  slow : Ref.threeQuarters p.mcs = true → ∀ n, Ref.headerCount p ≤ n → n + 1 < Ref.symbolCount p len → ∀ t ∈ lost n, ∀ t' ∈ lost (n + 1), t - t' ≤ Ref.nfft p.option / 2

theorem groups_tail {p : OfdmParams} (h : Supported p) (len : Nat) : len + 6 ≤ Ref.groups p len * Ref.groupBits p.option p.mcs := by
  obtain ⟨-, hg⟩ := C100.pay_facts p (mem_allSupported h)
  unfold Ref.groups
  generalize Ref.groupBits p.option p.mcs = g at *
  have := Nat.div_add_mod (len + 6 + (g - 1)) g
  have h2 := Nat.mod_lt (len + 6 + (g - 1)) hg
  rw [Nat.mul_comm] at this
  omega

/-- Data value that carries bit `k` of a symbol. -/
def carrier (p : OfdmParams) (k : Nat) : Nat :=
  perm1 (depth p.interleaving p.option p.mcs) (rows p.mcs) (perm2 (depth p.interleaving p.option p.mcs) (rows p.mcs) (step p.mcs) k) / bitsOf p.mcs

theorem carriers : ∀ p ∈ allSupported, Ref.threeQuarters p.mcs = true → Spec.spreadOf p.mcs = 1 ∧ depth p.interleaving p.option p.mcs = Ref.symbolBits p.option p.mcs ∧
    Ref.symbolBits p.option p.mcs % 4 = 0 ∧ 4 ≤ Ref.symbolBits p.option p.mcs ∧
    ∀ k < Ref.symbolBits p.option p.mcs, ∀ δ ∈ [1, 2, 3], k + δ < Ref.symbolBits p.option p.mcs → carrier p k ≠ carrier p (k + δ) := by decide +kernel

theorem jump : ∀ p ∈ allSupported, Ref.threeQuarters p.mcs = true → ∀ n < (Ref.pilotSets p.option).length, ∀ n' < (Ref.pilotSets p.option).length, ∀ i < 2, ∀ j < 2,
    ((Ref.nfft p.option / 2 : Nat) : Int) < Rx.dataTone p.option n (carrier p (Ref.symbolBits p.option p.mcs - 1 - i)) - Rx.dataTone p.option n' (carrier p j) := by decide +kernel

theorem tone_mod (option n d : Nat) : Rx.dataTone option n d = Rx.dataTone option (n % (Ref.pilotSets option).length) d := by
  unfold Rx.dataTone Ref.pilotTones
  rw [Nat.mod_mod]

/-- A bit that is not left was on a lost tone. -/
theorem lost_of_none {p : OfdmParams} (h : Supported p) (hq : Ref.threeQuarters p.mcs = true) (r : List ℂ) (lost : Nat → Finset Int) (k : Nat)
    (hn : ¬ (Rx.deinterleaveLeft (depth p.interleaving p.option p.mcs) (rows p.mcs) (step p.mcs) (Rx.codedBitLeft p.option lost r p.mcs (Ref.headerCount p)) k).isSome) :
    Rx.dataTone p.option (Ref.headerCount p + k / Ref.symbolBits p.option p.mcs) (carrier p (k % Ref.symbolBits p.option p.mcs)) ∈
      lost (Ref.headerCount p + k / Ref.symbolBits p.option p.mcs) := by
  obtain ⟨hs, hd, -⟩ := carriers p (mem_allSupported h) hq
  obtain ⟨hpos, hp⟩ := C100.perm_facts h (Or.inl rfl : p.mcs = p.mcs ∨ p.mcs = lowestMcs p.option)
  have hn : Rx.codedBitLeft p.option lost r p.mcs (Ref.headerCount p) (place p p.mcs k) = none := by simpa [Rx.deinterleaveLeft] using hn
  have q1 := (hp _ (Nat.mod_lt k hpos)).1
  unfold Rx.codedBitLeft at hn
  simp only [Option.map_eq_none_iff] at hn
  have := none_left hn 0 (by rw [hs]; decide)
  rw [Nat.zero_mul, Nat.add_zero] at this
  have e1 : place p p.mcs k / Ref.symbolBits p.option p.mcs = k / Ref.symbolBits p.option p.mcs := by
    unfold place
    rw [← hd]
    generalize perm1 _ _ _ = x at q1 ⊢
    rw [Nat.mul_comm, Nat.mul_add_div hpos, Nat.div_eq_of_lt q1, Nat.add_zero]
  have e2 : place p p.mcs k % Ref.symbolBits p.option p.mcs / bitsOf p.mcs = carrier p (k % Ref.symbolBits p.option p.mcs) := by
    unfold place carrier
    rw [← hd]
    generalize perm1 _ _ _ = x at q1 ⊢
    rw [Nat.mul_comm, Nat.mul_add_mod, Nat.mod_eq_of_lt q1]
  rwa [e1, e2] at this

theorem carrier_lt {p : OfdmParams} (h : Supported p) (hq : Ref.threeQuarters p.mcs = true) (k : Nat) (hk : k < Ref.symbolBits p.option p.mcs) : carrier p k < tonesOf p.option := by
  obtain ⟨hs, hd, -⟩ := carriers p (mem_allSupported h) hq
  obtain ⟨-, -, hw, -⟩ := depth_even p (mem_allSupported h) p.mcs (by simp)
  obtain ⟨hpos, hp⟩ := C100.perm_facts h (Or.inl rfl : p.mcs = p.mcs ∨ p.mcs = lowestMcs p.option)
  have q1 := (hp k (by rw [hd]; exact hk)).1
  unfold carrier
  rw [Nat.div_lt_iff_lt_mul hw]
  have : Ref.symbolBits p.option p.mcs = tonesOf p.option * bitsOf p.mcs := by unfold Ref.symbolBits; rw [hs, Nat.div_one]
  rw [← this, ← hd]
  exact q1

/-- Of two bits of the same symbol at distance 1, 2 or 3, and of the last two of a symbol and the first two of the next, one is left. -/
theorem one_of_two {p : OfdmParams} (h : Supported p) (hq : Ref.threeQuarters p.mcs = true) (r : List ℂ) (len : Nat) (lost : Nat → Finset Int) (hf : Few p len lost) (k δ : Nat)
    (hδ : δ ∈ [1, 2, 3]) (hk : k + δ < Ref.groups p len * Spec.spreadOf p.mcs * Ref.symbolBits p.option p.mcs) (h4 : k % 4 + δ ≤ 3 ∨ (2 ≤ k % 4 ∧ k % 4 + δ ≤ 5)) :
    let y := Rx.deinterleaveLeft (depth p.interleaving p.option p.mcs) (rows p.mcs) (step p.mcs) (Rx.codedBitLeft p.option lost r p.mcs (Ref.headerCount p))
    (y k).isSome ∨ (y (k + δ)).isSome := by
  intro y
  by_contra hcon
  rw [not_or] at hcon
  have t1 := lost_of_none h hq r lost k hcon.1
  have t2 := lost_of_none h hq r lost (k + δ) hcon.2
  obtain ⟨hs, hd, hb4, hb, hsep⟩ := carriers p (mem_allSupported h) hq
  have hc1 := carrier_lt h hq
  have hj := jump p (mem_allSupported h) hq
  have hsc : ∀ n, n * Ref.symbolBits p.option p.mcs ≤ k + δ → Ref.headerCount p + n < Ref.symbolCount p len := by
    intro n hn
    unfold Ref.symbolCount
    have : n < Ref.groups p len * Spec.spreadOf p.mcs := Nat.lt_of_mul_lt_mul_right (lt_of_le_of_lt hn hk)
    omega
  have hdk := Nat.div_add_mod k (Ref.symbolBits p.option p.mcs)
  have hmk := Nat.mod_lt k (show 0 < Ref.symbolBits p.option p.mcs by omega)
  have hmem : δ = 1 ∨ δ = 2 ∨ δ = 3 := by simpa using hδ
  generalize hB : Ref.symbolBits p.option p.mcs = b at *
  by_cases hsame : k % b + δ < b
  · have e1 : (k + δ) / b = k / b := by
      conv_lhs => rw [← hdk, Nat.add_assoc, Nat.mul_add_div (by omega), Nat.div_eq_of_lt hsame, Nat.add_zero]
    have e2 : (k + δ) % b = k % b + δ := by
      conv_lhs => rw [← hdk, Nat.add_assoc, Nat.mul_add_mod, Nat.mod_eq_of_lt hsame]
    rw [e1, e2] at t2
    have hone := hf.one hq _ (Nat.le_add_right _ (k / b)) (hsc _ (by rw [Nat.mul_comm]; omega))
    have heq := Finset.card_le_one.1 hone _ t1 _ t2
    exact hsep _ hmk δ hδ hsame (dataTone_inj h _ (hc1 _ hmk) (hc1 _ hsame) heq)
  · have hk4 : k % 4 = k % b % 4 := by
      conv_lhs => rw [← hdk]
      obtain ⟨c, hc⟩ := Nat.dvd_of_mod_eq_zero hb4
      rw [hc, Nat.mul_assoc, Nat.mul_add_mod]
    have hr : b - 2 ≤ k % b ∧ k % b + δ - b < 2 := by omega
    have hkq : k + δ = b * (k / b + 1) + (k % b + δ - b) := by rw [Nat.mul_add]; omega
    have e1 : (k + δ) / b = k / b + 1 := by
      have hlt : k % b + δ - b < b := by omega
      conv_lhs => rw [hkq, Nat.mul_add_div (by omega), Nat.div_eq_of_lt hlt, Nat.add_zero]
    have e2 : (k + δ) % b = k % b + δ - b := by
      have hlt : k % b + δ - b < b := by omega
      conv_lhs => rw [hkq, Nat.mul_add_mod, Nat.mod_eq_of_lt hlt]
    rw [e1, e2] at t2
    have hslow := hf.slow hq _ (Nat.le_add_right _ (k / b)) (by
      have := hsc (k / b + 1) (by rw [Nat.add_mul, Nat.one_mul, Nat.mul_comm]; omega)
      omega) _ t1 _ t2
    have hlen : 0 < (Ref.pilotSets p.option).length := by
      have key : ∀ p ∈ allSupported, 0 < (Ref.pilotSets p.option).length := by decide +kernel
      exact key p (mem_allSupported h)
    rw [tone_mod, tone_mod p.option (Ref.headerCount p + (k / b + 1))] at hslow
    have := hj _ (Nat.mod_lt (Ref.headerCount p + k / b) hlen) _ (Nat.mod_lt (Ref.headerCount p + (k / b + 1)) hlen) (b - 1 - k % b) (by omega) (k % b + δ - b) hr.2
    rw [show b - 1 - (b - 1 - k % b) = k % b by omega] at this
    push_cast at this
    omega

theorem enough_left {p : OfdmParams} (h : Supported p) (hq : Ref.threeQuarters p.mcs = true) (r : List ℂ) (len : Nat) (lost : Nat → Finset Int) (hf : Few p len lost) (g : Nat)
    (hg : 4 * g + 5 < Ref.groups p len * Spec.spreadOf p.mcs * Ref.symbolBits p.option p.mcs) :
    Enough (Rx.deinterleaveLeft (depth p.interleaving p.option p.mcs) (rows p.mcs) (step p.mcs) (Rx.codedBitLeft p.option lost r p.mcs (Ref.headerCount p))) g := by
  have key := one_of_two h hq r len lost hf
  refine ⟨key (4 * g) 1 (by decide) (by omega) (by omega), ?_, ?_⟩
  · have a := key (4 * g + 2) 1 (by decide) (by omega) (by omega)
    have b := key (4 * g + 2) 2 (by decide) (by omega) (by omega)
    have c := key (4 * g + 2) 3 (by decide) (by omega) (by omega)
    simp only [Nat.add_assoc, Nat.reduceAdd] at a b c
    tauto
  · have b := key (4 * g + 3) 1 (by decide) (by omega) (by omega)
    have c := key (4 * g + 3) 2 (by decide) (by omega) (by omega)
    simp only [Nat.add_assoc, Nat.reduceAdd] at b c
    tauto

/-! ### Payload and frame -/

theorem payload_bridged {p : OfdmParams} (h : Supported p) (m : Bits) (lost : Nat → Finset Int) (r : List ℂ) (hc : Tones p m lost r)
    (hf : Few p m.length lost) :
    Rx.payloadBridged p (Rx.codedBitLeft p.option lost r) (8 * (m.length / 8)) = m.take (8 * (m.length / 8)) := by
  obtain ⟨hw, -⟩ := C97.cfg_facts p (mem_allSupported h)
  obtain ⟨hD0, hg0⟩ := C100.pay_facts p (mem_allSupported h)
  obtain ⟨-, -, -, -, -, e6, -, -, -, e10, -, -, -, -, h34⟩ := ref_tables p (mem_allSupported h)
  have hlen := C100.groups_le h m.length
  have hpl : (Ref.payload p m).length = Ref.groups p m.length * Ref.groupBits p.option p.mcs := by simp [Ref.payload]
  have hsl := C97.stream_length h m
  have coded := payload_bits h m lost r hc
  have hcode : (if Ref.threeQuarters p.mcs then Ref.conv34 (Ref.payload p m) else Ref.conv (Ref.payload p m)).length % depth p.interleaving p.option p.mcs = 0 := by
    have key : ∀ p ∈ allSupported, ∀ g, g = Ref.groupBits p.option p.mcs →
        (if Ref.threeQuarters p.mcs then 4 * g / 3 else 2 * g) % depth p.interleaving p.option p.mcs = 0 := by
      intro p hp g hg
      subst hg
      revert p
      decide +kernel
    have k1 := key p (mem_allSupported h) _ rfl
    split
    · rename_i hq
      rw [if_pos hq] at k1
      obtain ⟨c, hc3⟩ := Nat.dvd_of_mod_eq_zero (h34 hq)
      unfold Ref.conv34
      rw [List.length_map, List.length_range, hpl, hc3, show 4 * (Ref.groups p m.length * (3 * c)) / 3 = Ref.groups p m.length * (4 * c) by
        rw [show 4 * (Ref.groups p m.length * (3 * c)) = Ref.groups p m.length * (4 * c) * 3 by ring, Nat.mul_div_cancel _ (by norm_num)]]
      rw [hc3, show 4 * (3 * c) / 3 = 4 * c by omega] at k1
      rw [Nat.mul_mod, k1]; simp
    · rename_i hq
      rw [if_neg hq] at k1
      rw [C98.conv_length, hpl, show 2 * (Ref.groups p m.length * Ref.groupBits p.option p.mcs) = Ref.groups p m.length * (2 * Ref.groupBits p.option p.mcs) by ring, Nat.mul_mod, k1]; simp
  have hcl : (if Ref.threeQuarters p.mcs then Ref.conv34 (Ref.payload p m) else Ref.conv (Ref.payload p m)).length = (Ref.payloadStream p m).length := by
    unfold Ref.payloadStream; rw [C98.interleave_length]
  have dei := deinterleave_left h (Or.inl rfl) _ hcode (Rx.codedBitLeft p.option lost r p.mcs (Ref.headerCount p)) (fun i hi v hv => by
    rw [coded i (by rw [← hcl]; exact hi) v hv]; rfl)
  have hcnt : ∀ n < Ref.groups p m.length * Spec.spreadOf p.mcs, Ref.headerCount p + n < Ref.symbolCount p m.length ∧ C91.schemeOf p (Ref.headerCount p + n) = p.mcs := by
    intro n hn
    have hnh : ¬ Ref.headerCount p + n < Ref.headerCount p := by omega
    exact ⟨by unfold Ref.symbolCount; omega, by unfold C91.schemeOf; rw [if_neg hnh]⟩
  obtain ⟨-, -, hw0, -⟩ := depth_even p (mem_allSupported h) p.mcs (by simp)
  have hb0 : 0 < Ref.symbolBits p.option p.mcs := Nat.mul_pos hD0 hw0
  rw [hcl, hsl] at hcode
  have hx : (if Ref.threeQuarters p.mcs then Rx.decode34Left (Rx.deinterleaveLeft (depth p.interleaving p.option p.mcs) (rows p.mcs) (step p.mcs)
        (Rx.codedBitLeft p.option lost r p.mcs (Ref.headerCount p))) (8 * (m.length / 8))
      else Rx.decodeHalfLeft (Rx.deinterleaveLeft (depth p.interleaving p.option p.mcs) (rows p.mcs) (step p.mcs) (Rx.codedBitLeft p.option lost r p.mcs (Ref.headerCount p))) (8 * (m.length / 8))) =
      (Ref.payload p m).take (8 * (m.length / 8)) := by
    split
    · rename_i hq
      simp only [if_pos hq] at dei hcl
      obtain ⟨c, hc3⟩ := Nat.dvd_of_mod_eq_zero (h34 hq)
      have hc4 : (Ref.conv34 (Ref.payload p m)).length = 4 * (Ref.payload p m).length / 3 := by unfold Ref.conv34; simp
      have h3 : (Ref.payload p m).length % 3 = 0 := by rw [hpl, hc3, show Ref.groups p m.length * (3 * c) = 3 * (Ref.groups p m.length * c) by ring]; omega
      refine decode34_left _ h3 _ _ (by rw [hpl]; have := groups_tail h m.length; omega) (fun q hq2 => dei q (by rw [hc4]; exact hq2)) fun g hg => ?_
      have ht := groups_tail h m.length
      refine enough_left h hq r m.length lost hf g ?_
      rw [← hpl] at ht
      rw [← hsl, ← hcl, hc4]
      omega
    · rename_i hq
      simp only [if_neg hq] at dei hcl
      have hlc := C98.conv_length (Ref.payload p m)
      refine decode_left _ _ _ (by rw [hpl]; omega) (fun q hq2 => dei q (by rw [hlc, hpl]; omega)) fun n hn => ?_
      exact pair_left h (Or.inl rfl) r (Ref.headerCount p) n (Ref.groups p m.length * Spec.spreadOf p.mcs) lost (by rw [← hsl, ← hcl, hlc, hpl]; omega) hcode
        (by simpa using hq) (fun n hn => (hcnt n hn).2) (fun n hn => hf.half (by simpa using hq) _ (by omega) (hcnt n hn).1)
  unfold Rx.payloadBridged
  simp only
  rw [hx]
  refine (range_map_ext (by simp; omega) _ fun i hi => ?_).symm
  rw [List.getElem?_take_of_lt hi, List.getD_eq_getElem?_getD, List.getElem?_take_of_lt hi]
  unfold Ref.payload
  simp only
  rw [List.getElem?_map, List.getElem?_range (by omega)]
  simp only [Option.map_some, Option.getD_some]
  rw [if_pos (by omega), ← Bool.xor_assoc, Bool.xor_self, Bool.false_xor, List.getD_eq_getElem?_getD, List.getElem?_eq_getElem (by omega)]
  rfl

theorem receive_bridged {p : OfdmParams} (h : Supported p) (m : Bits) (h2 : m.length / 8 ≤ 2047) (lost : Nat → Finset Int) (r : List ℂ) (hc : Tones p m lost r) (hf : Few p m.length lost) :
    Rx.receiveBridging p.option p.interleaving lost r = some (p.mcs, p.scrambler, m.take (8 * (m.length / 8))) := by
  obtain ⟨-, -, -, -, -, -, -, -, -, hm, hs⟩ := C98.hdr_facts p (mem_allSupported h)
  have hh := header_left h m lost r hc hf.header
  have hl := C98.info_length p.mcs (m.length / 8) p.scrambler
  unfold Rx.receiveBridging
  simp only
  have t22 : (Rx.headerLeft p.option p.interleaving (Rx.codedBitLeft p.option lost r)).take 22 = Ref.headerInfo p.mcs (m.length / 8) p.scrambler := by rw [hh, List.take_left' hl]
  have d22 : (Rx.headerLeft p.option p.interleaving (Rx.codedBitLeft p.option lost r)).drop 22 = Ref.crc8 (Ref.headerInfo p.mcs (m.length / 8) p.scrambler) := by rw [hh, List.drop_left' hl]
  have fl : ∀ w v, (Ref.field w v).length = w := by intro w v; simp [Ref.field]
  have t5 : (Rx.headerLeft p.option p.interleaving (Rx.codedBitLeft p.option lost r)).take 5 = Ref.field 5 p.mcs := by
    rw [hh]; unfold Ref.headerInfo
    simp only [List.append_assoc]
    rw [List.take_left' (fl _ _)]
  have t11 : ((Rx.headerLeft p.option p.interleaving (Rx.codedBitLeft p.option lost r)).drop 6).take 11 = Ref.field 11 (m.length / 8) := by
    rw [hh]; unfold Ref.headerInfo
    rw [show Ref.field 5 p.mcs ++ [false] ++ Ref.field 11 (m.length / 8) ++ [false, false] ++ Ref.field 2 p.scrambler ++ [false] ++
      Ref.crc8 (Ref.field 5 p.mcs ++ [false] ++ Ref.field 11 (m.length / 8) ++ [false, false] ++ Ref.field 2 p.scrambler ++ [false]) =
      (Ref.field 5 p.mcs ++ [false]) ++ (Ref.field 11 (m.length / 8) ++ ([false, false] ++ Ref.field 2 p.scrambler ++ [false] ++
      Ref.crc8 (Ref.field 5 p.mcs ++ [false] ++ Ref.field 11 (m.length / 8) ++ [false, false] ++ Ref.field 2 p.scrambler ++ [false]))) by simp only [List.append_assoc],
      List.drop_left' (by simp [fl]), List.take_left' (fl _ _)]
  have t2 : ((Rx.headerLeft p.option p.interleaving (Rx.codedBitLeft p.option lost r)).drop 19).take 2 = Ref.field 2 p.scrambler := by
    rw [hh]; unfold Ref.headerInfo
    rw [show Ref.field 5 p.mcs ++ [false] ++ Ref.field 11 (m.length / 8) ++ [false, false] ++ Ref.field 2 p.scrambler ++ [false] ++
      Ref.crc8 (Ref.field 5 p.mcs ++ [false] ++ Ref.field 11 (m.length / 8) ++ [false, false] ++ Ref.field 2 p.scrambler ++ [false]) =
      (Ref.field 5 p.mcs ++ [false] ++ Ref.field 11 (m.length / 8) ++ [false, false]) ++ (Ref.field 2 p.scrambler ++ ([false] ++
      Ref.crc8 (Ref.field 5 p.mcs ++ [false] ++ Ref.field 11 (m.length / 8) ++ [false, false] ++ Ref.field 2 p.scrambler ++ [false]))) by simp only [List.append_assoc],
      List.drop_left' (by simp [fl]), List.take_left' (fl _ _)]
  rw [t22, d22, if_pos rfl, t5, t11, t2, C100.number_field (by omega), C100.number_field (by omega), C100.number_field (by omega)]
  have := payload_bridged h m lost r hc hf
  rw [show (⟨p.mcs, p.option, p.interleaving, p.scrambler⟩ : OfdmParams) = p from rfl, this]

/-! ### The receiver -/

/-- **C145 (octets).**  Let `r` be a frame that `bytesToIQ` returned, disturbed in the useful part of symbol `n` by interference of any strength confined to the tones `lost n`
and by noise of less energy than 1 (BPSK), 1/2 (QPSK) or 1/10 (16-QAM).  If no more tones are lost than `Few` says, the receiver recovers MCS, scrambler and the octets of the message. -/
theorem C145_octets (o : OfdmObj) (h : Supported o.params) (a : Arg) (msg : List UInt8) (ha : C01.Denotes a msg) (h0 : msg ≠ []) (iq : List ℂ) (fs : ℚ)
    (hr : ((ofdmModBytesToIQ a).call o).1 = .ok (iq, fs)) (r : List ℂ) (hl : iq.length ≤ r.length) (lost : Nat → Finset Int)
    (hf : Few o.params (8 * msg.length) lost)
    (J : Nat → Int → ℂ) (hJ : ∀ n, ∀ t ∉ lost n, J n t = 0)
    (hn : ∀ n < Ref.symbolCount o.params (8 * msg.length), rest o.params.option iq r n (J n) < C100.margin (bitsOf (C91.schemeOf o.params n))) :
    ∃ b, Rx.receiveBridging o.params.option o.params.interleaving lost r = some (o.params.mcs, o.params.scrambler, b) ∧ Rx.octets b = msg := by
  obtain ⟨b, hb, hbl, l2, rfl⟩ := C100.bytes_frame o a msg iq fs h ha h0 hr
  refine ⟨b, ?_, C100.octets_ok a msg ha h0 b hb⟩
  rw [← hbl] at hf hn
  have := receive_bridged h b (by omega) lost r (tones_jam h b lost r hl J hJ hn) hf
  rw [List.take_of_length_le (show b.length ≤ 8 * (b.length / 8) by omega)] at this
  exact this

theorem header_spare : ∀ p ∈ allSupported, 1 ≤ if Ref.threeQuarters (Ref.headerMcs p.option) = false ∧ (p.interleaving = 0 ∨ Spec.spreadOf (Ref.headerMcs p.option) = 1)
    then 2 * Spec.spreadOf (Ref.headerMcs p.option) - 1 else Spec.spreadOf (Ref.headerMcs p.option) - 1 := by decide +kernel

theorem half_spare : ∀ p ∈ allSupported, Ref.threeQuarters p.mcs = false → 1 ≤ if Ref.threeQuarters p.mcs = false ∧ (p.interleaving = 0 ∨ Spec.spreadOf p.mcs = 1)
    then 2 * Spec.spreadOf p.mcs - 1 else Spec.spreadOf p.mcs - 1 := by decide +kernel

/-- One tone at a time that does not move down too fast is few in every configuration. -/
theorem few_one {p : OfdmParams} (h : Supported p) (len : Nat) (lost : Nat → Finset Int) (h1 : ∀ n, (lost n).card ≤ 1)
    (hm : ∀ n, ∀ t ∈ lost n, ∀ t' ∈ lost (n + 1), t - t' ≤ Ref.nfft p.option / 2) : Few p len lost := by
  refine ⟨fun n hn => (h1 n).trans ?_, fun hq n hn _ => (h1 n).trans ?_, fun _ n _ _ => h1 n, fun _ n _ _ => hm n⟩
  · have e : C91.schemeOf p n = Ref.headerMcs p.option := by unfold C91.schemeOf; rw [if_pos hn]
    unfold spare
    rw [e]
    exact header_spare p (mem_allSupported h)
  · have e : C91.schemeOf p n = p.mcs := by unfold C91.schemeOf; rw [if_neg (by omega)]
    unfold spare
    rw [e]
    exact half_spare p (mem_allSupported h) hq

/-- **C145 (one tone).**  One lost tone per symbol does no harm in any configuration, as long as it does not move down by more than half the bandwidth from one symbol to the next. -/
theorem C145_one (o : OfdmObj) (h : Supported o.params) (a : Arg) (msg : List UInt8) (ha : C01.Denotes a msg) (h0 : msg ≠ []) (iq : List ℂ) (fs : ℚ)
    (hr : ((ofdmModBytesToIQ a).call o).1 = .ok (iq, fs)) (r : List ℂ) (hl : iq.length ≤ r.length) (t : Nat → Int)
    (hm : ∀ n, t n - t (n + 1) ≤ Ref.nfft o.params.option / 2)
    (J : Nat → Int → ℂ) (hJ : ∀ n, ∀ u ≠ t n, J n u = 0)
    (hn : ∀ n < Ref.symbolCount o.params (8 * msg.length), rest o.params.option iq r n (J n) < C100.margin (bitsOf (C91.schemeOf o.params n))) :
    ∃ b, Rx.receiveBridging o.params.option o.params.interleaving (fun n => {t n}) r = some (o.params.mcs, o.params.scrambler, b) ∧ Rx.octets b = msg := by
  refine C145_octets o h a msg ha h0 iq fs hr r hl _ (few_one h _ _ (fun n => by simp) fun n u hu u' hu' => ?_) J (fun n u hu => hJ n u (by simpa using hu)) hn
  rw [Finset.mem_singleton] at hu hu'
  subst hu; subst hu'
  exact hm n

/-- **C145 (a continuous wave).**  A continuous wave of any amplitude on any one tone during the whole transmission does no harm in any configuration. -/
theorem C145_wave (o : OfdmObj) (h : Supported o.params) (a : Arg) (msg : List UInt8) (ha : C01.Denotes a msg) (h0 : msg ≠ []) (iq : List ℂ) (fs : ℚ)
    (hr : ((ofdmModBytesToIQ a).call o).1 = .ok (iq, fs)) (t : Int) (ht : t ∈ allTones (Ref.nfft o.params.option)) (A : Int → ℂ) :
    ∃ b, Rx.receiveBridging o.params.option o.params.interleaving (fun _ => {t}) (jammed (Ref.nfft o.params.option) {t} A iq) =
      some (o.params.mcs, o.params.scrambler, b) ∧ Rx.octets b = msg := by
  have hlen : (jammed (Ref.nfft o.params.option) {t} A iq).length = iq.length := by simp [jammed]
  obtain ⟨J, hJ, hn⟩ := waves_rest o h a msg ha h0 iq fs hr {t} (by simpa using ht) A
  refine C145_octets o h a msg ha h0 iq fs hr _ (le_of_eq hlen.symm) _ (few_one h _ _ (fun n => by simp) fun n u hu u' hu' => ?_) J hJ hn
  rw [Finset.mem_singleton] at hu hu'
  subst hu; subst hu'
  rw [sub_self]
  positivity

/-! Non-vacuity: 16-QAM with rate 3/4. -/
example : Supported ⟨6, 3, 1, 2⟩ ∧ Supported ⟨4, 2, 0, 0⟩ ∧ (-5 : Int) ∈ allTones (Ref.nfft 3) ∧ C01.Denotes (.bytes [0x12, 0xFF]) [0x12, 0xFF] :=
  ⟨⟨by decide, by decide, by decide⟩, ⟨by decide, by decide, by decide⟩, by decide +kernel, rfl⟩

end
end SunPhy.C145
