import Verif.Props.C99
import Verif.Props.C100
import Verif.Spec.FskReceiver
/-
C101 — MR-FSK signals can be received: an explicit receiver recovers header flags and message from the samples, also with noise.
-/
namespace SunPhy.C101
open SunPhy Spec Complex
noncomputable section

/-- What a receiver for this modulator knows. -/
def known (p : FskParams) : RxF.Known := ⟨p.modulation, (p.modIndex : ℝ), p.preambleLength, p.fecEnabled, p.fecScheme, p.interleaving⟩

/-! ### Decisions -/

theorem tone_ref (p : FskParams) (hr : 1 ≤ p.symbolRate) (d : Int) (i : Nat) :
    exp (2 * Real.pi * I * (((d : ℚ) * (p.modIndex * p.symbolRate / 2) * ((i : ℚ) / (20 * p.symbolRate)) : ℚ) : ℂ)) = RxF.tone p.modIndex d i := by
  have hR : (p.symbolRate : ℂ) ≠ 0 := by exact_mod_cast (show p.symbolRate ≠ 0 by omega)
  unfold RxF.tone
  congr 1
  push_cast
  field_simp

theorem tone_dist (h : ℝ) (h1 : 1 / 4 ≤ h) (h2 : h ≤ 5 / 2) (m : FskMod) (d d' : Int) (hd : d ∈ RxF.deviations m) (hd' : d' ∈ RxF.deviations m) (hne : d ≠ d') (n : Nat) :
    3 ≤ distSq ((List.range 20).map fun i => RxF.tone h d (20 * n + i)) ((List.range 20).map fun i => RxF.tone h d' (20 * n + i)) := by
  rw [C99.distSq_range, Nat.min_self]
  have hD : 2 ≤ |d - d'| ∧ |d - d'| ≤ 6 := by
    cases m <;> simp only [RxF.deviations, List.mem_cons, List.not_mem_nil, or_false] at hd hd'
    · rcases hd with rfl | rfl <;> rcases hd' with rfl | rfl <;> first | contradiction | decide
    · rcases hd with rfl | rfl | rfl | rfl <;> rcases hd' with rfl | rfl | rfl | rfl <;> first | contradiction | decide
  have := C99.symbol_window h h1 h2 ((d - d' : Int) : ℝ) (by rw [← Int.cast_abs]; exact_mod_cast hD.1) (by rw [← Int.cast_abs]; exact_mod_cast hD.2) n
  refine le_trans this (le_of_eq (S_congr fun i _ => ?_))
  unfold RxF.tone
  rw [C99.exp_dist]
  congr 3
  push_cast
  ring

theorem decision_ok (k : RxF.Known) (h1 : 1 / 4 ≤ k.modIndex) (h2 : k.modIndex ≤ 5 / 2) (r : List ℂ) (n : Nat) (hl : 20 * n + 20 ≤ r.length) (d : Int)
    (hd : d ∈ RxF.deviations k.modulation) (he : RxF.err k.modIndex r n d < 3 / 4) : RxF.decision k r n = d := by
  have hlen : ((r.drop (20 * n)).take 20).length = 20 := by simp; omega
  have far : ∀ d' ∈ RxF.deviations k.modulation, d' ≠ d → RxF.err k.modIndex r n d < RxF.err k.modIndex r n d' := by
    intro d' hd' hne
    have hD := tone_dist k.modIndex h1 h2 k.modulation d d' hd hd' (Ne.symm hne) n
    have := distSq_triangle ((r.drop (20 * n)).take 20) ((List.range 20).map fun i => RxF.tone k.modIndex d (20 * n + i))
      ((List.range 20).map fun i => RxF.tone k.modIndex d' (20 * n + i)) (by simp; omega) (by simp; omega)
    unfold RxF.err at *
    linarith
  unfold RxF.decision
  cases e : (RxF.deviations k.modulation).find? fun d => decide (∀ d' ∈ RxF.deviations k.modulation, RxF.err k.modIndex r n d ≤ RxF.err k.modIndex r n d') with
  | none =>
    rw [List.find?_eq_none] at e
    have := e d hd
    exfalso
    apply this
    rw [decide_eq_true_eq]
    intro d' hd'
    by_cases hq : d' = d
    · rw [hq]
    · exact (far d' hd' hq).le
  | some c =>
    have hc := List.find?_some e
    have hm := List.mem_of_find?_eq_some e
    rw [decide_eq_true_eq] at hc
    by_contra hne
    have a1 := far c hm hne
    have a2 := hc d hd
    linarith

theorem dev_mem (m : FskMod) (b : Bits) (n : Nat) : RefF.deviation m b n ∈ RxF.deviations m := by
  cases m
  · simp only [RefF.deviation, RxF.deviations]; cases RefF.at_ b n <;> simp
  · simp only [RefF.deviation, RxF.deviations]; cases RefF.at_ b (2 * n) <;> cases RefF.at_ b (2 * n + 1) <;> simp

/-- The received signal is at least as long as the frame and differs from it by less than 3/4 in every symbol. -/
def Close (iq r : List ℂ) : Prop := iq.length ≤ r.length ∧ ∀ n, 20 * n + 20 ≤ iq.length → distSq ((r.drop (20 * n)).take 20) ((iq.drop (20 * n)).take 20) < 3 / 4

theorem dev_two (b : Bits) (n : Nat) : decide (0 < RefF.deviation .FSK2 b n) = b.getD n false := by
  have : ∀ u : Bool, decide (0 < (if u then (1 : Int) else -1)) = u := by decide
  exact this _

theorem dev_sign (b : Bits) (n : Nat) : decide (0 < RefF.deviation .FSK4 b n) = b.getD (2 * n) false := by
  have : ∀ u v : Bool, decide (0 < (if u then (1 : Int) else -1) * (if v then 3 else 1)) = u := by decide
  exact this _ _

theorem dev_outer (b : Bits) (n : Nat) : decide (2 < |RefF.deviation .FSK4 b n|) = b.getD (2 * n + 1) false := by
  have : ∀ u v : Bool, decide (2 < |(if u then (1 : Int) else -1) * (if v then 3 else 1)|) = v := by decide
  exact this _ _

theorem symbol_ok (p : FskParams) (hr : 1 ≤ p.symbolRate) (h1 : 1 / 4 ≤ p.modIndex) (h2 : p.modIndex ≤ 5 / 2) (b : Bits) (r : List ℂ)
    (hl : (RefF.samples p b).length ≤ r.length) (n : Nat) (hn : n < b.length / RefF.width p.modulation)
    (hc : distSq ((r.drop (20 * n)).take 20) (((RefF.samples p b).drop (20 * n)).take 20) < 3 / 4) : RxF.decision (known p) r n = RefF.deviation p.modulation b n := by
  have hls : (RefF.samples p b).length = 20 * (b.length / RefF.width p.modulation) := by simp [RefF.samples]
  have hn20 : 20 * n + 20 ≤ (RefF.samples p b).length := by rw [hls]; omega
  refine decision_ok (known p) ?_ ?_ r n (le_trans hn20 hl) _ (dev_mem _ _ _) ?_
  · have : ((1 / 4 : ℚ) : ℝ) ≤ p.modIndex := by exact_mod_cast h1
    push_cast at this; exact this
  · have : (p.modIndex : ℝ) ≤ ((5 / 2 : ℚ) : ℝ) := by exact_mod_cast h2
    push_cast at this; exact this
  · refine lt_of_eq_of_lt ?_ hc
    unfold RxF.err
    congr 1
    change _ = C91.window _ _ _
    unfold RefF.samples
    rw [C91.window_range _ _ _ _ (by omega)]
    apply List.map_congr_left
    intro i hi
    have hi := List.mem_range.1 hi
    rw [show (20 * n + i) / 20 = n by omega, tone_ref p hr]
    rfl

theorem bit_one (p : FskParams) (b : Bits) (hb : b.length % RefF.width p.modulation = 0) (r : List ℂ) (j : Nat) (hj : j < b.length)
    (dec : j / RefF.width p.modulation < b.length / RefF.width p.modulation →
      RxF.decision (known p) r (j / RefF.width p.modulation) = RefF.deviation p.modulation b (j / RefF.width p.modulation)) : RxF.bit (known p) r j = b.getD j false := by
  unfold RxF.bit
  change (match p.modulation with | .FSK2 => _ | .FSK4 => _) = _
  cases hm : p.modulation with
  | FSK2 =>
    simp only
    rw [hm] at dec
    simp only [RefF.width, Nat.div_one] at dec
    rw [dec hj]
    exact dev_two b j
  | FSK4 =>
    simp only
    rw [hm] at dec hb
    simp only [RefF.width] at dec hb
    rw [dec (by omega)]
    split
    · refine (dev_sign b (j / 2)).trans ?_
      congr 1; omega
    · refine (dev_outer b (j / 2)).trans ?_
      congr 1; omega

theorem bit_ok (p : FskParams) (hr : 1 ≤ p.symbolRate) (h1 : 1 / 4 ≤ p.modIndex) (h2 : p.modIndex ≤ 5 / 2) (b : Bits) (hb : b.length % RefF.width p.modulation = 0) (r : List ℂ)
    (hc : Close (RefF.samples p b) r) (j : Nat) (hj : j < b.length) : RxF.bit (known p) r j = b.getD j false := by
  have hls : (RefF.samples p b).length = 20 * (b.length / RefF.width p.modulation) := by simp [RefF.samples]
  refine bit_one p b hb r j hj fun hn => symbol_ok p hr h1 h2 b r hc.1 _ hn (hc.2 _ ?_)
  rw [hls]; omega

/-! ### Decoding -/

theorem perm_inv : ∀ u < 16, 4 * ((15 - (15 - (4 * (u % 4) + u / 4))) % 4) + (15 - (15 - (4 * (u % 4) + u / 4))) / 4 = u ∧ 15 - (4 * (u % 4) + u / 4) < 16 := by decide

theorem deinterleave_ok (x : Bits) (hx : x.length % 32 = 0) (y : Nat → Bool) (k : Nat) (hk : k < x.length)
    (hy : ∀ i < k / 32 * 32 + 32, y i = (RefF.interleave x).getD i false) : RxF.deinterleave y k = x.getD k false := by
  unfold RxF.deinterleave
  simp only
  obtain ⟨e, hlt⟩ := perm_inv (k % 32 / 2) (by omega)
  generalize hv : 15 - (4 * (k % 32 / 2 % 4) + k % 32 / 2 / 4) = v at *
  have hb : k / 32 * 32 + 32 ≤ x.length := by omega
  rw [hy _ (by omega)]
  unfold RefF.interleave
  rw [List.getD_eq_getElem?_getD, List.getElem?_map, List.getElem?_range (by omega)]
  simp only [Option.map_some, Option.getD_some]
  rw [show (k / 32 * 32 + 2 * v + k % 2) / 32 = k / 32 by omega, show (k / 32 * 32 + 2 * v + k % 2) % 32 / 2 = v by omega,
    show (k / 32 * 32 + 2 * v + k % 2) % 2 = k % 2 by omega, e]
  unfold RefF.at_
  congr 1
  omega

theorem coded_get (s : Nat) (x q : Bits) (i : Nat) (hi : i < 2 * (x.length + 3 + q.length)) : (RefF.coded s x q).getD i false =
    (if s = 0 then
      if i % 2 = 0 then !(tapSum [0, 2, 3] (x ++ [false, false, false] ++ q) (i / 2)) else !(tapSum [0, 1, 2, 3] (x ++ [false, false, false] ++ q) (i / 2))
    else if i % 2 = 0 then xor (RefF.back x q (i / 2) 0) (xor (RefF.back x q (i / 2) 2) (RefF.back x q (i / 2) 3))
    else xor (RefF.back x q (i / 2) 0) (xor (RefF.back x q (i / 2) 1) (xor (RefF.back x q (i / 2) 2) (RefF.back x q (i / 2) 3)))) := by
  unfold RefF.coded
  rw [List.getD_eq_getElem?_getD, List.getElem?_map, List.getElem?_range hi]
  rfl

theorem rsc_second (x q : Bits) (n : Nat) (hn : n < x.length) :
    xor (RefF.back x q n 0) (xor (RefF.back x q n 1) (xor (RefF.back x q n 2) (RefF.back x q n 3))) = x.getD n false := by
  have e : RefF.back x q n 0 = xor (x.getD n false) (xor (RefF.back x q n 1) (xor (RefF.back x q n 2) (RefF.back x q n 3))) := by
    unfold RefF.back
    rw [if_pos (Nat.zero_le _), Nat.sub_zero, rsc_unfold, if_neg (by omega), if_pos hn]
    rfl
  rw [e, Bool.xor_assoc, Bool.xor_self, Bool.xor_false]

/-- The length of what the header announces is decoded from the first part of the body. -/
theorem info_ok (p : FskParams) (x q : Bits) (len : Nat) (hl : len ≤ x.length) (y : Nat → Bool)
    (hm : p.fecEnabled = true → p.interleaving = true → (2 * (x.length + 3 + q.length)) % 32 = 0)
    (hy : ∀ i < (if p.fecEnabled then if p.interleaving then 2 * len / 32 * 32 + (if 2 * len % 32 = 0 then 0 else 32) else 2 * len else len), y i =
      (if p.fecEnabled then if p.interleaving then RefF.interleave (RefF.coded p.fecScheme x q) else RefF.coded p.fecScheme x q else x).getD i false) :
    RxF.info (known p) y len = x.take len := by
  unfold RxF.info
  change (if p.fecEnabled = true then _ else _) = _
  by_cases hf : p.fecEnabled = true
  · rw [if_pos hf]
    simp only [if_pos hf] at hy
    have hcl : (RefF.coded p.fecScheme x q).length = 2 * (x.length + 3 + q.length) := by simp [RefF.coded]
    have hz : ∀ i < 2 * len, (if p.interleaving = true then RxF.deinterleave y else y) i = (RefF.coded p.fecScheme x q).getD i false := by
      intro i hi
      by_cases hI : p.interleaving = true
      · rw [if_pos hI]
        simp only [if_pos hI] at hy
        refine deinterleave_ok _ (by rw [hcl]; exact hm hf hI) y i (by omega) fun j hj => hy j ?_
        split <;> omega
      · rw [if_neg hI]
        simp only [if_neg hI] at hy
        exact hy i hi
    change (if p.fecScheme = 0 then Rx.decodeWith (fun q => !(if p.interleaving = true then RxF.deinterleave y else y) q) (2 * ·) (fun _ => [2, 3]) len
      else (List.range len).map fun n => (if p.interleaving = true then RxF.deinterleave y else y) (2 * n + 1)) = _
    by_cases hs : p.fecScheme = 0
    · rw [if_pos hs]
      have := C100.decode_ok (x ++ [false, false, false] ++ q) (fun q => !(if p.interleaving = true then RxF.deinterleave y else y) q) (2 * ·) (fun _ => [2, 3])
        (fun n d hd => by simp only [List.mem_cons, List.not_mem_nil, or_false] at hd; omega) len (by simp; omega) fun n hn => by
          show (!(if p.interleaving = true then RxF.deinterleave y else y) (2 * n)) = _
          rw [hz _ (by omega), coded_get _ _ _ _ (by omega), if_pos hs, if_pos (by omega), Bool.not_not, show 2 * n / 2 = n by omega]
      rw [this, List.append_assoc, List.take_append_of_le_length hl]
    · rw [if_neg hs]
      symm
      refine range_map_ext (by simp; omega) _ fun n hn => ?_
      rw [hz _ (by omega), coded_get _ _ _ _ (by omega), if_neg hs, if_neg (by omega), show (2 * n + 1) / 2 = n by omega, rsc_second _ _ _ (by omega),
        List.getElem?_take_of_lt hn, List.getD_eq_getElem?_getD, List.getElem?_eq_getElem (by omega)]
      rfl
  · rw [if_neg hf]
    simp only [if_neg hf] at hy
    symm
    refine range_map_ext (by simp; omega) _ fun n hn => ?_
    rw [hy n hn, List.getElem?_take_of_lt hn, List.getD_eq_getElem?_getD, List.getElem?_eq_getElem (by omega)]
    rfl

/-! ### Frames -/

theorem header_length (p : FskParams) (n : Nat) : (RefF.header p n).length = 16 := by simp [RefF.header, Ref.field]

theorem shr_length (p : FskParams) : (RefF.preamble p ++ RefF.sfd p).length = RxF.start (known p) := by
  unfold RefF.preamble RefF.sfd RxF.start
  change _ = (match p.modulation with | .FSK2 => 8 * p.preambleLength + 16 | .FSK4 => 16 * p.preambleLength + 32)
  cases p.modulation <;> simp [Ref.field]

theorem bits_get (p : FskParams) (m : Bits) (i : Nat) (hi : i < (RefF.body p m).length) :
    RxF.start (known p) + i < (RefF.bits p m).length ∧
    (RefF.bits p m).getD (RxF.start (known p) + i) false =
      if p.scramble ∧ RxF.headerLength (known p) ≤ i then xor (Ref.key 0x1FF (i - RxF.headerLength (known p))) ((RefF.body p m).getD i false) else (RefF.body p m).getD i false := by
  unfold RefF.bits
  simp only
  rw [← shr_length]
  refine ⟨by simp only [List.length_append, List.length_map, List.length_range]; omega, ?_⟩
  rw [List.getD_eq_getElem?_getD, List.getElem?_append_right (by omega), Nat.add_sub_cancel_left, List.getElem?_map, List.getElem?_range hi]
  rfl

theorem receiveFrom_ok (p : FskParams) (m : Bits) (hm : ¬ C69.Refused p m) (y : Nat → Bool)
    (hy : ∀ i < (RefF.body p m).length, y i =
      if p.scramble ∧ RxF.headerLength (known p) ≤ i then xor (Ref.key 0x1FF (i - RxF.headerLength (known p))) ((RefF.body p m).getD i false) else (RefF.body p m).getD i false) :
    RxF.receiveFrom (known p) y = (p.fcsType == 1, p.scramble, m.take (8 * (m.length / 8))) := by
  have hlen : m.length / 8 < 2048 := by
    by_contra h
    exact hm (Or.inl (by omega))
  have hbody : RefF.body p m = if p.fecEnabled then if p.interleaving then RefF.interleave (RefF.coded p.fecScheme (RefF.header p (m.length / 8) ++ m) (RefF.pad (m.length / 8)))
      else RefF.coded p.fecScheme (RefF.header p (m.length / 8) ++ m) (RefF.pad (m.length / 8)) else RefF.header p (m.length / 8) ++ m := rfl
  have hx : (RefF.header p (m.length / 8) ++ m).length = 16 + m.length := by rw [List.length_append, header_length]
  have hcl : (RefF.coded p.fecScheme (RefF.header p (m.length / 8) ++ m) (RefF.pad (m.length / 8))).length = 2 * (16 + m.length + 3 + (RefF.pad (m.length / 8)).length) := by
    unfold RefF.coded; rw [List.length_map, List.length_range, hx]
  have hbl : (RefF.body p m).length = if p.fecEnabled then 2 * (16 + m.length + 3 + (RefF.pad (m.length / 8)).length) else 16 + m.length := by
    rw [hbody]
    by_cases hf : p.fecEnabled = true
    · rw [if_pos hf, if_pos hf]
      by_cases hI : p.interleaving = true
      · rw [if_pos hI, ← hcl]; simp [RefF.interleave]
      · rw [if_neg hI, hcl]
    · rw [if_neg hf, if_neg hf, hx]
  have h32 : p.fecEnabled = true → p.interleaving = true → (2 * ((RefF.header p (m.length / 8) ++ m).length + 3 + (RefF.pad (m.length / 8)).length)) % 32 = 0 := by
    intro hf hI
    have h8 : m.length % 8 = 0 := by
      by_contra h
      exact hm (Or.inr (Or.inl ⟨hf, hI, h⟩))
    rw [hx]
    unfold RefF.pad
    split <;> simp [Ref.field] <;> omega
  have hdr : RxF.info (known p) y 16 = RefF.header p (m.length / 8) := by
    rw [info_ok p (RefF.header p (m.length / 8) ++ m) (RefF.pad (m.length / 8)) 16 (by omega) _ h32]
    · rw [List.take_left' (header_length _ _)]
    · intro i hi
      have hh : i < RxF.headerLength (known p) := by
        unfold RxF.headerLength
        change i < if p.fecEnabled = true then 32 else 16
        by_cases hf : p.fecEnabled = true
        · rw [if_pos hf] at hi ⊢
          split at hi
          · rw [if_pos (by norm_num)] at hi; omega
          · omega
        · rw [if_neg hf] at hi ⊢; exact hi
      have hib : i < (RefF.body p m).length := by
        rw [hbl]
        unfold RxF.headerLength at hh
        change i < if p.fecEnabled = true then 32 else 16 at hh
        by_cases hf : p.fecEnabled = true
        · rw [if_pos hf] at hh ⊢; omega
        · rw [if_neg hf] at hh ⊢; omega
      rw [hy i hib, if_neg (by omega), hbody]
  have g3 : (RefF.header p (m.length / 8)).getD 3 false = (p.fcsType == 1) := rfl
  have g4 : (RefF.header p (m.length / 8)).getD 4 false = p.scramble := rfl
  have g5 : (RefF.header p (m.length / 8)).drop 5 = Ref.field 11 (m.length / 8) := rfl
  unfold RxF.receiveFrom
  simp only
  rw [hdr, g3, g4, g5, C100.number_field (by omega)]
  congr 2
  rw [info_ok p (RefF.header p (m.length / 8) ++ m) (RefF.pad (m.length / 8)) (16 + 8 * (m.length / 8)) (by omega) _ h32]
  · rw [List.take_append, List.take_of_length_le (by rw [header_length]; omega), header_length, List.drop_left' (header_length _ _)]
    congr 1; omega
  · intro i hi
    have hib : i < (RefF.body p m).length := by
      rw [hbl]
      by_cases hf : p.fecEnabled = true
      · rw [if_pos hf] at hi ⊢
        by_cases hI : p.interleaving = true
        · rw [if_pos hI] at hi
          have := h32 hf hI
          rw [hx] at this
          split at hi <;> omega
        · rw [if_neg hI] at hi; omega
      · rw [if_neg hf] at hi ⊢; omega
    rw [hy i hib, ← hbody]
    by_cases hs : p.scramble = true ∧ RxF.headerLength (known p) ≤ i
    · rw [if_pos hs, if_pos hs, ← Bool.xor_assoc, Bool.xor_self, Bool.false_xor]
    · rw [if_neg hs, if_neg hs]

theorem receive_ok (p : FskParams) (hr : 1 ≤ p.symbolRate) (h1 : 1 / 4 ≤ p.modIndex) (h2 : p.modIndex ≤ 5 / 2) (m : Bits) (hm : ¬ C69.Refused p m) (r : List ℂ)
    (hc : Close (RefF.samples p (RefF.bits p m)) r) :
    RxF.receive (known p) r = (p.fcsType == 1, p.scramble, m.take (8 * (m.length / 8))) := by
  have hmod : (RefF.bits p m).length % RefF.width p.modulation = 0 := by
    by_contra h
    exact hm (Or.inr (Or.inr ((C69.bits_mod p m).1 h)))
  refine receiveFrom_ok p m hm _ fun i hi => ?_
  obtain ⟨a1, a2⟩ := bits_get p m i hi
  rw [bit_ok p hr h1 h2 _ hmod r hc _ a1, a2]

theorem close_self (iq : List ℂ) : Close iq iq := ⟨le_rfl, fun n _ => by rw [distSq_self]; norm_num⟩

/-- **C101 (bits).**  The receiver recovers FCS flag, whitening flag and the complete octets of the message from every frame that `bitsToIQ` returns, and from every
signal that differs from it by noise of energy less than 3/4 in each symbol. -/
theorem C101_bits (o : FskObj) (hr : 1 ≤ o.params.symbolRate) (h1 : 1 / 4 ≤ o.params.modIndex) (h2 : o.params.modIndex ≤ 5 / 2) (a : Arg) (m : Bits)
    (ha : checkBinaryArray a = .ok m) (iq : List ℂ) (fs : ℚ) (h : ((fskBitsToIQ id a).call o).1 = .ok (iq, fs)) (r : List ℂ) (hl : iq.length ≤ r.length)
    (hn : ∀ n, 20 * n + 20 ≤ iq.length → distSq ((r.drop (20 * n)).take 20) ((iq.drop (20 * n)).take 20) < 3 / 4) :
    RxF.receive (known o.params) r = (o.params.fcsType == 1, o.params.scramble, m.take (8 * (m.length / 8))) := by
  obtain ⟨e1, e2⟩ := C69.C69_reference o hr a m ha
  by_cases hR : C69.Refused o.params m
  · rw [e1 hR] at h; cases h
  · rw [e2 hR] at h
    have := congrArg Prod.fst (Except.ok.inj h)
    simp only at this
    subst this
    exact receive_ok o.params hr h1 h2 m hR r ⟨hl, hn⟩

/-- **C101 (octets).**  The same for octet messages: the octets come back. -/
theorem C101_octets (o : FskObj) (hr : 1 ≤ o.params.symbolRate) (h1 : 1 / 4 ≤ o.params.modIndex) (h2 : o.params.modIndex ≤ 5 / 2) (a : Arg) (msg : List UInt8)
    (hd : C01.Denotes a msg) (h0 : msg ≠ []) (iq : List ℂ) (fs : ℚ) (h : ((fskBytesToIQ id a).call o).1 = .ok (iq, fs)) (r : List ℂ) (hl : iq.length ≤ r.length)
    (hn : ∀ n, 20 * n + 20 ≤ iq.length → distSq ((r.drop (20 * n)).take 20) ((iq.drop (20 * n)).take 20) < 3 / 4) :
    (RxF.receive (known o.params) r).1 = (o.params.fcsType == 1) ∧ (RxF.receive (known o.params) r).2.1 = o.params.scramble ∧
      Rx.octets (RxF.receive (known o.params) r).2.2 = msg := by
  obtain ⟨m, e, hml, -⟩ := C01.C01_lsb_first a msg hd h0
  rw [(fskBytesToIQ_result id a o).1] at h
  unfold fskBytesResult at h
  rw [e] at h
  have hp := List.length_pos_of_ne_nil h0
  have hm0 : m ≠ [] := by intro e; rw [e, List.length_nil] at hml; omega
  have := C101_bits o hr h1 h2 (bitsArg m) m (C03.C03_identity m hm0) iq fs (by rw [(fskBitsToIQ_result id _ o).1]; exact h) r hl hn
  rw [this]
  refine ⟨rfl, rfl, ?_⟩
  simp only
  rw [List.take_of_length_le (by omega)]
  exact C100.octets_ok a msg hd h0 m e

/-- **C101 (without noise).** -/
theorem C101_clean (o : FskObj) (hr : 1 ≤ o.params.symbolRate) (h1 : 1 / 4 ≤ o.params.modIndex) (h2 : o.params.modIndex ≤ 5 / 2) (a : Arg) (msg : List UInt8)
    (hd : C01.Denotes a msg) (h0 : msg ≠ []) (iq : List ℂ) (fs : ℚ) (h : ((fskBytesToIQ id a).call o).1 = .ok (iq, fs)) :
    (RxF.receive (known o.params) iq).1 = (o.params.fcsType == 1) ∧ (RxF.receive (known o.params) iq).2.1 = o.params.scramble ∧
      Rx.octets (RxF.receive (known o.params) iq).2.2 = msg :=
  C101_octets o hr h1 h2 a msg hd h0 iq fs h iq le_rfl (close_self iq).2

/-! Non-vacuity: configurations of every kind accept messages. -/
example : ∀ (mod : FskMod) (fec : Bool) (b : UInt8),
    ∃ r, ((fskBytesToIQ id (.bytes [b])).call { params := ⟨50000, 1, 0, mod, fec, 1, 0, true, true, 4⟩ }).1 = .ok r := by
  intro mod fec b
  have := C69.C69_bytes { params := ⟨50000, 1, 0, mod, fec, 1, 0, true, true, 4⟩ } (show 1 ≤ 50000 by decide) (.bytes [b]) [b] rfl (by simp)
  simp only at this
  rw [if_neg (by simp)] at this
  exact ⟨_, this⟩

end
end SunPhy.C101
