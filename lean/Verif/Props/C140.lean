import Verif.Props.C101
import Verif.Spec.FskErasures
/-
C140 — Coded MR-FSK frames survive lost symbols.
-/
namespace SunPhy.C140
open SunPhy Spec Complex C101
noncomputable section

/-! ### The register -/

/-- Register bit `n - d`, 0 before the start. -/
def past (w : Nat → Bool) (n d : Nat) : Bool := if d ≤ n then w (n - d) else false

/-- Coded bit `i` of register contents `w`. -/
def cbit (inv : Bool) (w : Nat → Bool) (i : Nat) : Bool :=
  if i % 2 = 0 then xor inv (xor (w (i / 2)) (xor (past w (i / 2) 2) (past w (i / 2) 3)))
  else xor inv (xor (w (i / 2)) (xor (past w (i / 2) 1) (xor (past w (i / 2) 2) (past w (i / 2) 3))))

theorem register_ok (inv : Bool) (w : Nat → Bool) (z : Nat → Option Bool) (N : Nat) (hz : ∀ i < 2 * N + 2, ∀ v, z i = some v → v = cbit inv w i)
    (hl : ∀ n < N, (z (2 * n)).isSome ∨ (z (2 * n + 1)).isSome ∨ ((z (2 * n + 2)).isSome ∧ (z (2 * n + 3)).isSome)) (n : Nat) (hn : n < N) : RxF.register inv z n = w n := by
  induction n using Nat.strong_induction_on with
  | _ n ih =>
    have b : ∀ d, 1 ≤ d → (if d ≤ n then RxF.register inv z (n - d) else false) = past w n d := by
      intro d hd
      unfold past
      split
      · exact ih _ (by omega) (by omega)
      · rfl
    rw [RxF.register]
    rw [b 1 (by omega), b 2 (by omega), b 3 (by omega)]
    have e0 : ∀ v, z (2 * n) = some v → v = xor inv (xor (w n) (xor (past w n 2) (past w n 3))) := by
      intro v hv
      rw [hz _ (by omega) v hv, cbit, if_pos (by omega), show 2 * n / 2 = n by omega]
    have e1 : ∀ v, z (2 * n + 1) = some v → v = xor inv (xor (w n) (xor (past w n 1) (xor (past w n 2) (past w n 3)))) := by
      intro v hv
      rw [hz _ (by omega) v hv, cbit, if_neg (by omega), show (2 * n + 1) / 2 = n by omega]
    cases h0 : z (2 * n) with
    | some u =>
      simp only
      rw [e0 u h0]
      generalize w n = a; generalize past w n 2 = c; generalize past w n 3 = d
      clear * -; decide +revert
    | none =>
      cases h1 : z (2 * n + 1) with
      | some v =>
        simp only
        rw [e1 v h1]
        generalize w n = a; generalize past w n 2 = c; generalize past w n 3 = d; generalize past w n 1 = e
        clear * -; decide +revert
      | none =>
        simp only
        have := hl n hn
        rw [h0, h1] at this
        simp only [Option.isSome_none, Bool.false_eq_true, false_or] at this
        obtain ⟨s1, s2⟩ := this
        obtain ⟨u, hu⟩ := Option.isSome_iff_exists.1 s1
        obtain ⟨v, hv⟩ := Option.isSome_iff_exists.1 s2
        rw [hu, hv, Option.getD_some, Option.getD_some, hz _ (by omega) u hu, hz _ (by omega) v hv]
        unfold cbit
        rw [if_pos (by omega), if_neg (by omega), show (2 * n + 2) / 2 = n + 1 by omega, show (2 * n + 3) / 2 = n + 1 by omega]
        have : past w (n + 1) 1 = w n := by unfold past; rw [if_pos (by omega), Nat.add_sub_cancel]
        rw [this]
        generalize w n = a; generalize past w (n + 1) 2 = c; generalize past w (n + 1) 3 = d; generalize w (n + 1) = e
        clear * -; decide +revert

/-- Register contents of the two codes. -/
def reg (s : Nat) (x q : Bits) (n : Nat) : Bool := if s = 0 then (x ++ [false, false, false] ++ q).getD n false else RefF.rsc x q n

theorem coded_cbit (s : Nat) (x q : Bits) (i : Nat) (hi : i < 2 * (x.length + 3 + q.length)) :
    (RefF.coded s x q).getD i false = cbit (s == 0) (reg s x q) i := by
  rw [coded_get s x q i hi]
  unfold cbit
  by_cases hs : s = 0
  · have e : ∀ n d, delayed (x ++ [false, false, false] ++ q) n d = past (reg s x q) n d := by
      intro n d
      unfold delayed past reg
      simp only [if_pos hs]
    have e0 : ∀ n, delayed (x ++ [false, false, false] ++ q) n 0 = reg s x q n := by
      intro n
      rw [e]; unfold past; rw [if_pos (Nat.zero_le _), Nat.sub_zero]
    rw [if_pos hs]
    unfold tapSum
    simp only [List.map_cons, List.map_nil, List.foldr_cons, List.foldr_nil, Bool.xor_false, e, e0]
    have e0 : past (reg s x q) (i / 2) 0 = reg s x q (i / 2) := by unfold past; rw [if_pos (Nat.zero_le _), Nat.sub_zero]
    rw [e0, hs]
    simp
  · have e : ∀ n d, RefF.back x q n d = past (reg s x q) n d := by
      intro n d
      unfold RefF.back past reg
      simp only [if_neg hs]
    have e0 : past (reg s x q) (i / 2) 0 = reg s x q (i / 2) := by unfold past; rw [if_pos (Nat.zero_le _), Nat.sub_zero]
    rw [if_neg hs]
    simp only [e, e0]
    rw [show (s == 0) = false by simp [hs]]
    simp only [Bool.false_xor]

theorem sent_ok (I : Bool) (x : Bits) (hx : I = true → x.length % 32 = 0) (k : Nat) (hk : k < x.length) :
    RxF.sentAt I k < x.length ∧ (if I then RefF.interleave x else x).getD (RxF.sentAt I k) false = x.getD k false := by
  unfold RxF.sentAt
  by_cases hI : I = true
  · have hx := hx hI
    simp only [if_pos hI]
    have hlt := (perm_inv (k % 32 / 2) (by omega)).2
    refine ⟨by omega, ?_⟩
    have := deinterleave_ok x hx (fun i => (RefF.interleave x).getD i false) k hk (fun i _ => rfl)
    exact this
  · simp only [if_neg hI]
    exact ⟨hk, trivial⟩

/-- Information bits are decoded when for every pair one bit, or else the whole next pair, is left. -/
theorem info_left (p : FskParams) (x q : Bits) (hm : p.interleaving = true → (2 * (x.length + 3 + q.length)) % 32 = 0) (y : Nat → Option Bool) (N : Nat) (hN : N ≤ x.length)
    (hy : ∀ i < 2 * N + 2, ∀ v, y (RxF.sentAt p.interleaving i) = some v → v = (if p.interleaving then RefF.interleave (RefF.coded p.fecScheme x q) else RefF.coded p.fecScheme x q).getD (RxF.sentAt p.interleaving i) false)
    (hl : ∀ n < N, (y (RxF.sentAt p.interleaving (2 * n))).isSome ∨ (y (RxF.sentAt p.interleaving (2 * n + 1))).isSome ∨
      ((y (RxF.sentAt p.interleaving (2 * n + 2))).isSome ∧ (y (RxF.sentAt p.interleaving (2 * n + 3))).isSome)) (n : Nat) (hn : n < N) :
    RxF.infoLeft (known p) y n = x.getD n false := by
  have hcl : (RefF.coded p.fecScheme x q).length = 2 * (x.length + 3 + q.length) := by simp [RefF.coded]
  have hz : ∀ i < 2 * N + 2, ∀ v, (fun i => y (RxF.sentAt p.interleaving i)) i = some v → v = cbit (p.fecScheme == 0) (reg p.fecScheme x q) i := by
    intro i hi v hv
    rw [hy i hi v hv, (sent_ok p.interleaving _ (fun hI => by rw [hcl]; exact hm hI) i (by rw [hcl]; omega)).2]
    exact coded_cbit _ _ _ _ (by omega)
  unfold RxF.infoLeft
  simp only
  change (if p.fecScheme = 0 then RxF.register true (fun i => y (RxF.sentAt p.interleaving i)) n else _) = _
  by_cases hs : p.fecScheme = 0
  · rw [if_pos hs]
    rw [show (p.fecScheme == 0) = true by simp [hs]] at hz
    rw [register_ok true _ _ N hz hl n hn]
    unfold reg
    rw [if_pos hs, List.append_assoc, List.getD_append _ _ _ _ (by omega)]
  · rw [if_neg hs]
    rw [show (p.fecScheme == 0) = false by simp [hs]] at hz
    have r := fun j (hj : j < N) => register_ok false _ _ N hz hl j hj
    have b : ∀ d, (if d ≤ n then RxF.register false (fun i => y (RxF.sentAt p.interleaving i)) (n - d) else false) = RefF.back x q n d := by
      intro d
      unfold RefF.back
      split
      · rw [r _ (by omega)]; unfold reg; rw [if_neg hs]
      · rfl
    have b0 := b 0
    rw [if_pos (Nat.zero_le _), Nat.sub_zero] at b0
    change xor (RxF.register false (fun i => y (RxF.sentAt p.interleaving i)) n) (xor (if 1 ≤ n then RxF.register false (fun i => y (RxF.sentAt p.interleaving i)) (n - 1) else false)
      (xor (if 2 ≤ n then RxF.register false (fun i => y (RxF.sentAt p.interleaving i)) (n - 2) else false) (if 3 ≤ n then RxF.register false (fun i => y (RxF.sentAt p.interleaving i)) (n - 3) else false))) = _
    rw [b0, b 1, b 2, b 3]
    exact rsc_second x q n (by omega)

/-! ### Frames -/

/-- For every information bit `n < N` one bit of coded pair `n`, or else the whole pair `n + 1`, is in symbols that are not lost. -/
def Recoverable (p : FskParams) (lost : Finset Nat) (N : Nat) : Prop :=
  ∀ n < N,
    let there := fun i => RxF.symbolOf p.modulation (RxF.start (known p) + RxF.sentAt p.interleaving i) ∉ lost
    there (2 * n) ∨ there (2 * n + 1) ∨ (there (2 * n + 2) ∧ there (2 * n + 3))

/-- The received signal is at least as long as the frame and differs from it by less than 3/4 in every symbol after the start of frame delimiter that is not lost. -/
def CloseBut (k : RxF.Known) (lost : Finset Nat) (iq r : List ℂ) : Prop :=
  iq.length ≤ r.length ∧ ∀ n ∉ lost, RxF.symbolOf k.modulation (RxF.start k) ≤ n → 20 * n + 20 ≤ iq.length → distSq ((r.drop (20 * n)).take 20) ((iq.drop (20 * n)).take 20) < 3 / 4

theorem receive_left (p : FskParams) (hf : p.fecEnabled = true) (m : Bits) (hm : ¬ C69.Refused p m) (y : Nat → Option Bool)
    (hy : ∀ i < (RefF.body p m).length, ∀ v, y i = some v → v = if p.scramble ∧ 32 ≤ i then xor (Ref.key 0x1FF (i - 32)) ((RefF.body p m).getD i false) else (RefF.body p m).getD i false)
    (hl : ∀ n < 16 + 8 * (m.length / 8), (y (RxF.sentAt p.interleaving (2 * n))).isSome ∨ (y (RxF.sentAt p.interleaving (2 * n + 1))).isSome ∨
      ((y (RxF.sentAt p.interleaving (2 * n + 2))).isSome ∧ (y (RxF.sentAt p.interleaving (2 * n + 3))).isSome)) :
    RxF.receiveLeft (known p) y = (p.fcsType == 1, p.scramble, m.take (8 * (m.length / 8))) := by
  have hlen : m.length / 8 < 2048 := by
    by_contra h
    exact hm (Or.inl (by omega))
  have hbody : RefF.body p m = if p.interleaving then RefF.interleave (RefF.coded p.fecScheme (RefF.header p (m.length / 8) ++ m) (RefF.pad (m.length / 8)))
      else RefF.coded p.fecScheme (RefF.header p (m.length / 8) ++ m) (RefF.pad (m.length / 8)) := by
    unfold RefF.body
    simp only
    rw [if_pos hf]
  have hx : (RefF.header p (m.length / 8) ++ m).length = 16 + m.length := by rw [List.length_append, header_length]
  generalize hX : RefF.header p (m.length / 8) ++ m = X at *
  generalize hQ : RefF.pad (m.length / 8) = Q at *
  have hcl : (RefF.coded p.fecScheme X Q).length = 2 * (16 + m.length + 3 + Q.length) := by
    unfold RefF.coded; rw [List.length_map, List.length_range, hx]
  have hbl : (RefF.body p m).length = 2 * (16 + m.length + 3 + Q.length) := by
    rw [hbody]
    by_cases hI : p.interleaving = true
    · rw [if_pos hI, ← hcl]; simp [RefF.interleave]
    · rw [if_neg hI, hcl]
  have h32 : p.interleaving = true → (2 * (X.length + 3 + Q.length)) % 32 = 0 := by
    intro hI
    have h8 : m.length % 8 = 0 := by
      by_contra h
      exact hm (Or.inr (Or.inl ⟨hf, hI, h⟩))
    rw [hx, ← hQ]
    unfold RefF.pad
    split <;> simp [Ref.field] <;> omega
  have hsent : ∀ i < 2 * (16 + m.length + 3 + Q.length), RxF.sentAt p.interleaving i < (RefF.body p m).length := by
    intro i hi
    have := (sent_ok p.interleaving (RefF.coded p.fecScheme X Q) (fun hI => by rw [hcl, ← hx]; exact h32 hI) i (by rw [hcl]; exact hi)).1
    rw [hbl, ← hcl]; exact this
  have hlow : ∀ i < 32, RxF.sentAt p.interleaving i < 32 := by
    intro i hi
    unfold RxF.sentAt
    split <;> omega
  have g : ∀ i < 16, X.getD i false = (RefF.header p (m.length / 8)).getD i false := by
    intro i hi
    rw [← hX, List.getD_append _ _ _ _ (by rw [header_length]; omega)]
  have hscr : RxF.infoLeft (known p) y 4 = p.scramble := by
    rw [info_left p X Q h32 y 5 (by omega) ?_ (fun n hn => hl n (by omega)) 4 (by omega)]
    · rw [g 4 (by omega)]; rfl
    · intro i hi v hv
      have := hlow i (by omega)
      rw [hy _ (hsent i (by omega)) v hv, if_neg (by omega), hbody]
  unfold RxF.receiveLeft
  simp only
  rw [hscr]
  have hinfo : ∀ n < 16 + 8 * (m.length / 8),
      RxF.infoLeft (known p) (fun i => if p.scramble ∧ 32 ≤ i then (y i).map (xor (Ref.key 0x1FF (i - 32))) else y i) n = X.getD n false := by
    refine info_left p X Q h32 _ _ (by omega) ?_ ?_
    · intro i hi v hv
      have hs := hsent i (by omega)
      rw [← hbody]
      by_cases hc : p.scramble = true ∧ 32 ≤ RxF.sentAt p.interleaving i
      · simp only [if_pos hc] at hv
        obtain ⟨u, hu, e⟩ := Option.map_eq_some_iff.1 hv
        rw [hy _ hs u hu, if_pos hc, ← Bool.xor_assoc, Bool.xor_self, Bool.false_xor] at e
        exact e.symm
      · simp only [if_neg hc] at hv
        rw [hy _ hs v hv, if_neg hc]
    · intro n hn
      have e : ∀ i, (if p.scramble = true ∧ 32 ≤ i then (y i).map (xor (Ref.key 0x1FF (i - 32))) else y i).isSome = (y i).isSome := by
        intro i
        split
        · rw [Option.isSome_map]
        · rfl
      simp only [e]
      exact hl n hn
  have hnum : ((List.range 11).map fun i => RxF.infoLeft (known p) (fun i => if p.scramble ∧ 32 ≤ i then (y i).map (xor (Ref.key 0x1FF (i - 32))) else y i) (5 + i)) =
      Ref.field 11 (m.length / 8) := by
    have g5 : (RefF.header p (m.length / 8)).drop 5 = Ref.field 11 (m.length / 8) := rfl
    rw [← g5]
    symm
    refine range_map_ext (by rw [List.length_drop, header_length]) _ fun n hn => ?_
    rw [hinfo _ (by omega), g _ (by omega), List.getElem?_drop, List.getD_eq_getElem?_getD, List.getElem?_eq_getElem (by rw [header_length]; omega)]
    rfl
  rw [hnum, C100.number_field (by omega), hinfo 3 (by omega), g 3 (by omega)]
  refine Prod.ext rfl (Prod.ext rfl ?_)
  simp only
  symm
  refine range_map_ext (by rw [List.length_take]; omega) _ fun n hn => ?_
  rw [hinfo _ (by omega), ← hX, List.getD_append_right _ _ _ _ (by rw [header_length]; omega), header_length, Nat.add_sub_cancel_left, List.getElem?_take_of_lt hn,
    List.getD_eq_getElem?_getD, List.getElem?_eq_getElem (by omega)]
  rfl

theorem symbol_width (m : FskMod) (j : Nat) : RxF.symbolOf m j = j / RefF.width m := by cases m <;> simp [RxF.symbolOf, RefF.width]

theorem receive_ok (p : FskParams) (hf : p.fecEnabled = true) (hr : 1 ≤ p.symbolRate) (h1 : 1 / 4 ≤ p.modIndex) (h2 : p.modIndex ≤ 5 / 2) (m : Bits) (hm : ¬ C69.Refused p m)
    (lost : Finset Nat) (hR : Recoverable p lost (16 + 8 * (m.length / 8))) (r : List ℂ) (hc : CloseBut (known p) lost (RefF.samples p (RefF.bits p m)) r) :
    RxF.receiveErasing (known p) lost r = (p.fcsType == 1, p.scramble, m.take (8 * (m.length / 8))) := by
  have hmod : (RefF.bits p m).length % RefF.width p.modulation = 0 := by
    by_contra h
    exact hm (Or.inr (Or.inr ((C69.bits_mod p m).1 h)))
  have hls : (RefF.samples p (RefF.bits p m)).length = 20 * ((RefF.bits p m).length / RefF.width p.modulation) := by simp [RefF.samples]
  have hH : RxF.headerLength (known p) = 32 := by
    unfold RxF.headerLength
    exact if_pos hf
  refine receive_left p hf m hm _ ?_ ?_
  · intro i hi v hv
    obtain ⟨a1, a2⟩ := bits_get p m i hi
    rw [hH] at a2
    unfold RxF.bitLeft at hv
    split at hv
    · cases hv
    · rename_i hnl
      have := Option.some.inj hv
      rw [← this, ← a2]
      refine bit_one p _ hmod r _ a1 fun hn => symbol_ok p hr h1 h2 _ r hc.1 _ hn (hc.2 _ ?_ ?_ ?_)
      · rw [← symbol_width]; exact hnl
      · rw [← symbol_width]
        change RxF.symbolOf p.modulation _ ≤ _
        cases p.modulation
        · exact Nat.le_add_right _ _
        · exact Nat.div_le_div_right (Nat.le_add_right _ _)
      · rw [hls]; omega
  · intro n hn
    have h := hR n hn
    have e : ∀ i, (RxF.bitLeft (known p) lost r (RxF.start (known p) + i)).isSome ↔ RxF.symbolOf p.modulation (RxF.start (known p) + i) ∉ lost := by
      intro i
      unfold RxF.bitLeft
      change (if RxF.symbolOf p.modulation (RxF.start (known p) + i) ∈ lost then none else some _).isSome = true ↔ _
      by_cases hq : RxF.symbolOf p.modulation (RxF.start (known p) + i) ∈ lost
      · rw [if_pos hq]; simp [hq]
      · rw [if_neg hq]; simp [hq]
    simp only [e]
    exact h

/-! ### Bursts -/

/-- Symbols per pair of bits. -/
def unit (m : FskMod) : Nat := match m with | .FSK2 => 2 | .FSK4 => 1

/-- Where pair `n` is sent. -/
def pairAt (n : Nat) : Nat := n / 16 * 16 + (15 - (4 * (n % 16 % 4) + n % 16 / 4))

theorem sent_pair (n c : Nat) (hc : c < 2) : RxF.sentAt true (2 * n + c) = 2 * pairAt n + c := by
  unfold RxF.sentAt pairAt
  rw [if_pos rfl, show (2 * n + c) % 32 / 2 = n % 16 by omega]
  omega

/-- Neighbouring pairs are sent 4, 11 or 31 pairs apart. -/
theorem pair_gap (n : Nat) : pairAt n = pairAt (n + 1) + 4 ∨ pairAt (n + 1) = pairAt n + 11 ∨ pairAt (n + 1) = pairAt n + 31 := by
  unfold pairAt
  have h := Nat.mod_lt n (show 0 < 16 by norm_num)
  have hn := Nat.div_add_mod n 16
  generalize n / 16 = a at *
  generalize n % 16 = b at *
  subst hn
  interval_cases b <;> omega

theorem start_even (k : RxF.Known) : RxF.start k % 2 = 0 := by
  unfold RxF.start
  split <;> omega

/-- If no two symbols of pairs that far apart are lost, all is recoverable. -/
theorem recover_of_gaps (p : FskParams) (lost : Finset Nat) (N : Nat) (pos : Nat → Nat) (hpos : ∀ n c, c < 2 → RxF.sentAt p.interleaving (2 * n + c) = 2 * pos n + c)
    (D : Nat → Prop) (hD : ∀ n, D (pos (n + 1) - pos n) ∧ pos n ≤ pos (n + 1) ∨ D (pos n - pos (n + 1)) ∧ pos (n + 1) ≤ pos n)
    (hlost : ∀ s ∈ lost, RxF.symbolOf p.modulation (RxF.start (known p)) ≤ s → ∀ d, D d → s + d * unit p.modulation ∉ lost) : Recoverable p lost N := by
  intro n _
  simp only
  rw [show 2 * n + 2 = 2 * (n + 1) + 0 by omega, show 2 * n + 3 = 2 * (n + 1) + 1 by omega, hpos (n + 1) 0 (by omega), hpos (n + 1) 1 (by omega), hpos n 1 (by omega)]
  have h0 := hpos n 0 (by omega)
  rw [Nat.add_zero] at h0
  rw [h0]
  simp only [Nat.add_zero]
  have hev := start_even (known p)
  generalize RxF.start (known p) = S at *
  have key : ∀ c < 2, RxF.symbolOf p.modulation (S + (2 * pos n + c)) ∈ lost → RxF.symbolOf p.modulation (S + (2 * pos (n + 1) + c)) ∉ lost := by
    intro c hc hin hin'
    have eq : ∀ a, RxF.symbolOf p.modulation (S + (2 * a + c)) = RxF.symbolOf p.modulation (S + c) + a * unit p.modulation := by
      intro a
      unfold RxF.symbolOf unit
      cases p.modulation <;> simp only <;> omega
    have hle : RxF.symbolOf p.modulation S ≤ RxF.symbolOf p.modulation (S + c) := by
      unfold RxF.symbolOf
      cases p.modulation <;> simp only <;> omega
    rw [eq] at hin hin'
    rcases hD n with ⟨h, hle'⟩ | ⟨h, hle'⟩
    · refine hlost _ hin (by omega) _ h ?_
      rw [show pos (n + 1) = pos n + (pos (n + 1) - pos n) by omega, Nat.add_mul, ← Nat.add_assoc] at hin'
      exact hin'
    · refine hlost _ hin' (by omega) _ h ?_
      rw [show pos n = pos (n + 1) + (pos n - pos (n + 1)) by omega, Nat.add_mul, ← Nat.add_assoc] at hin
      exact hin
  by_cases a0 : RxF.symbolOf p.modulation (S + 2 * pos n) ∈ lost
  · by_cases a1 : RxF.symbolOf p.modulation (S + (2 * pos n + 1)) ∈ lost
    · exact Or.inr (Or.inr ⟨key 0 (by omega) a0, key 1 (by omega) a1⟩)
    · exact Or.inr (Or.inl a1)
  · exact Or.inl a0

/-! ### Theorems -/

/-- **C140 (bits).**  A coded frame is received although symbols are lost (anything may be in their place), as long as for every information bit one bit of its coded pair or else the whole
next pair is left; the other symbols after the start of frame delimiter may carry noise of energy less than 3/4. -/
theorem C140_bits (o : FskObj) (hf : o.params.fecEnabled = true) (hr : 1 ≤ o.params.symbolRate) (h1 : 1 / 4 ≤ o.params.modIndex) (h2 : o.params.modIndex ≤ 5 / 2) (a : Arg) (m : Bits)
    (ha : checkBinaryArray a = .ok m) (iq : List ℂ) (fs : ℚ) (h : ((fskBitsToIQ id a).call o).1 = .ok (iq, fs)) (lost : Finset Nat)
    (hR : Recoverable o.params lost (16 + 8 * (m.length / 8))) (r : List ℂ) (hc : CloseBut (known o.params) lost iq r) :
    RxF.receiveErasing (known o.params) lost r = (o.params.fcsType == 1, o.params.scramble, m.take (8 * (m.length / 8))) := by
  obtain ⟨e1, e2⟩ := C69.C69_reference o hr a m ha
  by_cases hR' : C69.Refused o.params m
  · rw [e1 hR'] at h; cases h
  · rw [e2 hR'] at h
    have := congrArg Prod.fst (Except.ok.inj h)
    simp only at this
    subst this
    exact receive_ok o.params hf hr h1 h2 m hR' lost hR r hc

/-- **C140 (octets).**  The same for octet messages: the octets come back. -/
theorem C140_octets (o : FskObj) (hf : o.params.fecEnabled = true) (hr : 1 ≤ o.params.symbolRate) (h1 : 1 / 4 ≤ o.params.modIndex) (h2 : o.params.modIndex ≤ 5 / 2) (a : Arg)
    (msg : List UInt8) (hd : C01.Denotes a msg) (h0 : msg ≠ []) (iq : List ℂ) (fs : ℚ) (h : ((fskBytesToIQ id a).call o).1 = .ok (iq, fs)) (lost : Finset Nat)
    (hR : Recoverable o.params lost (16 + 8 * msg.length)) (r : List ℂ) (hc : CloseBut (known o.params) lost iq r) :
    (RxF.receiveErasing (known o.params) lost r).1 = (o.params.fcsType == 1) ∧ (RxF.receiveErasing (known o.params) lost r).2.1 = o.params.scramble ∧
      Rx.octets (RxF.receiveErasing (known o.params) lost r).2.2 = msg := by
  obtain ⟨m, e, hml, -⟩ := C01.C01_lsb_first a msg hd h0
  rw [(fskBytesToIQ_result id a o).1] at h
  unfold fskBytesResult at h
  rw [e] at h
  have hp := List.length_pos_of_ne_nil h0
  have hm0 : m ≠ [] := by intro e; rw [e, List.length_nil] at hml; omega
  have := C140_bits o hf hr h1 h2 (bitsArg m) m (C03.C03_identity m hm0) iq fs (by rw [(fskBitsToIQ_result id _ o).1]; exact h) lost
    (by rw [show m.length / 8 = msg.length by omega]; exact hR) r hc
  rw [this]
  refine ⟨rfl, rfl, ?_⟩
  simp only
  rw [List.take_of_length_le (by omega)]
  exact C100.octets_ok a msg hd h0 m e

/-- **C140 (without interleaving).**  Any symbols may be lost, no two of them exactly one pair apart: with 4FSK no two neighbours, with 2FSK no two at distance 2. -/
theorem C140_plain (o : FskObj) (hf : o.params.fecEnabled = true) (hI : o.params.interleaving = false) (hr : 1 ≤ o.params.symbolRate) (h1 : 1 / 4 ≤ o.params.modIndex)
    (h2 : o.params.modIndex ≤ 5 / 2) (a : Arg) (msg : List UInt8) (hd : C01.Denotes a msg) (h0 : msg ≠ []) (iq : List ℂ) (fs : ℚ)
    (h : ((fskBytesToIQ id a).call o).1 = .ok (iq, fs)) (lost : Finset Nat) (hlost : ∀ s ∈ lost, s + unit o.params.modulation ∉ lost) (r : List ℂ)
    (hc : CloseBut (known o.params) lost iq r) :
    (RxF.receiveErasing (known o.params) lost r).1 = (o.params.fcsType == 1) ∧ (RxF.receiveErasing (known o.params) lost r).2.1 = o.params.scramble ∧
      Rx.octets (RxF.receiveErasing (known o.params) lost r).2.2 = msg := by
  refine C140_octets o hf hr h1 h2 a msg hd h0 iq fs h lost ?_ r hc
  refine recover_of_gaps _ _ _ id (fun n c _ => ?_) (fun d => d = 1) (fun n => Or.inl ⟨by simp, by simp⟩) (fun s hs _ d hd => ?_)
  · unfold RxF.sentAt
    rw [hI]; rfl
  · rw [hd, Nat.one_mul]; exact hlost s hs

/-- **C140 (with interleaving).**  Any symbols may be lost, no two of them 4, 11 or 31 pairs apart. -/
theorem C140_interleaved (o : FskObj) (hf : o.params.fecEnabled = true) (hI : o.params.interleaving = true) (hr : 1 ≤ o.params.symbolRate) (h1 : 1 / 4 ≤ o.params.modIndex)
    (h2 : o.params.modIndex ≤ 5 / 2) (a : Arg) (msg : List UInt8) (hd : C01.Denotes a msg) (h0 : msg ≠ []) (iq : List ℂ) (fs : ℚ)
    (h : ((fskBytesToIQ id a).call o).1 = .ok (iq, fs)) (lost : Finset Nat)
    (hlost : ∀ s ∈ lost, s + 4 * unit o.params.modulation ∉ lost ∧ s + 11 * unit o.params.modulation ∉ lost ∧ s + 31 * unit o.params.modulation ∉ lost) (r : List ℂ)
    (hc : CloseBut (known o.params) lost iq r) :
    (RxF.receiveErasing (known o.params) lost r).1 = (o.params.fcsType == 1) ∧ (RxF.receiveErasing (known o.params) lost r).2.1 = o.params.scramble ∧
      Rx.octets (RxF.receiveErasing (known o.params) lost r).2.2 = msg := by
  refine C140_octets o hf hr h1 h2 a msg hd h0 iq fs h lost ?_ r hc
  refine recover_of_gaps _ _ _ pairAt (fun n c hc => ?_) (fun d => d = 4 ∨ d = 11 ∨ d = 31) (fun n => ?_) (fun s hs _ d hd => ?_)
  · rw [hI]; exact sent_pair n c hc
  · have := pair_gap n
    beta_reduce
    omega
  · obtain ⟨g1, g2, g3⟩ := hlost s hs
    rcases hd with rfl | rfl | rfl <;> assumption

/-- **C140 (bursts).**  With interleaving, bursts of four pairs (8 symbols of 2FSK, 4 of 4FSK) may be lost anywhere, as long as different bursts are more than 31 pairs apart. -/
theorem C140_burst (o : FskObj) (hf : o.params.fecEnabled = true) (hI : o.params.interleaving = true) (hr : 1 ≤ o.params.symbolRate) (h1 : 1 / 4 ≤ o.params.modIndex)
    (h2 : o.params.modIndex ≤ 5 / 2) (a : Arg) (msg : List UInt8) (hd : C01.Denotes a msg) (h0 : msg ≠ []) (iq : List ℂ) (fs : ℚ)
    (h : ((fskBytesToIQ id a).call o).1 = .ok (iq, fs)) (lost : Finset Nat)
    (hlost : ∀ s ∈ lost, ∀ s' ∈ lost, s ≤ s' → s' - s < 4 * unit o.params.modulation ∨ 31 * unit o.params.modulation < s' - s) (r : List ℂ)
    (hc : CloseBut (known o.params) lost iq r) :
    (RxF.receiveErasing (known o.params) lost r).1 = (o.params.fcsType == 1) ∧ (RxF.receiveErasing (known o.params) lost r).2.1 = o.params.scramble ∧
      Rx.octets (RxF.receiveErasing (known o.params) lost r).2.2 = msg := by
  refine C140_interleaved o hf hI hr h1 h2 a msg hd h0 iq fs h lost (fun s hs => ?_) r hc
  have hu : 1 ≤ unit o.params.modulation := by unfold unit; split <;> omega
  refine ⟨fun hq => ?_, fun hq => ?_, fun hq => ?_⟩ <;> have := hlost s hs _ hq (by omega) <;> omega

/-! Non-vacuity: frames of all kinds are accepted; a burst of 8 symbols and a second one far enough away meet the hypothesis of `C140_burst`; every other symbol that of `C140_plain` (4FSK). -/
example : ∀ s ∈ Finset.Ico 100 108 ∪ Finset.Ico 200 208, ∀ s' ∈ Finset.Ico 100 108 ∪ Finset.Ico 200 208, s ≤ s' → s' - s < 4 * unit .FSK2 ∨ 31 * unit .FSK2 < s' - s := by
  intro s hs s' hs' hle
  simp only [Finset.mem_union, Finset.mem_Ico] at hs hs'
  simp only [unit]
  omega

example : ∀ s ∈ (Finset.range 1000).filter (· % 2 = 1), s + unit .FSK4 ∉ (Finset.range 1000).filter (· % 2 = 1) := by
  intro s hs hs'
  simp only [Finset.mem_filter, unit] at hs hs'
  omega

end
end SunPhy.C140
