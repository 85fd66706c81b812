import Verif.Spec.FskSync
import Verif.Props.C101
/-
C110: MR-FSK frame synchronisation.
-/
namespace SunPhy.C110
open SunPhy Spec

theorem hamming_comm (a b : Bits) : hamming a b = hamming b a := by
  unfold hamming; rw [List.zipWith_comm]; simp only [Bool.xor_comm]

theorem hamming_triangle : ∀ a b c : Bits, a.length = b.length → b.length = c.length → hamming a c ≤ hamming a b + hamming b c
  | [], [], [], _, _ => by simp [hamming]
  | x :: a, y :: b, z :: c, h1, h2 => by
    have ih := hamming_triangle a b c (by simpa using h1) (by simpa using h2)
    unfold hamming at *
    simp only [List.zipWith_cons_cons, List.count_cons]
    cases x <;> cases y <;> cases z <;> simp <;> omega

/-- The end of the preamble and the delimiter, seen `k` bits before the delimiter starts. -/
def view (m : FskMod) (s : Nat) (c : Bool) (k : Nat) : Bits :=
  (List.range (RxF.delimiterLength m)).map fun j => if j < k then C34.preambleBit m (j + 3 * k) else (RxF.delimiter m s c).getD (j - k) false

/-! All ambiguities, checked once. -/
set_option synthInstance.maxHeartbeats 200000 in
set_option synthInstance.maxSize 1000 in
theorem table2 : ∀ s < 2, ∀ s' < 2, ∀ c c' : Bool, ∀ k < 20, (k ≠ 0 ∨ s ≠ s' ∨ c ≠ c') →
    (if s = s' then 6 else 4) ≤ hamming (view .FSK2 s c k) (RxF.delimiter .FSK2 s' c') := by decide +kernel
set_option synthInstance.maxHeartbeats 200000 in
set_option synthInstance.maxSize 1000 in
theorem table4 : ∀ s < 2, ∀ s' < 2, ∀ c c' : Bool, ∀ k < 36, (k ≠ 0 ∨ s ≠ s' ∨ c ≠ c') →
    (if s = s' then 6 else 4) ≤ hamming (view .FSK4 s c k) (RxF.delimiter .FSK4 s' c') := by decide +kernel

theorem preambleBit_mod (m : FskMod) {i j : Nat} (h : i % 4 = j % 4) : C34.preambleBit m i = C34.preambleBit m j := by
  cases m
  · show decide (i % 2 = 1) = decide (j % 2 = 1)
    rw [show i % 2 = j % 2 by omega]
  · show decide (i % 4 ≠ 0) = decide (j % 4 ≠ 0)
    rw [h]

theorem view_far (m : FskMod) (s : Nat) (c : Bool) (k : Nat) (hk : RxF.delimiterLength m ≤ k) :
    view m s c k = view m s c (RxF.delimiterLength m + (k - RxF.delimiterLength m) % 4) := by
  unfold view
  apply List.map_congr_left
  intro j hj
  have hj := List.mem_range.1 hj
  rw [if_pos (by omega), if_pos (by omega)]
  exact preambleBit_mod m (by omega)

theorem view_dist (m : FskMod) (s s' : Nat) (hs : s ≤ 1) (hs' : s' ≤ 1) (c c' : Bool) (k : Nat) (h : k ≠ 0 ∨ s ≠ s' ∨ c ≠ c') :
    (if s = s' then 6 else 4) ≤ hamming (view m s c k) (RxF.delimiter m s' c') := by
  cases m with
  | FSK2 =>
    by_cases hk : k < 20
    · exact table2 s (by omega) s' (by omega) c c' k hk h
    · rw [view_far _ _ _ _ (show 16 ≤ k by omega)]
      exact table2 s (by omega) s' (by omega) c c' _ (show 16 + (k - 16) % 4 < 20 by omega) (Or.inl (show 16 + (k - 16) % 4 ≠ 0 by omega))
  | FSK4 =>
    by_cases hk : k < 36
    · exact table4 s (by omega) s' (by omega) c c' k hk h
    · rw [view_far _ _ _ _ (show 32 ≤ k by omega)]
      exact table4 s (by omega) s' (by omega) c c' _ (show 32 + (k - 32) % 4 < 36 by omega) (Or.inl (show 32 + (k - 32) % 4 ≠ 0 by omega))

theorem delimiter_eq (m : FskMod) (s : Nat) (c : Bool) : RxF.delimiter m s c = natBits (C34.sfdLength m) (C34.sfdValue m s c) := by
  have key : ∀ (m : FskMod) (c : Bool), RxF.delimiter m 0 c = natBits (C34.sfdLength m) (C34.sfdValue m 0 c) ∧
      RxF.delimiter m 1 c = natBits (C34.sfdLength m) (C34.sfdValue m 1 c) := by
    intro m; cases m <;> decide +kernel
  rcases s with _ | s
  · exact (key m c).1
  · have e1 : RxF.delimiter m (s + 1) c = RxF.delimiter m 1 c := by cases m <;> cases c <;> rfl
    have e2 : C34.sfdValue m (s + 1) c = C34.sfdValue m 1 c := by cases m <;> cases c <;> rfl
    rw [e1, e2]; exact (key m c).2

theorem delimiter_length (m : FskMod) (s : Nat) (c : Bool) : (RxF.delimiter m s c).length = RxF.delimiterLength m := by simp [RxF.delimiter]

/-- Position of the delimiter. -/
def place (p : FskParams) : Nat := p.preambleLength * RxF.preambleUnit p.modulation

theorem unit_eq (m : FskMod) : C34.preambleUnit m = RxF.preambleUnit m := by cases m <;> rfl
theorem length_eq (m : FskMod) : C34.sfdLength m = RxF.delimiterLength m := by cases m <;> rfl

theorem window_view (p : FskParams) (b : Bits)
    (h1 : ∀ i, i < p.preambleLength * C34.preambleUnit p.modulation → b[i]? = some (C34.preambleBit p.modulation i))
    (h2 : (b.drop (p.preambleLength * C34.preambleUnit p.modulation)).take (C34.sfdLength p.modulation) =
      natBits (C34.sfdLength p.modulation) (C34.sfdValue p.modulation p.sfd p.fecEnabled)) (k : Nat) (hk : k ≤ place p) :
    RxF.windowAt (fun i => b.getD i false) (place p - k) (RxF.delimiterLength p.modulation) = view p.modulation p.sfd p.fecEnabled k := by
  rw [← delimiter_eq] at h2
  rw [unit_eq] at h1 h2
  rw [length_eq] at h2
  change (b.drop (place p)).take _ = _ at h2
  change ∀ i, i < place p → _ at h1
  unfold RxF.windowAt view
  apply List.map_congr_left
  intro j hj
  have hj := List.mem_range.1 hj
  show b.getD (place p - k + j) false = _
  by_cases hjk : j < k
  · rw [if_pos hjk, List.getD_eq_getElem?_getD, h1 _ (by omega), Option.getD_some]
    apply preambleBit_mod
    have : place p % 4 = 0 := by unfold place; cases p.modulation <;> simp only [RxF.preambleUnit] <;> omega
    omega
  · rw [if_neg hjk, ← h2, List.getD_eq_getElem?_getD, List.getD_eq_getElem?_getD, List.getElem?_take_of_lt (by omega), List.getElem?_drop]
    congr 2; omega

/-- **C110 (distance).**  In every frame, at every position before the delimiter, the next 16 (32) bits differ from every delimiter in at least 4 positions and
from the two delimiters of the frame's own SFD group in at least 6; the delimiter itself differs that much from the others. -/
theorem C110_distance (o : FskObj) (a : Arg) (bits : Bits) (h : ((fskBinary a).call o).1 = .ok bits) (hs : o.params.sfd ≤ 1) (s' : Nat) (hs' : s' ≤ 1) (c' : Bool)
    (i : Nat) (hi : i ≤ place o.params) (hne : i ≠ place o.params ∨ o.params.sfd ≠ s' ∨ o.params.fecEnabled ≠ c') :
    (if o.params.sfd = s' then 6 else 4) ≤
      hamming (RxF.windowAt (fun j => bits.getD j false) i (RxF.delimiterLength o.params.modulation)) (RxF.delimiter o.params.modulation s' c') := by
  obtain ⟨h1, h2⟩ := C34.C34_shr o a bits h
  have e := window_view o.params bits h1 h2 (place o.params - i) (by omega)
  rw [show place o.params - (place o.params - i) = i by omega] at e
  rw [e]
  exact view_dist _ _ _ hs hs' _ _ _ (hne.imp (by omega) id)

/-- At its own place the delimiter is there exactly. -/
theorem C110_present (o : FskObj) (a : Arg) (bits : Bits) (h : ((fskBinary a).call o).1 = .ok bits) :
    RxF.windowAt (fun j => bits.getD j false) (place o.params) (RxF.delimiterLength o.params.modulation) =
      RxF.delimiter o.params.modulation o.params.sfd o.params.fecEnabled := by
  obtain ⟨h1, h2⟩ := C34.C34_shr o a bits h
  have e := window_view o.params bits h1 h2 0 (by omega)
  rw [Nat.sub_zero] at e
  rw [e]
  unfold view
  refine (range_map_ext (delimiter_length _ _ _) _ fun j _ => ?_).symm
  rw [if_neg (by omega), Nat.sub_zero]
  rw [List.getD_eq_getElem?_getD]
  rcases hc : (RxF.delimiter o.params.modulation o.params.sfd o.params.fecEnabled)[j]? with _ | x
  · rw [List.getElem?_eq_none_iff, delimiter_length] at hc; omega
  · rfl

/-- **C110 (bit errors).**  The search finds the end of the preamble and recognises whether the frame is coded, as long as at most two bits of the delimiter and at
most three bits of any equally long stretch that begins in the preamble are wrong. -/
theorem C110_sync (o : FskObj) (a : Arg) (bits : Bits) (h : ((fskBinary a).call o).1 = .ok bits) (hs : o.params.sfd ≤ 1) (y : Nat → Bool) (limit : Nat)
    (hl : place o.params < limit)
    (h2 : hamming (RxF.windowAt y (place o.params) (RxF.delimiterLength o.params.modulation))
      (RxF.windowAt (fun j => bits.getD j false) (place o.params) (RxF.delimiterLength o.params.modulation)) ≤ 2)
    (h3 : ∀ i < place o.params, hamming (RxF.windowAt y i (RxF.delimiterLength o.params.modulation))
      (RxF.windowAt (fun j => bits.getD j false) i (RxF.delimiterLength o.params.modulation)) ≤ 3) :
    RxF.sync o.params.modulation o.params.sfd y limit = some (place o.params, o.params.fecEnabled) := by
  have wl : ∀ (z : Nat → Bool) i n, (RxF.windowAt z i n).length = n := by intro z i n; simp [RxF.windowAt]
  have far : ∀ i ≤ place o.params, ∀ c, (i ≠ place o.params ∨ o.params.fecEnabled ≠ c) →
      ¬ hamming (RxF.windowAt y i (RxF.delimiterLength o.params.modulation)) (RxF.delimiter o.params.modulation o.params.sfd c) ≤ 2 := by
    intro i hi c hc
    have d := C110_distance o a bits h hs o.params.sfd hs c i hi (hc.imp id Or.inr)
    rw [if_pos rfl] at d
    have t := hamming_triangle (RxF.windowAt (fun j => bits.getD j false) i (RxF.delimiterLength o.params.modulation))
      (RxF.windowAt y i (RxF.delimiterLength o.params.modulation)) (RxF.delimiter o.params.modulation o.params.sfd c) (by rw [wl, wl]) (by rw [wl, delimiter_length])
    rw [hamming_comm (RxF.windowAt (fun j => bits.getD j false) i _) (RxF.windowAt y i _)] at t
    rcases Nat.lt_or_ge i (place o.params) with hlt | hge
    · have := h3 i hlt; omega
    · obtain rfl : i = place o.params := by omega
      omega
  have near : hamming (RxF.windowAt y (place o.params) (RxF.delimiterLength o.params.modulation)) (RxF.delimiter o.params.modulation o.params.sfd o.params.fecEnabled) ≤ 2 := by
    rw [C110_present o a bits h] at h2; exact h2
  unfold RxF.sync
  rw [show limit = place o.params + (1 + (limit - place o.params - 1)) by omega, List.range_add, List.findSome?_append]
  have e1 : (List.range (place o.params)).findSome? (fun o' =>
      ([true, false].find? fun c => decide (hamming (RxF.windowAt y o' (RxF.delimiterLength o.params.modulation)) (RxF.delimiter o.params.modulation o.params.sfd c) ≤ 2)).map
        fun c => (o', c)) = none := by
    rw [List.findSome?_eq_none_iff]
    intro i hi
    have hi := List.mem_range.1 hi
    rw [Option.map_eq_none_iff, List.find?_eq_none]
    intro c _
    simpa using far i (by omega) c (Or.inl (by omega))
  rw [e1, Option.none_or, List.range_add, List.map_append, List.findSome?_append]
  simp only [List.range_one, List.map_cons, List.map_nil, Nat.add_zero, List.findSome?_cons, List.findSome?_nil]
  have e2 : ([true, false].find? fun c => decide (hamming (RxF.windowAt y (place o.params) (RxF.delimiterLength o.params.modulation)) (RxF.delimiter o.params.modulation o.params.sfd c) ≤ 2)) =
      some o.params.fecEnabled := by
    cases hf : o.params.fecEnabled with
    | true => rw [hf] at near; rw [List.find?_cons_of_pos]; simpa using near
    | false =>
      have hn := far (place o.params) le_rfl true (Or.inr (by rw [hf]; decide))
      rw [hf] at near
      rw [List.find?_cons_of_neg (by simpa using hn), List.find?_cons_of_pos]
      simpa using near
  rw [e2]
  rfl

theorem hamming_self (a : Bits) : hamming a a = 0 := by
  unfold hamming; induction a with
  | nil => rfl
  | cons x a ih => rw [List.zipWith_cons_cons, List.count_cons, ih]; simp

noncomputable section

/-- What the receiver is configured with. -/
def profile (p : FskParams) : RxF.Profile := ⟨p.modulation, (p.modIndex : ℝ), p.sfd, p.fecScheme, p.interleaving⟩

/-- **C110 (reception).**  From the samples of any frame (and any signal within noise energy 3/4 per symbol), a receiver that knows neither the preamble length nor
whether the frame is coded finds both and recovers FCS flag, whitening flag and message. -/
theorem C110_received (o : FskObj) (hr : 1 ≤ o.params.symbolRate) (h1 : 1 / 4 ≤ o.params.modIndex) (h2 : o.params.modIndex ≤ 5 / 2) (hs : o.params.sfd ≤ 1) (a : Arg) (m : Bits)
    (ha : checkBinaryArray a = .ok m) (iq : List ℂ) (fs : ℚ) (h : ((fskBitsToIQ id a).call o).1 = .ok (iq, fs)) (r : List ℂ) (hl : iq.length ≤ r.length)
    (hn : ∀ n, 20 * n + 20 ≤ iq.length → distSq ((r.drop (20 * n)).take 20) ((iq.drop (20 * n)).take 20) < 3 / 4) :
    RxF.receiveBlind (profile o.params) r = some (o.params.fecEnabled, o.params.fcsType == 1, o.params.scramble, m.take (8 * (m.length / 8))) := by
  have hrec := C101.C101_bits o hr h1 h2 a m ha iq fs h r hl hn
  obtain ⟨e1, e2⟩ := C69.C69_reference o hr a m ha
  have hR : ¬ C69.Refused o.params m := by intro hR; rw [e1 hR] at h; cases h
  have hbits : ((fskBinary a).call o).1 = .ok (RefF.bits o.params m) := by
    rw [C69.C69_bits o a m ha, if_neg]
    intro hc; exact hR (by unfold C69.Refused; tauto)
  rw [e2 hR] at h
  obtain rfl : RefF.samples o.params (RefF.bits o.params m) = iq := congrArg Prod.fst (Except.ok.inj h)
  have hmod : (RefF.bits o.params m).length % RefF.width o.params.modulation = 0 := by
    by_contra hc
    exact hR (Or.inr (Or.inr ((C69.bits_mod o.params m).1 hc)))
  have hbit : ∀ j < (RefF.bits o.params m).length,
      RxF.bit ⟨o.params.modulation, (o.params.modIndex : ℝ), 0, false, o.params.fecScheme, o.params.interleaving⟩ r j = (RefF.bits o.params m).getD j false :=
    fun j hj => C101.bit_ok o.params hr h1 h2 _ hmod r ⟨hl, hn⟩ j hj
  have hsz : place o.params + RxF.delimiterLength o.params.modulation ≤ (RefF.bits o.params m).length := by
    have hb : (RefF.bits o.params m).length = (RefF.preamble o.params ++ RefF.sfd o.params).length + (RefF.body o.params m).length := by
      unfold RefF.bits; simp; omega
    rw [← fsk_shr_ref, C35.shr_length] at hb
    rw [hb]
    unfold C35.shrSize place
    rw [unit_eq, length_eq]
    omega
  have hw : ∀ i ≤ place o.params, RxF.windowAt (RxF.bit ⟨o.params.modulation, (o.params.modIndex : ℝ), 0, false, o.params.fecScheme, o.params.interleaving⟩ r) i
      (RxF.delimiterLength o.params.modulation) = RxF.windowAt (fun j => (RefF.bits o.params m).getD j false) i (RxF.delimiterLength o.params.modulation) := by
    intro i hi
    unfold RxF.windowAt
    apply List.map_congr_left
    intro j hj
    have hj := List.mem_range.1 hj
    exact hbit _ (by omega)
  have hlim : place o.params < 2 * r.length := by
    have : (RefF.samples o.params (RefF.bits o.params m)).length = 20 * ((RefF.bits o.params m).length / RefF.width o.params.modulation) := by simp [RefF.samples]
    have hd : 16 ≤ RxF.delimiterLength o.params.modulation := by cases o.params.modulation <;> decide
    have hw2 : RefF.width o.params.modulation = 1 ∨ RefF.width o.params.modulation = 2 := by cases o.params.modulation <;> decide
    rcases hw2 with e | e <;> rw [e] at this <;> omega
  have hsync := C110_sync o a _ hbits hs (RxF.bit ⟨o.params.modulation, (o.params.modIndex : ℝ), 0, false, o.params.fecScheme, o.params.interleaving⟩ r) (2 * r.length) hlim
    (by rw [hw _ le_rfl, hamming_self]; omega) (fun i hi => by rw [hw i (by omega), hamming_self]; omega)
  unfold RxF.receiveBlind profile
  simp only
  rw [hsync, Option.map_some]
  have hq : place o.params / RxF.preambleUnit o.params.modulation = o.params.preambleLength := by
    unfold place
    exact Nat.mul_div_cancel _ (by cases o.params.modulation <;> decide)
  simp only
  rw [hq]
  exact congrArg (fun z => some (o.params.fecEnabled, z)) hrec

/-! Non-vacuity. -/
example : RxF.sync .FSK2 0 (fun i => (natBits 52 0b0101010101010101010101010101010110010000010011101111).getD i false) 40 = some (32, false) := by decide +kernel
example : ∃ r, ((fskBitsToIQ id (bitsArg (List.replicate 8 true))).call { params := ⟨50000, 1, 1, .FSK4, true, 0, 0, true, true, 7⟩ }).1 = .ok r :=
  ⟨_, (C69.C69_reference { params := ⟨50000, 1, 1, .FSK4, true, 0, 0, true, true, 7⟩ } (by norm_num) _ _ (C03.C03_identity (List.replicate 8 true) (by simp))).2
    (by unfold C69.Refused; decide)⟩

end
end SunPhy.C110
