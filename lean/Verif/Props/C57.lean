import Verif.Proofs.Dsss
import Verif.Proofs.BitsLemmas
/-
C57 — pilot insertion is reversible and periodic.
C58 — pilot sequences and the SHR spreading code.
-/
namespace SunPhy.C57
open SunPhy Spec

/-- Pilot length and spacing of each band. -/
def pilotLen : Band → Nat
  | .b470 | .b868 | .b920 | .b950 => 32
  | .b780 | .b915 | .b917 => 64
  | .b2450 => 128
def spacing : Band → Nat
  | .b470 | .b868 | .b920 | .b950 => 512
  | .b780 | .b915 | .b917 => 1024
  | .b2450 => 2048

/-- Receiver: skip `NP` chips, keep `MP`, and so on. -/
def dropPilots (NP MP : Nat) (l : Bits) : Bits :=
  ((List.range ((l.length + (NP + MP) - 1) / (NP + MP))).flatMap fun i => ((l.drop (i * (NP + MP))).take (NP + MP)).drop NP)

theorem pilot_length (b : Band) : (pilotSequence b).length = pilotLen b := by cases b <;> exact natBits_length _ _
theorem spacing_eq (b : Band) : pilotSpacing b = spacing b := by cases b <;> rfl
theorem spacing_pos (b : Band) : 0 < spacing b := by cases b <;> decide

/-- Insertion with an arbitrary pilot and spacing. -/
def ins (pilot : Bits) (MP : Nat) (s : Bits) : Bits :=
  (List.range ((s.length + MP - 1) / MP)).flatMap fun l => pilot ++ (s.drop (l * MP)).take MP

theorem ins_eq (p : OqpskParams) (s : Bits) : p.insertPilots s = ins (pilotSequence p.band) (spacing p.band) s := by
  unfold OqpskParams.insertPilots ins ceilDiv
  simp only [spacing_eq]

theorem ins_nil (pilot : Bits) (MP : Nat) (hM : 0 < MP) : ins pilot MP [] = [] := by
  unfold ins
  rw [show (([] : Bits).length + MP - 1) / MP = 0 from Nat.div_eq_of_lt (by simp; omega)]
  rfl

theorem ins_cons (pilot : Bits) (MP : Nat) (hM : 0 < MP) (s : Bits) (hs : s ≠ []) :
    ins pilot MP s = pilot ++ s.take MP ++ ins pilot MP (s.drop MP) := by
  have hp := List.length_pos_of_ne_nil hs
  unfold ins
  have e : (s.length + MP - 1) / MP = ((s.drop MP).length + MP - 1) / MP + 1 := by
    rw [List.length_drop]
    by_cases h : MP ≤ s.length
    · rw [show s.length + MP - 1 = (s.length - MP + MP - 1) + MP by omega, Nat.add_div_right _ hM]
    · rw [show s.length - MP + MP - 1 = MP - 1 by omega, Nat.div_eq_of_lt (show MP - 1 < MP by omega)]
      rw [show s.length + MP - 1 = (s.length - 1) + MP by omega, Nat.add_div_right _ hM, Nat.div_eq_of_lt (by omega)]
  rw [e, List.range_succ_eq_map, List.flatMap_cons, List.flatMap_map]
  simp only [Nat.zero_mul, List.drop_zero]
  congr 1
  apply List.flatMap_congr
  intro l _
  rw [List.drop_drop, Nat.succ_mul, Nat.add_comm]

/-- Induction along groups of `MP` chips. -/
theorem groupInduction {MP : Nat} (hM : 0 < MP) {P : Bits → Prop} (h0 : P []) (h1 : ∀ s : Bits, s ≠ [] → P (s.drop MP) → P s) (s : Bits) : P s := by
  induction hn : s.length using Nat.strongRecOn generalizing s with
  | _ n ih =>
    by_cases hs : s = []
    · subst hs; exact h0
    · have := List.length_pos_of_ne_nil hs
      exact h1 s hs (ih (s.drop MP).length (by simp; omega) _ rfl)

theorem ins_length (pilot : Bits) (MP : Nat) (hM : 0 < MP) (s : Bits) :
    (ins pilot MP s).length = s.length + (s.length + MP - 1) / MP * pilot.length := by
  unfold ins
  induction s using groupInduction hM with
  | h0 => rw [show (([] : Bits).length + MP - 1) / MP = 0 from Nat.div_eq_of_lt (by simp; omega)]; simp
  | h1 s hs ih =>
    have c := ins_cons pilot MP hM s hs
    unfold ins at c
    rw [c]
    have hp := List.length_pos_of_ne_nil hs
    have e : (s.length + MP - 1) / MP = ((s.drop MP).length + MP - 1) / MP + 1 := by
      rw [List.length_drop]
      by_cases h : MP ≤ s.length
      · rw [show s.length + MP - 1 = (s.length - MP + MP - 1) + MP by omega, Nat.add_div_right _ hM]
      · rw [show s.length - MP + MP - 1 = MP - 1 by omega, Nat.div_eq_of_lt (show MP - 1 < MP by omega)]
        rw [show s.length + MP - 1 = (s.length - 1) + MP by omega, Nat.add_div_right _ hM, Nat.div_eq_of_lt (by omega)]
    rw [List.length_append, ih, e, List.length_append, List.length_take, List.length_drop, Nat.add_mul, Nat.one_mul]
    omega

theorem drop_ins (pilot : Bits) (MP : Nat) (hM : 0 < MP) (s : Bits) : dropPilots pilot.length MP (ins pilot MP s) = s := by
  induction s using groupInduction hM with
  | h0 =>
    rw [ins_nil _ _ hM]
    unfold dropPilots
    rw [show (([] : Bits).length + (pilot.length + MP) - 1) / (pilot.length + MP) = 0 from Nat.div_eq_of_lt (by simp; omega)]
    rfl
  | h1 s hs ih =>
    have hp := List.length_pos_of_ne_nil hs
    rw [ins_cons _ _ hM s hs]
    generalize hR : ins pilot MP (s.drop MP) = R at ih
    have hRs : s.length ≤ MP → R = [] := by
      intro h
      rw [← hR, List.drop_of_length_le h, ins_nil _ _ hM]
    unfold dropPilots at ih ⊢
    have hS : 0 < pilot.length + MP := by omega
    have e : ((pilot ++ s.take MP ++ R).length + (pilot.length + MP) - 1) / (pilot.length + MP) =
        (R.length + (pilot.length + MP) - 1) / (pilot.length + MP) + 1 := by
      rw [List.length_append, List.length_append, List.length_take]
      by_cases h : MP ≤ s.length
      · rw [Nat.min_eq_left h, show pilot.length + MP + R.length + (pilot.length + MP) - 1 = (R.length + (pilot.length + MP) - 1) + (pilot.length + MP) by omega,
          Nat.add_div_right _ hS]
      · rw [hRs (by omega), Nat.min_eq_right (by omega), List.length_nil, Nat.add_zero,
          show pilot.length + s.length + (pilot.length + MP) - 1 = (pilot.length + s.length - 1) + (pilot.length + MP) by omega,
          Nat.add_div_right _ hS, Nat.div_eq_of_lt (by omega), Nat.div_eq_of_lt (by omega)]
    rw [e, List.range_succ_eq_map, List.flatMap_cons, List.flatMap_map]
    have key : ∀ i : Nat, (pilot ++ s.take MP ++ R).drop ((i + 1) * (pilot.length + MP)) = R.drop (i * (pilot.length + MP)) := by
      intro i
      by_cases h : MP ≤ s.length
      · have hl : (pilot ++ s.take MP).length = pilot.length + MP := by rw [List.length_append, List.length_take, Nat.min_eq_left h]
        rw [Nat.add_mul, Nat.one_mul, Nat.add_comm, ← List.drop_drop, ← hl, List.drop_left]
      · rw [hRs (by omega), List.append_nil, List.drop_nil, List.drop_of_length_le]
        rw [List.length_append, List.length_take, Nat.add_mul]; omega
    have h0 : ((pilot ++ s.take MP ++ R).take (pilot.length + MP)).drop pilot.length = s.take MP := by
      rw [List.append_assoc, List.take_length_add_append, List.drop_left]
      by_cases h : MP ≤ s.length
      · have hl : (s.take MP).length = MP := by rw [List.length_take, Nat.min_eq_left h]
        exact List.take_left' hl
      · rw [hRs (by omega), List.append_nil, List.take_take, Nat.min_self]
    have e2 : ((List.range ((R.length + (pilot.length + MP) - 1) / (pilot.length + MP))).flatMap fun i =>
        ((((pilot ++ s.take MP ++ R).drop ((i + 1) * (pilot.length + MP)))).take (pilot.length + MP)).drop pilot.length) = s.drop MP := by
      rw [← ih]
      apply List.flatMap_congr
      intro i _
      rw [key]
    rw [Nat.zero_mul, List.drop_zero, h0]
    have e3 : (List.flatMap (fun a => List.drop pilot.length (List.take (pilot.length + MP) (List.drop (a.succ * (pilot.length + MP)) (pilot ++ s.take MP ++ R))))
        (List.range ((R.length + (pilot.length + MP) - 1) / (pilot.length + MP)))) = s.drop MP := e2
    rw [e3, List.take_append_drop]

/-- **C57 (structure).**  The PSDU chips are cut into groups of the band's spacing (the last one may be shorter) and each group is
preceded by the band's pilot sequence; there are `ceil(size/spacing)` pilots. -/
theorem C57_structure (p : OqpskParams) (s : Bits) :
    ∃ groups : List Bits, groups.flatten = s ∧ groups.length = (s.length + spacing p.band - 1) / spacing p.band ∧
      (∀ g ∈ groups.dropLast, g.length = spacing p.band) ∧ (∀ g ∈ groups, 0 < g.length ∧ g.length ≤ spacing p.band) ∧
      p.insertPilots s = groups.flatMap (pilotSequence p.band ++ ·) ∧ (pilotSequence p.band).length = pilotLen p.band := by
  rw [ins_eq]
  have hM := spacing_pos p.band
  generalize spacing p.band = MP at hM
  refine ⟨(List.range ((s.length + MP - 1) / MP)).map fun l => (s.drop (l * MP)).take MP, ?_, by simp, ?_, ?_, ?_, pilot_length _⟩
  · have h := drop_ins [] MP hM s
    have h2 : ins [] MP s = ((List.range ((s.length + MP - 1) / MP)).map fun l => (s.drop (l * MP)).take MP).flatten := by
      unfold ins; rw [List.flatMap_def]; rfl
    rw [← h2]
    clear h h2
    induction s using groupInduction hM with
    | h0 => exact ins_nil _ _ hM
    | h1 s hs ih => rw [ins_cons _ _ hM s hs, ih]; simp
  · intro g hg
    rw [← List.map_dropLast] at hg
    simp only [List.mem_map] at hg
    obtain ⟨l, hl, rfl⟩ := hg
    have hl' : l + 1 < (s.length + MP - 1) / MP := by
      have : List.range ((s.length + MP - 1) / MP) = List.range ((s.length + MP - 1) / MP - 1 + 1) ∨ (s.length + MP - 1) / MP = 0 := by
        rcases Nat.eq_zero_or_pos ((s.length + MP - 1) / MP) with h | h
        · exact .inr h
        · left; congr 1; omega
      rcases this with h | h
      · rw [h, List.range_succ, List.dropLast_concat, List.mem_range] at hl; omega
      · rw [h] at hl; simp at hl
    have h1 := Nat.mul_le_mul_right MP (show l + 2 ≤ (s.length + MP - 1) / MP from hl')
    have h2 := Nat.div_mul_le_self (s.length + MP - 1) MP
    rw [Nat.add_mul] at h1
    simp; omega
  · intro g hg
    simp only [List.mem_map, List.mem_range] at hg
    obtain ⟨l, hl, rfl⟩ := hg
    have h1 := Nat.mul_le_mul_right MP (show l + 1 ≤ (s.length + MP - 1) / MP from hl)
    have h2 := Nat.div_mul_le_self (s.length + MP - 1) MP
    rw [Nat.add_mul] at h1
    simp; omega
  · unfold ins
    rw [List.flatMap_map]

/-- **C57 (reversible).**  Dropping the pilots restores the chips. -/
theorem C57_recover (p : OqpskParams) (s : Bits) : dropPilots (pilotLen p.band) (spacing p.band) (p.insertPilots s) = s := by
  rw [ins_eq, ← pilot_length]
  exact drop_ins _ _ (spacing_pos _) s

/-- **C57 (size).** -/
theorem C57_size (p : OqpskParams) (s : Bits) :
    (p.insertPilots s).length = s.length + (s.length + spacing p.band - 1) / spacing p.band * pilotLen p.band := by
  rw [ins_eq, ins_length _ _ (spacing_pos _), pilot_length]

theorem C57_injective (p : OqpskParams) (s s' : Bits) (h : p.insertPilots s = p.insertPilots s') : s = s' := by
  rw [← C57_recover p s, h, C57_recover]

/-- **C58 (partial).**  For every band but 2450 MHz the pilot sequence is the SHR spreading of one bit 0. -/
theorem C58_pilot_partial (b : Band) (h : b ≠ .b2450) : dsss [false] (shrSpreading b) = .ok (pilotSequence b) := by
  cases b <;> first | exact absurd rfl h | decide +kernel

/-- **C58 (2450 MHz).**  There the claim is false: the pilot differs from the chips of bit 0 in exactly one chip, number 78. -/
theorem C58_2450 : ∃ chips, dsss [false] (shrSpreading .b2450) = .ok chips ∧ chips.length = 128 ∧ (pilotSequence .b2450).length = 128 ∧
    hamming chips (pilotSequence .b2450) = 1 ∧ chips[78]? ≠ (pilotSequence .b2450)[78]? := by
  refine ⟨spreadOf [.c128_1] 1 [false], ?_⟩
  decide +kernel

/-- A group and a half: two pilots, and without them the chips are back. -/
example : (OqpskParams.insertPilots ⟨.b868, 0, 0, 4⟩ (List.replicate 768 true)).length = 768 + 2 * 32 := by rw [C57_size, List.length_replicate]; decide
example : (OqpskParams.insertPilots ⟨.b868, 0, 0, 4⟩ (List.replicate 768 true)).getD 31 true = true ∧
    (OqpskParams.insertPilots ⟨.b868, 0, 0, 4⟩ (List.replicate 768 true)).drop 544 = natBits 32 0xDEA27065 ++ List.replicate 256 true := by decide +kernel

end SunPhy.C57
