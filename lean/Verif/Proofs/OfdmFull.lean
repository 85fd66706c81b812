import Verif.Model.OfdmFull
import Verif.Proofs.OfdmStream
import Verif.Props.C05
import Verif.Props.C23
import Verif.Props.C92
/-
Lemmas on the unrestricted `Ofdm_modulator` (`Model/OfdmFull.lean`).
-/
namespace SunPhy
open Spec

set_option linter.unusedSectionVars false

/-! ### Available tones -/

theorem ofdmAvailable_ok {N : Nat} (he : N % 2 = 0) (hN : 0 < N) (padL padR : Int) (hl : padL ≤ (N / 2 : Nat)) (hr : padR < (N / 2 : Nat)) :
    ofdmAvailable N padL padR = .ok (availTones N padL.toNat padR.toNat) := by
  have := availableGlobal_eq (α := Int) ⟨N, .BPSK, padL.toNat, padR.toNat, 1, none⟩ he (by simp only; omega) (by simp only; omega)
  rw [← this]
  unfold ofdmAvailable OfdmCfg.availableGlobal
  simp only
  have e1 : ∀ l : List Int, (if padL > 0 then l.drop (pyBound l.length padL) else l) = l.drop padL.toNat := by
    intro l
    split
    · unfold pyBound
      rw [if_neg (by omega)]
      rcases Nat.le_total padL.toNat l.length with h | h
      · rw [Nat.min_eq_left h]
      · rw [Nat.min_eq_right h, List.drop_eq_nil_of_le (Nat.le_refl _), List.drop_eq_nil_of_le h]
    · rw [show padL.toNat = 0 by omega]; rfl
  have e2 : ∀ l : List Int, (if padR > 0 then l.take (pyBound l.length (-padR)) else l) = if padR.toNat > 0 then l.take (l.length - padR.toNat) else l := by
    intro l
    by_cases h : padR > 0
    · rw [if_pos h, if_pos (by omega)]
      unfold pyBound
      rw [if_pos (by omega)]
      congr 1
      omega
    · rw [if_neg h, if_neg (by omega)]
  rw [e1, e2]

theorem ofdmAvailable_error {N : Nat} (padL padR : Int) (h : N % 2 = 1 ∧ N ≤ 1 ∨ N % 2 = 0 ∧ ¬ (padL ≤ (N / 2 : Nat) ∧ padR < (N / 2 : Nat))) :
    ofdmAvailable N padL padR = .error .ValueError := by
  unfold ofdmAvailable
  simp only
  rw [if_neg]
  intro h0
  have hlen : ((List.range ((N : Int) / 2 - (-(N : Int)) / 2).toNat).map fun (i : Nat) => (-(N : Int)) / 2 + (i : Int)).length = ((N : Int) / 2 - (-(N : Int)) / 2).toNat := by simp
  have hget : ∀ (i : Nat) (v : Int), ((List.range ((N : Int) / 2 - (-(N : Int)) / 2).toNat).map fun (i : Nat) => (-(N : Int)) / 2 + (i : Int))[i]? = some v → v = (-(N : Int)) / 2 + (i : Int) ∧ i < ((N : Int) / 2 - (-(N : Int)) / 2).toNat := by
    intro i v hv
    rw [List.getElem?_map] at hv
    by_cases hi : i < ((N : Int) / 2 - (-(N : Int)) / 2).toNat
    · rw [List.getElem?_range hi, Option.map_some] at hv
      exact ⟨(Option.some.inj hv).symm, hi⟩
    · rw [List.getElem?_eq_none (by simp; omega)] at hv; cases hv
  generalize hl : ((List.range ((N : Int) / 2 - (-(N : Int)) / 2).toNat).map fun (i : Nat) => (-(N : Int)) / 2 + (i : Int)) = l at *
  have hsub : ∃ i : Nat, l[i]? = some 0 ∧ (0 < padL → padL ≤ i) ∧ (0 < padR → (i : Int) + padR < l.length) := by
    have key : ∀ l2 : List Int, ∀ off : Nat, l2 = l.drop off → (0 < padL → min padL l.length ≤ off) → (0 : Int) ∈ (if padR > 0 then l2.take (pyBound l2.length (-padR)) else l2) →
        ∃ i : Nat, l[i]? = some 0 ∧ (0 < padL → padL ≤ i) ∧ (0 < padR → (i : Int) + padR < l.length) := by
      intro l2 off e1 e2 hm
      have hm2 : ∃ j : Nat, l2[j]? = some 0 ∧ (0 < padR → (j : Int) + padR < l2.length) := by
        by_cases hp : padR > 0
        · rw [if_pos hp] at hm
          obtain ⟨j, hj, hjv⟩ := List.mem_iff_getElem.1 hm
          have hj' := hj
          rw [List.length_take] at hj'
          refine ⟨j, ?_, fun _ => ?_⟩
          · rw [List.getElem_take] at hjv
            rw [← hjv]; exact List.getElem?_eq_getElem _
          · unfold pyBound at hj'
            rw [if_pos (by omega)] at hj'
            omega
        · rw [if_neg hp] at hm
          obtain ⟨j, hj, hjv⟩ := List.mem_iff_getElem.1 hm
          exact ⟨j, by rw [← hjv]; exact List.getElem?_eq_getElem _, fun h => absurd h hp⟩
      obtain ⟨j, hj1, hj2⟩ := hm2
      have hjl : j < l2.length := (List.getElem?_eq_some_iff.1 hj1).1
      rw [e1, List.getElem?_drop] at hj1
      rw [e1, List.length_drop] at hjl hj2
      refine ⟨off + j, hj1, fun h => ?_, fun h => ?_⟩
      · have := e2 h; omega
      · have := hj2 h; omega
    by_cases hp : padL > 0
    · rw [if_pos hp] at h0
      refine key _ (pyBound l.length padL) rfl (fun _ => ?_) h0
      unfold pyBound
      rw [if_neg (by omega)]
      omega
    · rw [if_neg hp] at h0
      exact key _ 0 rfl (fun h => absurd h hp) h0
  obtain ⟨i, h1, h2, h3⟩ := hsub
  obtain ⟨e1, e2⟩ := hget i 0 h1
  omega

/-! ### Simulation by the restricted model -/

section
variable {α : Type}

/-- The generator registers of the two models agree. -/
def PnRel (g : Int) (p : Pn9) : Prop := p.value % 512 = (g % 512).toNat

theorem pnRel_next {g : Int} {p : Pn9} (h : PnRel g p) : sgn ((pn9NextI g).1 : ℚ) = bpsk (p.next.1 == 1) ∧ PnRel (pn9NextI g).2 p.next.2 := by
  have hs : pn9StepI g = (pn9Step p.value : Nat) := by
    rw [C05.pn9StepI_eq, pn9Step_mod p.value, h]
  constructor
  · have e : (pn9NextI g).1 = (p.next.1 : Nat) := by
      show Int.land (pn9StepI g) 0x100 >>> 8 = _
      rw [hs]; rfl
    rw [e]
    have := pn9Out_le (pn9Step p.value)
    have e2 : p.next.1 = pn9Out (pn9Step p.value) := rfl
    rw [e2]
    rcases (by omega : pn9Out (pn9Step p.value) = 0 ∨ pn9Out (pn9Step p.value) = 1) with h | h <;> rw [h] <;> simp [sgn, bpsk]
  · show p.next.2.value % 512 = (pn9StepI g % 512).toNat
    rw [hs]
    show pn9Step p.value % 512 = _
    omega

theorem insertPilotI_sim (N : Nat) (pv : Int → α) (vals : PilotValues α) (s : PilotLoopI α) (g : Pn9) (h : PnRel s.pn9 g) (p : Int) :
    (∃ e g1 g2, insertPilotI N pv vals s p = (.error e, g1) ∧ insertPilot N pv vals ⟨s.channels, s.available, g, s.valuesIndex⟩ p = (.error e, g2) ∧ PnRel g1 g2) ∨
    (∃ s1 g1 g2, insertPilotI N pv vals s p = (.ok s1, g1) ∧ s1.pn9 = g1 ∧
      insertPilot N pv vals ⟨s.channels, s.available, g, s.valuesIndex⟩ p = (.ok ⟨s1.channels, s1.available, g2, s1.valuesIndex⟩, g2) ∧ PnRel g1 g2) := by
  obtain ⟨hb, hn⟩ := pnRel_next h
  unfold insertPilotI insertPilot
  cases vals with
  | pn9 =>
    simp only
    rw [hb]
    split
    · left; exact ⟨_, _, _, rfl, rfl, hn⟩
    · split
      · right; exact ⟨_, _, _, rfl, rfl, rfl, hn⟩
      · left; exact ⟨_, _, _, rfl, rfl, hn⟩
  | array v =>
    simp only
    cases hv : v[s.valuesIndex]? with
    | none => left; exact ⟨_, _, _, rfl, rfl, h⟩
    | some x =>
      simp only
      split
      · left; exact ⟨_, _, _, rfl, rfl, h⟩
      · split
        · right; exact ⟨_, _, _, rfl, rfl, rfl, h⟩
        · left; exact ⟨_, _, _, rfl, rfl, h⟩

theorem insertPilotsI_sim (N : Nat) (pv : Int → α) (vals : PilotValues α) (ps : List Int) : ∀ (s : PilotLoopI α) (g : Pn9), PnRel s.pn9 g →
    (∃ e g1 g2, insertPilotsI N pv vals s ps = (.error e, g1) ∧ insertPilots N pv vals ⟨s.channels, s.available, g, s.valuesIndex⟩ ps = (.error e, g2) ∧ PnRel g1 g2) ∨
    (∃ s1 g1 g2, insertPilotsI N pv vals s ps = (.ok s1, g1) ∧ s1.pn9 = g1 ∧
      insertPilots N pv vals ⟨s.channels, s.available, g, s.valuesIndex⟩ ps = (.ok ⟨s1.channels, s1.available, g2, s1.valuesIndex⟩, g2) ∧ PnRel g1 g2) := by
  induction ps with
  | nil => intro s g h; right; exact ⟨s, s.pn9, g, rfl, rfl, rfl, h⟩
  | cons p ps ih =>
    intro s g h
    unfold insertPilotsI insertPilots
    rcases insertPilotI_sim N pv vals s g h p with ⟨e, g1, g2, h1, h2, h3⟩ | ⟨s1, g1, g2, h1, h4, h2, h3⟩
    · left; rw [h1, h2]; exact ⟨e, g1, g2, rfl, rfl, h3⟩
    · rw [h1, h2]
      simp only
      exact ih s1 g2 (by rw [h4]; exact h3)

/-- The states of the two models agree: column index modulo the number of sets, register modulo 512. -/
def StRel (S : Nat) (idx g : Int) (st : OfdmState) : Prop := st.pilotsColumnIndex = (idx % S).toNat ∧ PnRel g st.pn9

theorem pilotSetAt_eq {sets : List (List Int)} {idx : Int} (h1 : -(sets.length : Int) ≤ idx) (h2 : idx < sets.length) :
    pilotSetAt sets idx = sets[(idx % sets.length).toNat]? ∧ (idx % sets.length).toNat < sets.length := by
  have hpos : 0 < sets.length := by omega
  unfold pilotSetAt
  by_cases h : 0 ≤ idx
  · rw [if_pos h, Int.emod_eq_of_lt h h2]
    exact ⟨rfl, by omega⟩
  · rw [if_neg h, if_pos h1]
    have e : idx % (sets.length : Int) = idx + sets.length := by
      rw [← Int.add_emod_right, Int.emod_eq_of_lt (by omega) (by omega)]
    rw [e]
    exact ⟨rfl, by omega⟩

variable [Zero α]

theorem symbolI_sim (c : OfdmCfg α) (pv : Int → α) (pl : Pilots α) (av : List Int) (vi : Nat) (idx g : Int) (st : OfdmState)
    (h1 : -(pl.sets.length : Int) ≤ idx) (h2 : idx < pl.sets.length) (h : StRel pl.sets.length idx g st) (col : List α) :
    ∃ idx' g' st', (addPilotsSymbolI c.nFFT pv pl av vi idx g col).2 = (idx', g') ∧ (addPilotsSymbol c pv pl av vi st col).2 = st' ∧
      (addPilotsSymbolI c.nFFT pv pl av vi idx g col).1 = (addPilotsSymbol c pv pl av vi st col).1 ∧
      -(pl.sets.length : Int) ≤ idx' ∧ idx' < pl.sets.length ∧ StRel pl.sets.length idx' g' st' := by
  obtain ⟨hset, hlt⟩ := pilotSetAt_eq h1 h2
  refine ⟨_, _, _, rfl, rfl, ?_⟩
  unfold addPilotsSymbolI addPilotsSymbol
  rw [h.1, hset, List.getElem?_eq_getElem hlt]
  simp only
  have hn : -(pl.sets.length : Int) ≤ (if idx + 1 ≥ pl.sets.length then 0 else idx + 1) ∧ (if idx + 1 ≥ (pl.sets.length : Int) then 0 else idx + 1) < pl.sets.length ∧
      (if (idx % (pl.sets.length : Int)).toNat + 1 ≥ pl.sets.length then 0 else (idx % (pl.sets.length : Int)).toNat + 1) =
        ((if idx + 1 ≥ (pl.sets.length : Int) then 0 else idx + 1) % (pl.sets.length : Int)).toNat := by
    generalize pl.sets.length = S at *
    refine ⟨by split <;> omega, by split <;> omega, ?_⟩
    by_cases hi : 0 ≤ idx
    · rw [Int.emod_eq_of_lt hi h2]
      by_cases hS : idx + 1 ≥ S
      · rw [if_pos hS, if_pos (by omega)]; simp
      · rw [if_neg hS, if_neg (by omega), Int.emod_eq_of_lt (by omega) (by omega)]; omega
    · have e : idx % (S : Int) = idx + S := by rw [← Int.add_emod_right, Int.emod_eq_of_lt (by omega) (by omega)]
      rw [e, if_neg (by omega : ¬ idx + 1 ≥ (S : Int))]
      by_cases hm : idx = -1
      · subst hm
        rw [if_pos (by omega)]; simp
      · have e' : (idx + 1) % (S : Int) = idx + 1 + S := by rw [← Int.add_emod_right, Int.emod_eq_of_lt (by omega) (by omega)]
        rw [e', if_neg (by omega)]
        omega
  obtain ⟨n1, n2, n3⟩ := hn
  rcases insertPilotsI_sim c.nFFT pv pl.values pl.sets[(idx % (pl.sets.length : Int)).toNat] { channels := List.replicate c.nFFT 0, available := av, pn9 := g, valuesIndex := vi } st.pn9 h.2
    with ⟨e, g1, g2, e1, e2, e3⟩ | ⟨s1, g1, g2, e1, -, e2, e3⟩
  · simp only at e2
    rw [e1, e2]
    exact ⟨rfl, h1, h2, rfl, e3⟩
  · simp only at e2
    rw [e1, e2]
    simp only
    rw [n3]
    cases placeData c.nFFT s1.channels s1.available col with
    | error e => exact ⟨rfl, n1, n2, rfl, e3⟩
    | ok ch => exact ⟨rfl, n1, n2, rfl, e3⟩

theorem symbolsI_sim (c : OfdmCfg α) (pv : Int → α) (pl : Pilots α) (av : List Int) (cols : List (List α)) : ∀ (vi : Nat) (idx g : Int) (st : OfdmState),
    -(pl.sets.length : Int) ≤ idx → idx < pl.sets.length → StRel pl.sets.length idx g st →
    (addPilotsSymbolsI c.nFFT pv pl av vi idx g cols).1 = (addPilotsSymbols c pv pl av vi st cols).1 ∧
      -(pl.sets.length : Int) ≤ (addPilotsSymbolsI c.nFFT pv pl av vi idx g cols).2.1 ∧ (addPilotsSymbolsI c.nFFT pv pl av vi idx g cols).2.1 < pl.sets.length ∧
      StRel pl.sets.length (addPilotsSymbolsI c.nFFT pv pl av vi idx g cols).2.1 (addPilotsSymbolsI c.nFFT pv pl av vi idx g cols).2.2 (addPilotsSymbols c pv pl av vi st cols).2 := by
  induction cols with
  | nil => intro vi idx g st h1 h2 h; exact ⟨rfl, h1, h2, h⟩
  | cons col cols ih =>
    intro vi idx g st h1 h2 h
    obtain ⟨idx', g', st', e1, e2, e3, n1, n2, n3⟩ := symbolI_sim c pv pl av vi idx g st h1 h2 h col
    unfold addPilotsSymbolsI addPilotsSymbols
    cases hA : addPilotsSymbolI c.nFFT pv pl av vi idx g col with
    | mk rA sA =>
      cases hB : addPilotsSymbol c pv pl av vi st col with
      | mk rB sB =>
        rw [hA] at e1 e3
        rw [hB] at e2 e3
        simp only at e1 e2 e3
        subst e1 e2 e3
        cases rA with
        | error e => exact ⟨rfl, n1, n2, n3⟩
        | ok v =>
          obtain ⟨ch, vi'⟩ := v
          simp only
          obtain ⟨i1, i2, i3, i4⟩ := ih vi' idx' g' sB n1 n2 n3
          cases hC : addPilotsSymbolsI c.nFFT pv pl av vi' idx' g' cols with
          | mk rC sC =>
            cases hD : addPilotsSymbols c pv pl av vi' sB cols with
            | mk rD sD =>
              rw [hC, hD] at i1 i4
              rw [hC] at i2 i3
              simp only at i1 i2 i3 i4
              subst i1
              cases rC <;> exact ⟨rfl, i2, i3, i4⟩

/-! ### When the pilot stage succeeds -/

theorem filter_length {av ps : List Int} (hav : av.Nodup) (hnd : ps.Nodup) (hsub : ∀ p ∈ ps, p ∈ av) :
    (av.filter (· ∉ ps)).length + ps.length = av.length := by
  have h1 := List.length_eq_length_filter_add (l := av) (fun t => decide (t ∉ ps))
  have hperm : (av.filter fun t => !decide (t ∉ ps)).Perm ps := by
    rw [List.perm_ext_iff_of_nodup (List.Nodup.filter _ hav) hnd]
    intro t
    rw [List.mem_filter]
    constructor
    · intro h; simpa using h.2
    · intro h; exact ⟨hsub t h, by simpa using h⟩
  have := hperm.length_eq
  omega

theorem placeData_iff (N : Nat) (ch : List α) (av : List Int) (col : List α) :
    (∃ r, placeData N ch av col = .ok r) ↔ col.length = av.length ∨ col.length = 1 := by
  unfold placeData
  simp only
  by_cases h : col.length = av.length
  · rw [if_pos h]; simp [h]
  · rw [if_neg h]
    match col, h with
    | [], h => simp only [List.length_nil] at h ⊢; simp; omega
    | [v], _ => simp
    | a :: b :: l, h => simp only [List.length_cons] at h ⊢; simp; omega

/-- Conditions on the pilots that hold for every constructed modulator. -/
structure PilotsWf (pl : Pilots α) : Prop where
  npil : 0 < pl.nPilots
  size : ∀ ps ∈ pl.sets, ps.length = pl.nPilots
  vals : ∀ v, pl.values = .array v → v.length = pl.nPilots ∨ v = []

/-- The pilot values can be read. -/
def ValuesOk (pl : Pilots α) : Prop := pl.values ≠ .array []

/-- One symbol goes through. -/
def SymbolOk (pl : Pilots α) (av : List Int) (ps : List Int) (m : Nat) : Prop :=
  ps.Nodup ∧ (∀ p ∈ ps, p ∈ av) ∧ ValuesOk pl ∧ (m + pl.nPilots = av.length ∨ m = 1)

theorem insert_good {N : Nat} (he : N % 2 = 0) (pv : Int → α) {pl : Pilots α} (hw : PilotsWf pl) {av : List Int} (hav : av.Nodup) (hb : ∀ t ∈ av, inBand N t)
    (g : Pn9) {ps : List Int} (hps : ps ∈ pl.sets) (hnd : ps.Nodup) (hsub : ∀ p ∈ ps, p ∈ av) (hv : ValuesOk pl) :
    insertPilots N pv pl.values { channels := List.replicate N 0, available := av, pn9 := g, valuesIndex := 0 } ps =
      (.ok { channels := put N (List.replicate N 0) ps (pl.valuesAt pv g), available := av.filter (· ∉ ps), pn9 := pl.pn9At g 1, valuesIndex := 0 }, pl.pn9At g 1) := by
  have hlen := hw.size ps hps
  unfold Pilots.valuesAt Pilots.pn9At
  cases hvv : pl.values with
  | pn9 =>
    rw [insertPilots_ok he pv _ _ hnd hsub hb hav, hlen]
    simp only [Nat.one_mul]
  | array v =>
    have hv2 : v.length = pl.nPilots := by
      rcases hw.vals v hvv with h | h
      · exact h
      · subst h; exact absurd hvv hv
    rw [insertPilots_array he pv v _ _ hnd hsub hb hav (fun _ => by rw [hv2, hlen]; simp)]
    simp

theorem symbol_ok_iff {c : OfdmCfg α} (he : c.nFFT % 2 = 0) (pv : Int → α) {pl : Pilots α} (hw : PilotsWf pl) {av : List Int} (hav : av.Nodup)
    (hb : ∀ t ∈ av, inBand c.nFFT t) (st : OfdmState) {ps : List Int} (hset : pl.sets[st.pilotsColumnIndex]? = some ps) (col : List α) :
    ((∃ x, (addPilotsSymbol c pv pl av 0 st col).1 = .ok x) ↔ SymbolOk pl av ps col.length) ∧
    (∀ x, (addPilotsSymbol c pv pl av 0 st col).1 = .ok x → x.2 = 0 ∧ (addPilotsSymbol c pv pl av 0 st col).2.pilotsColumnIndex = (st.pilotsColumnIndex + 1) % pl.sets.length) := by
  have hlt := (List.getElem?_eq_some_iff.1 hset).1
  have hmem : ps ∈ pl.sets := List.mem_of_getElem? hset
  have hlen := hw.size ps hmem
  unfold addPilotsSymbol
  rw [hset]
  simp only
  by_cases hg : ps.Nodup ∧ (∀ p ∈ ps, p ∈ av) ∧ ValuesOk pl
  · obtain ⟨g1, g2, g3⟩ := hg
    rw [insert_good he pv hw hav hb st.pn9 hmem g1 g2 g3]
    simp only
    have hf := filter_length hav g1 g2
    have hp := placeData_iff c.nFFT (put c.nFFT (List.replicate c.nFFT 0) ps (pl.valuesAt pv st.pn9)) (av.filter (· ∉ ps)) col
    have hS : SymbolOk pl av ps col.length ↔ col.length = (av.filter (· ∉ ps)).length ∨ col.length = 1 := by
      unfold SymbolOk
      constructor
      · rintro ⟨-, -, -, h | h⟩
        · left; omega
        · right; exact h
      · rintro (h | h)
        · exact ⟨g1, g2, g3, Or.inl (by omega)⟩
        · exact ⟨g1, g2, g3, Or.inr h⟩
    rw [hS]
    cases hd : placeData c.nFFT (put c.nFFT (List.replicate c.nFFT 0) ps (pl.valuesAt pv st.pn9)) (av.filter (· ∉ ps)) col with
    | error e =>
      rw [hd] at hp
      refine ⟨⟨fun ⟨x, hx⟩ => (by cases hx), fun h => ?_⟩, fun x hx => (by cases hx)⟩
      obtain ⟨r, hr⟩ := hp.2 h
      cases hr
    | ok ch =>
      rw [hd] at hp
      refine ⟨⟨fun _ => hp.1 ⟨ch, rfl⟩, fun _ => ⟨_, rfl⟩⟩, fun x hx => ?_⟩
      have hx := Except.ok.inj hx
      rw [← hx]
      refine ⟨rfl, ?_⟩
      simp only
      split
      · have : st.pilotsColumnIndex + 1 = pl.sets.length := by omega
        rw [this, Nat.mod_self]
      · rw [Nat.mod_eq_of_lt (by omega)]
  · have hne : ∀ s1 g', insertPilots c.nFFT pv pl.values { channels := List.replicate c.nFFT 0, available := av, pn9 := st.pn9, valuesIndex := 0 } ps ≠ (.ok s1, g') := by
      intro s1 g' hins
      obtain ⟨k1, k2⟩ := C23.insertPilots_sound pv pl.values ps _ _ _ hav hins
      refine hg ⟨k1, k2, fun hv => ?_⟩
      rw [hv] at hins
      cases ps with
      | nil => have := hw.npil; simp at hlen; omega
      | cons p ps => unfold insertPilots insertPilot at hins; simp at hins
    cases hins : insertPilots c.nFFT pv pl.values { channels := List.replicate c.nFFT 0, available := av, pn9 := st.pn9, valuesIndex := 0 } ps with
    | mk r g' =>
      cases r with
      | ok s1 => exact absurd hins (hne s1 g')
      | error e =>
        simp only
        refine ⟨⟨fun ⟨x, hx⟩ => (by cases hx), fun h => absurd ⟨h.1, h.2.1, h.2.2.1⟩ hg⟩, fun x hx => (by cases hx)⟩

theorem symbols_ok_iff {c : OfdmCfg α} (he : c.nFFT % 2 = 0) (pv : Int → α) {pl : Pilots α} (hw : PilotsWf pl) {av : List Int} (hav : av.Nodup)
    (hb : ∀ t ∈ av, inBand c.nFFT t) (cols : List (List α)) : ∀ (st : OfdmState), st.pilotsColumnIndex < pl.sets.length →
    ((∃ x, (addPilotsSymbols c pv pl av 0 st cols).1 = .ok x) ↔
      ∀ (n : Nat) (col : List α), cols[n]? = some col → ∃ ps, pl.sets[(st.pilotsColumnIndex + n) % pl.sets.length]? = some ps ∧ SymbolOk pl av ps col.length) := by
  induction cols with
  | nil => intro st _; exact ⟨fun _ n col h => by simp at h, fun _ => ⟨[], rfl⟩⟩
  | cons col cols ih =>
    intro st hst
    have hset := List.getElem?_eq_getElem hst
    obtain ⟨s1, s2⟩ := symbol_ok_iff he pv hw hav hb st hset col
    have hpos : 0 < pl.sets.length := by omega
    unfold addPilotsSymbols
    cases hA : addPilotsSymbol c pv pl av 0 st col with
    | mk r st' =>
      rw [hA] at s1 s2
      simp only at s1 s2
      cases r with
      | error e =>
        simp only
        refine ⟨fun ⟨x, hx⟩ => (by cases hx), fun h => ?_⟩
        obtain ⟨ps, hp1, hp2⟩ := h 0 col rfl
        rw [Nat.add_zero, Nat.mod_eq_of_lt hst, hset] at hp1
        cases hp1
        obtain ⟨x, hx⟩ := s1.2 hp2
        cases hx
      | ok v =>
        obtain ⟨ch, vi⟩ := v
        obtain ⟨e1, e2⟩ := s2 _ rfl
        simp only at e1
        subst e1
        simp only
        have hst' : st'.pilotsColumnIndex < pl.sets.length := by rw [e2]; exact Nat.mod_lt _ hpos
        have hi := ih st' hst'
        have hidx : ∀ n, (st'.pilotsColumnIndex + n) % pl.sets.length = (st.pilotsColumnIndex + (n + 1)) % pl.sets.length := by
          intro n
          rw [e2, Nat.mod_add_mod]
          congr 1; omega
        have hcond : (∀ (n : Nat) (col_1 : List α), (col :: cols)[n]? = some col_1 → ∃ ps, pl.sets[(st.pilotsColumnIndex + n) % pl.sets.length]? = some ps ∧ SymbolOk pl av ps col_1.length) ↔
            ∀ (n : Nat) (col : List α), cols[n]? = some col → ∃ ps, pl.sets[(st'.pilotsColumnIndex + n) % pl.sets.length]? = some ps ∧ SymbolOk pl av ps col.length := by
          constructor
          · intro h n c' hc
            rw [hidx]
            exact h (n + 1) c' (by simpa using hc)
          · intro h n c' hc
            cases n with
            | zero =>
              simp at hc
              subst hc
              exact ⟨_, by rw [Nat.add_zero, Nat.mod_eq_of_lt hst]; exact hset, s1.1 ⟨_, rfl⟩⟩
            | succ n =>
              have := h n c' (by simpa using hc)
              rwa [hidx] at this
        rw [hcond, ← hi]
        cases addPilotsSymbols c pv pl av 0 st' cols with
        | mk r2 st2 =>
          cases r2 with
          | error e => simp
          | ok x => simp

end
end SunPhy
