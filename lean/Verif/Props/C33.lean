import Verif.Model.MrFsk
import Verif.Proofs.BitsLemmas
/-
C33 — which MR-FSK configurations are accepted.  (NaN / infinite floats are outside the model.)
-/
namespace SunPhy.C33
open SunPhy

/-- The integer a Python argument stands for: an `int`, or a `bool` read as 0/1. -/
def IsInt (v : PyVal) (i : Int) : Prop := v = .int i ∨ (v = .bool true ∧ i = 1) ∨ (v = .bool false ∧ i = 0)

/-- What each acceptable argument looks like and which value it selects. -/
def RateIs (v : PyVal) (n : Nat) : Prop := 1 ≤ n ∧ (IsInt v n ∨ ∃ q : Rat, v = .float q ∧ (n : Rat) ≤ q ∧ q < n + 1)
def IndexIs (v : PyVal) (h : Rat) : Prop := 1 / 4 ≤ h ∧ h ≤ 5 / 2 ∧ (v = .float h ∨ ∃ i : Int, IsInt v i ∧ h = i)
def ZeroOneIs (v : PyVal) (n : Nat) : Prop := IsInt v n ∧ n ≤ 1
def PreambleIs (v : PyVal) (n : Nat) : Prop := IsInt v n ∧ 4 ≤ n ∧ n ≤ 1000
def ModulationIs (v : PyVal) (m : FskMod) : Prop := (v = .str "2FSK" ∧ m = .FSK2) ∨ (v = .str "4FSK" ∧ m = .FSK4)
def BoolIs (v : PyVal) (b : Bool) : Prop := v = .bool b
def ScrambleIs (v : PyVal) (b : Bool) : Prop := ∃ i : Int, IsInt v i ∧ (b = true ↔ i ≠ 0)

/-- Types the constructor knows for each argument. -/
def Integral (v : PyVal) : Prop := ∃ i, IsInt v i
def Number (v : PyVal) : Prop := Integral v ∨ ∃ q, v = .float q
def Str (v : PyVal) : Prop := ∃ s, v = .str s
def Boolean (v : PyVal) : Prop := ∃ b, v = .bool b

/-- How one argument fares: its type is known or not, its value acceptable or not. -/
structure Check where
  typeOk : Prop
  valueOk : Prop

/-- The ten arguments in the order in which the constructor looks at them. -/
def checks (rate index sfd modulation fec scheme fcs scramble il preamble : PyVal) : List Check :=
  [⟨Number rate, ∃ n, RateIs rate n⟩, ⟨Number index, ∃ h, IndexIs index h⟩, ⟨Integral sfd, ∃ n, ZeroOneIs sfd n⟩,
   ⟨Integral preamble, ∃ n, PreambleIs preamble n⟩, ⟨Str modulation, ∃ m, ModulationIs modulation m⟩,
   ⟨Boolean fec, ∃ b, BoolIs fec b⟩, ⟨Integral scheme, ∃ n, ZeroOneIs scheme n⟩, ⟨Integral fcs, ∃ n, ZeroOneIs fcs n⟩,
   ⟨Integral scramble, ∃ b, ScrambleIs scramble b⟩, ⟨Boolean il, ∃ b, BoolIs il b⟩]

/-- The exception of the first argument that fails: `TypeError` for an unknown type, else `ValueError`. -/
def FirstFault : List Check → PyErr → Prop
  | [], _ => False
  | c :: cs, e => (c.typeOk ∧ c.valueOk ∧ FirstFault cs e) ∨ (¬ c.typeOk ∧ e = .TypeError) ∨ (c.typeOk ∧ ¬ c.valueOk ∧ e = .ValueError)

/-! ### One argument -/

theorem isInt_iff (v : PyVal) (i : Int) : IsInt v i ↔ v.asInt? = some i := by
  unfold IsInt PyVal.asInt?
  cases v with
  | int j => simp
  | float q => simp
  | bool b => cases b <;> simp [eq_comm]
  | str s => simp
  | other => simp

theorem integral_iff (v : PyVal) : Integral v ↔ v.asInt? ≠ none := by
  unfold Integral
  simp only [isInt_iff]
  cases v.asInt? <;> simp

/-- A checker implements the specification: value iff `Is`, errors by type. -/
def Implements {α} (f : PyVal → Res α) (T : PyVal → Prop) (Is : PyVal → α → Prop) : Prop :=
  ∀ v, (∀ x, f v = .ok x ↔ Is v x) ∧ ((∃ x, Is v x) → T v) ∧ (¬ T v → f v = .error .TypeError) ∧
    (T v → (¬ ∃ x, Is v x) → f v = .error .ValueError)

theorem toNat_eq {i : Int} {n : Nat} (h : 0 ≤ i) : i.toNat = n ↔ i = n := by omega

theorem rate_impl : Implements fskCheckRate Number RateIs := by
  intro v
  have hT : (∃ x, RateIs v x) → Number v := by
    rintro ⟨n, -, h | ⟨q, h, -⟩⟩
    · exact .inl ⟨_, h⟩
    · exact .inr ⟨q, h⟩
  have main : ∀ i : Int, (∀ n : Nat, (i = n ∧ 1 ≤ n) ↔ RateIs v n) → Number v →
      fskCheckRate v = (if i ≤ 0 then .error .ValueError else .ok i.toNat) →
      (∀ x, fskCheckRate v = .ok x ↔ RateIs v x) ∧ ((∃ x, RateIs v x) → Number v) ∧
      (¬ Number v → fskCheckRate v = .error .TypeError) ∧ (Number v → (¬ ∃ x, RateIs v x) → fskCheckRate v = .error .ValueError) := by
    intro i hi hN e
    refine ⟨?_, hT, fun h => absurd hN h, ?_⟩
    · intro x
      rw [e, ← hi]
      by_cases h : i ≤ 0
      · rw [if_pos h]; constructor
        · intro h; cases h
        · intro h; omega
      · rw [if_neg h, Except.ok.injEq]; omega
    · intro _ hno
      rw [e, if_pos]
      by_contra h
      exact hno ⟨i.toNat, (hi _).1 (by omega)⟩
  cases v with
  | float q =>
    refine main (truncRat q) ?_ (.inr ⟨q, rfl⟩) rfl
    intro n
    unfold RateIs
    have h1 := truncRat_lt (q := q) (n := n + 1) (by omega)
    have e1 : (((n : Int) + 1 : Int) : Rat) = (n : Rat) + 1 := by push_cast; rfl
    rw [e1] at h1
    constructor
    · rintro ⟨h, hn⟩
      have h0 := truncRat_lt (q := q) (n := n) (by omega)
      refine ⟨hn, .inr ⟨q, rfl, ?_, h1.1 (by omega)⟩⟩
      by_contra hh
      have := h0.2 (by push_cast; linarith)
      omega
    · rintro ⟨hn, h | ⟨q', hq, ha, hb⟩⟩
      · rw [isInt_iff] at h; cases h
      · cases hq
        have h0 := truncRat_lt (q := q) (n := n) (by omega)
        have := h1.2 hb
        refine ⟨?_, hn⟩
        by_contra hh
        have := h0.1 (by omega)
        push_cast at this
        linarith
  | int i => exact main i (by intro n; unfold RateIs; rw [isInt_iff]; simp [PyVal.asInt?]; omega) (.inl ⟨i, .inl rfl⟩) rfl
  | bool b =>
    refine main (if b then 1 else 0) ?_ (.inl (by cases b <;> [exact ⟨0, .inr (.inr ⟨rfl, rfl⟩)⟩; exact ⟨1, .inr (.inl ⟨rfl, rfl⟩)⟩])) rfl
    intro n; unfold RateIs; rw [isInt_iff]; simp [PyVal.asInt?]; omega
  | str s =>
    have hno : ¬ Number (.str s) := by rintro (⟨i, h⟩ | ⟨q, h⟩) <;> [(rw [isInt_iff] at h; cases h); cases h]
    exact ⟨fun x => ⟨(fun h => nomatch h), fun h => absurd (hT ⟨x, h⟩) hno⟩, hT, fun _ => rfl, fun h => absurd h hno⟩
  | other =>
    have hno : ¬ Number .other := by rintro (⟨i, h⟩ | ⟨q, h⟩) <;> [(rw [isInt_iff] at h; cases h); cases h]
    exact ⟨fun x => ⟨(fun h => nomatch h), fun h => absurd (hT ⟨x, h⟩) hno⟩, hT, fun _ => rfl, fun h => absurd h hno⟩

theorem num_iff (v : PyVal) (h : Rat) : (v = .float h ∨ ∃ i : Int, IsInt v i ∧ h = i) ↔ v.asNum? = some h := by
  simp only [isInt_iff]
  cases v with
  | float q => simp [PyVal.asNum?, PyVal.asInt?, eq_comm]
  | int i => simp [PyVal.asNum?, PyVal.asInt?, eq_comm]
  | bool b => simp [PyVal.asNum?, PyVal.asInt?, eq_comm]
  | str s => simp [PyVal.asNum?, PyVal.asInt?]
  | other => simp [PyVal.asNum?, PyVal.asInt?]

theorem number_iff (v : PyVal) : Number v ↔ ∃ h, v.asNum? = some h := by
  unfold Number
  rw [integral_iff]
  cases v <;> simp [PyVal.asNum?, PyVal.asInt?]

theorem index_impl : Implements fskCheckIndex Number IndexIs := by
  intro v
  rw [number_iff]
  unfold IndexIs fskCheckIndex
  simp only [num_iff]
  cases v.asNum? with
  | none => simp
  | some q =>
    by_cases h : 1 / 4 ≤ q ∧ q ≤ 5 / 2
    · simp only [if_pos h, Except.ok.injEq, Option.some.injEq]
      refine ⟨fun x => ⟨?_, fun h => h.2.2⟩, fun _ => ⟨q, rfl⟩, fun h => absurd ⟨q, rfl⟩ h, fun _ hn => absurd ⟨q, h.1, h.2, rfl⟩ hn⟩
      rintro rfl; exact ⟨h.1, h.2, rfl⟩
    · simp only [if_neg h, reduceCtorEq, false_iff, Option.some.injEq]
      refine ⟨?_, fun _ => ⟨q, rfl⟩, fun h => absurd ⟨q, rfl⟩ h, fun _ _ => trivial⟩
      rintro x ⟨h1, h2, rfl⟩; exact h ⟨h1, h2⟩

theorem zeroOne_impl : Implements fskCheck01 Integral ZeroOneIs := by
  intro v
  rw [integral_iff]
  unfold ZeroOneIs fskCheck01
  simp only [isInt_iff]
  cases v.asInt? with
  | none => simp
  | some i =>
    by_cases h : i = 0 ∨ i = 1
    · simp only [if_pos h, Except.ok.injEq, Option.some.injEq]
      refine ⟨fun x => by omega, by simp, by simp, fun _ hn => absurd ⟨i.toNat, by omega, by omega⟩ hn⟩
    · simp only [if_neg h, reduceCtorEq, false_iff, Option.some.injEq]
      refine ⟨fun x => by omega, by simp, by simp, fun _ _ => trivial⟩

theorem preamble_impl : Implements fskCheckPreamble Integral PreambleIs := by
  intro v
  rw [integral_iff]
  unfold PreambleIs fskCheckPreamble
  simp only [isInt_iff]
  cases v.asInt? with
  | none => simp
  | some i =>
    by_cases h : 4 ≤ i ∧ i ≤ 1000
    · simp only [if_pos h, Except.ok.injEq, Option.some.injEq]
      refine ⟨fun x => by omega, by simp, by simp, fun _ hn => absurd ⟨i.toNat, by omega, by omega⟩ hn⟩
    · simp only [if_neg h, reduceCtorEq, false_iff, Option.some.injEq]
      refine ⟨fun x => by omega, by simp, by simp, fun _ _ => trivial⟩

theorem modulation_impl : Implements fskCheckMod Str ModulationIs := by
  intro v
  unfold Str ModulationIs fskCheckMod
  cases v with
  | str s =>
    by_cases h2 : s = "2FSK"
    · subst h2; simp [eq_comm]
    · by_cases h4 : s = "4FSK"
      · subst h4; simp [eq_comm]
      · simp [h2, h4]
  | _ => simp

theorem bool_impl : Implements fskCheckBool Boolean BoolIs := by
  intro v
  unfold Boolean BoolIs fskCheckBool
  cases v <;> simp [PyVal.asBool?]

theorem scramble_impl : Implements fskCheckScramble Integral ScrambleIs := by
  intro v
  rw [integral_iff]
  unfold ScrambleIs fskCheckScramble
  simp only [isInt_iff]
  cases v.asInt? with
  | none => simp
  | some i =>
    simp only [Option.some.injEq, Except.ok.injEq, exists_eq_left']
    refine ⟨fun x => ?_, by simp, by simp, fun _ hn => absurd ⟨i != 0, by simp⟩ hn⟩
    rw [← bne_iff_ne]
    cases x <;> cases (i != 0) <;> simp

/-! ### The constructor -/

/-- Sequencing one checked argument. -/
theorem bind_step {α β} {f : PyVal → Res α} {T : PyVal → Prop} {Is : PyVal → α → Prop} (h : Implements f T Is) (v : PyVal)
    (k : α → Res β) {cs : List Check} {R : α → β → Prop}
    (hk : ∀ x, (∀ p, k x = .ok p ↔ R x p) ∧ (∀ e, k x = .error e ↔ FirstFault cs e)) :
    (∀ p, (f v >>= k) = .ok p ↔ ∃ x, Is v x ∧ R x p) ∧
    (∀ e, (f v >>= k) = .error e ↔ FirstFault (⟨T v, ∃ x, Is v x⟩ :: cs) e) := by
  obtain ⟨h1, h2, h3, h4⟩ := h v
  by_cases ht : T v
  · by_cases hx : ∃ x, Is v x
    · obtain ⟨x, hx'⟩ := hx
      have e := (h1 x).2 hx'
      rw [e]
      change (∀ p, k x = .ok p ↔ _) ∧ (∀ e, k x = .error e ↔ _)
      refine ⟨fun p => ?_, fun er => ?_⟩
      · rw [(hk x).1]
        constructor
        · exact fun r => ⟨x, hx', r⟩
        · rintro ⟨y, hy, r⟩
          have := (h1 y).2 hy
          rw [e] at this
          rw [Except.ok.inj this]; exact r
      · rw [(hk x).2]
        change _ ↔ (_ ∧ _ ∧ FirstFault cs er) ∨ _
        constructor
        · exact fun r => .inl ⟨ht, ⟨x, hx'⟩, r⟩
        · rintro (⟨-, -, r⟩ | ⟨h, -⟩ | ⟨-, h, -⟩)
          · exact r
          · exact absurd ht h
          · exact absurd ⟨x, hx'⟩ h
    · rw [h4 ht hx]
      change (∀ p, (Except.error _ : Res β) = .ok p ↔ _) ∧ (∀ e, (Except.error _ : Res β) = .error e ↔ _)
      refine ⟨fun p => ⟨(fun h => nomatch h), fun ⟨x, h, _⟩ => absurd ⟨x, h⟩ hx⟩, fun e => ?_⟩
      unfold FirstFault
      simp [ht, hx, eq_comm]
  · have hx : ¬ ∃ x, Is v x := fun h => ht (h2 h)
    rw [h3 ht]
    change (∀ p, (Except.error _ : Res β) = .ok p ↔ _) ∧ (∀ e, (Except.error _ : Res β) = .error e ↔ _)
    refine ⟨fun p => ⟨(fun h => nomatch h), fun ⟨x, h, _⟩ => absurd ⟨x, h⟩ hx⟩, fun e => ?_⟩
    unfold FirstFault
    simp [ht, eq_comm]

theorem init_spec (rate index sfd modulation fec scheme fcs scramble il preamble : PyVal) :
    (∀ p, mrFskInit rate index sfd modulation fec scheme fcs scramble il preamble = .ok p ↔
      ∃ r, RateIs rate r ∧ ∃ h, IndexIs index h ∧ ∃ s, ZeroOneIs sfd s ∧ ∃ n, PreambleIs preamble n ∧ ∃ m, ModulationIs modulation m ∧
        ∃ f, BoolIs fec f ∧ ∃ c, ZeroOneIs scheme c ∧ ∃ t, ZeroOneIs fcs t ∧ ∃ w, ScrambleIs scramble w ∧ ∃ i, BoolIs il i ∧
          (⟨r, h, s, m, f, c, t, w, i, n⟩ : FskParams) = p) ∧
    (∀ e, mrFskInit rate index sfd modulation fec scheme fcs scramble il preamble = .error e ↔
      FirstFault (checks rate index sfd modulation fec scheme fcs scramble il preamble) e) := by
  unfold mrFskInit checks
  refine bind_step rate_impl rate _ fun r => ?_
  refine bind_step index_impl index _ fun h => ?_
  refine bind_step zeroOne_impl sfd _ fun s => ?_
  refine bind_step preamble_impl preamble _ fun n => ?_
  refine bind_step modulation_impl modulation _ fun m => ?_
  refine bind_step bool_impl fec _ fun f => ?_
  refine bind_step zeroOne_impl scheme _ fun c => ?_
  refine bind_step zeroOne_impl fcs _ fun t => ?_
  refine bind_step scramble_impl scramble _ fun w => ?_
  refine bind_step bool_impl il _ fun i => ?_
  refine ⟨fun p => ?_, fun e => ?_⟩
  · change (Except.ok _ : Res FskParams) = .ok p ↔ _
    rw [Except.ok.injEq]
  · change (Except.ok _ : Res FskParams) = .error e ↔ False
    simp

/-- **C33 (success).**  The constructor succeeds exactly for a rate that truncates to a positive integer, an index in [1/4, 5/2], SFD,
scheme and FCS type in {0, 1}, a preamble length in 4..1000, a modulation `"2FSK"` or `"4FSK"`, booleans where booleans are expected;
the object stores the values given. -/
theorem C33_accepts (rate index sfd modulation fec scheme fcs scramble il preamble : PyVal) (p : FskParams) :
    mrFskInit rate index sfd modulation fec scheme fcs scramble il preamble = .ok p ↔
      RateIs rate p.symbolRate ∧ IndexIs index p.modIndex ∧ ZeroOneIs sfd p.sfd ∧ ModulationIs modulation p.modulation ∧
      BoolIs fec p.fecEnabled ∧ ZeroOneIs scheme p.fecScheme ∧ ZeroOneIs fcs p.fcsType ∧ ScrambleIs scramble p.scramble ∧
      BoolIs il p.interleaving ∧ PreambleIs preamble p.preambleLength := by
  rw [(init_spec ..).1 p]
  constructor
  · rintro ⟨r, a1, h, a2, s, a3, n, a4, m, a5, f, a6, c, a7, t, a8, w, a9, i, a10, rfl⟩
    exact ⟨a1, a2, a3, a5, a6, a7, a8, a9, a10, a4⟩
  · rintro ⟨a1, a2, a3, a5, a6, a7, a8, a9, a10, a4⟩
    exact ⟨_, a1, _, a2, _, a3, _, a4, _, a5, _, a6, _, a7, _, a8, _, a9, _, a10, rfl⟩

/-- **C33 (exceptions).**  Otherwise the first faulty argument, in the constructor's order, decides: `TypeError` for an unknown type,
`ValueError` for a value out of range; no other exception is possible. -/
theorem C33_errors (rate index sfd modulation fec scheme fcs scramble il preamble : PyVal) (e : PyErr) :
    mrFskInit rate index sfd modulation fec scheme fcs scramble il preamble = .error e ↔
      FirstFault (checks rate index sfd modulation fec scheme fcs scramble il preamble) e :=
  (init_spec ..).2 e

/-- Parameters of a constructed modulator: the ranges every later theorem relies on. -/
theorem C33_ranges (rate index sfd modulation fec scheme fcs scramble il preamble : PyVal) (p : FskParams)
    (h : mrFskInit rate index sfd modulation fec scheme fcs scramble il preamble = .ok p) :
    1 ≤ p.symbolRate ∧ 1 / 4 ≤ p.modIndex ∧ p.modIndex ≤ 5 / 2 ∧ p.sfd ≤ 1 ∧ p.fecScheme ≤ 1 ∧ p.fcsType ≤ 1 ∧
      4 ≤ p.preambleLength ∧ p.preambleLength ≤ 1000 := by
  obtain ⟨a1, a2, a3, -, -, a7, a8, -, -, a4⟩ := (C33_accepts ..).1 h
  exact ⟨a1.1, a2.1, a2.2.1, a3.2, a7.2, a8.2, a4.2.1, a4.2.2⟩

example : mrFskInit (.float (200001 / 2)) (.float (1 / 2)) (.int 0) (.str "4FSK") (.bool true) (.int 1) (.int 0) (.int 3) (.bool true) (.int 4)
    = .ok ⟨100000, 1 / 2, 0, .FSK4, true, 1, 0, true, true, 4⟩ := by decide +kernel
example : mrFskInit (.int 50000) (.int 1) (.int 2) (.int 7) (.bool true) (.int 1) (.int 0) (.int 3) (.bool true) (.int 4)
    = .error .ValueError := by decide +kernel

end SunPhy.C33
