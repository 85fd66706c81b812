import Verif.Model.OfdmCtor
import Verif.Spec.OfdmSupported
import Mathlib.Data.List.Chain
import Mathlib.Tactic.Tauto
/-
C70 — `Ofdm_modulator` validates its arguments.
-/
namespace SunPhy.C70
open SunPhy

/-- Acceptable pilot positions: one or two dimensions, every column in increasing order (repetitions allowed); `rows` pilots per symbol,
columns `sets`. -/
def Positions (idx : IndicesArg) (rows : Nat) (sets : List (List Int)) : Prop :=
  (∃ l, idx = .arr1 l ∧ l.Pairwise (· ≤ ·) ∧ rows = l.length ∧ sets = [l]) ∨
  (idx = .arr2 rows sets ∧ ∀ c ∈ sets, c.Pairwise (· ≤ ·))

/-- Acceptable pilot values for `rows` pilots per symbol. -/
def Values {α : Type} (vals : ValuesArg α) (rows : Nat) (v : PilotValues α) : Prop :=
  (vals = .str "pn9" ∧ v = .pn9) ∨ (∃ l, vals = .arr l ∧ l.length = rows ∧ v = .array l) ∨ (vals = .arr0 ∧ v = .array [])

/-- The arguments describe the stored modulator `s`. -/
structure Describes {α : Type} (N mod pl pr fs : PyVal) (idx : IndicesArg) (vals : ValuesArg α) (ips seed : PyVal) (s : OfdmStored α) : Prop where
  nFFT : N.asInt? = some (s.nFFT : Int) ∧ ∃ k, s.nFFT = 2 ^ k
  modulation : (mod = .str "BPSK" ∧ s.modulation = .BPSK) ∨ (mod = .str "QPSK" ∧ s.modulation = .QPSK) ∨ (mod = .str "QAM16" ∧ s.modulation = .QAM16)
  left : pl.asInt? = some s.paddingLeft
  right : pr.asInt? = some s.paddingRight
  spreading : fs.asInt? = some (s.frequencySpreading : Int) ∧ s.frequencySpreading ∈ [1, 2, 4]
  pilots : (idx = .none ∧ vals = .none ∧ s.pilots = none) ∨
    (∃ p, s.pilots = some p ∧ Positions idx p.nPilots p.sets ∧ Values vals p.nPilots p.values)
  set : ips.asInt? = some s.initialPilotSet
  pn9 : seed.asInt? = some s.initialSeed

theorem nonDecreasing_iff (l : List Int) : nonDecreasing l = true ↔ l.Pairwise (· ≤ ·) := by
  rw [← List.isChain_iff_pairwise]
  induction l with
  | nil => simp [nonDecreasing]
  | cons a l ih =>
    cases l with
    | nil => simp [nonDecreasing]
    | cons b l => simp only [nonDecreasing, Bool.and_eq_true, decide_eq_true_eq, List.isChain_cons_cons]; rw [ih]

theorem isPowerOfTwo_iff (n : Int) : isPowerOfTwo n = true ↔ ∃ k : Nat, n = ((2 ^ k : Nat) : Int) := by
  unfold isPowerOfTwo
  rw [decide_eq_true_eq]
  constructor
  · rintro ⟨-, h⟩; exact ⟨_, by rw [← h]; push_cast; rfl⟩
  · rintro ⟨k, rfl⟩
    refine ⟨by exact_mod_cast Nat.two_pow_pos k, ?_⟩
    rw [Int.toNat_natCast, Nat.log2_two_pow]; push_cast; rfl

theorem bind_ok {α β : Type} {x : Res α} {f : α → Res β} {b : β} : x.bind f = .ok b ↔ ∃ a, x = .ok a ∧ f a = .ok b := by
  cases x <;> simp [Except.bind]

theorem int_ok {v : PyVal} {i : Int} : ofdmCheckInt v = .ok i ↔ v.asInt? = some i := by
  unfold ofdmCheckInt; cases v.asInt? <;> simp

theorem str_ok {v : PyVal} {s : String} : ofdmCheckStr v = .ok s ↔ v = .str s := by
  cases v <;> simp [ofdmCheckStr]

theorem mod_ok {s : String} {k : ModKind} : getModulator s = .ok k ↔
    (s = "BPSK" ∧ k = .BPSK) ∨ (s = "QPSK" ∧ k = .QPSK) ∨ (s = "QAM16" ∧ k = .QAM16) := by
  unfold getModulator
  by_cases h1 : s = "BPSK"
  · subst h1; simp [eq_comm]
  · by_cases h2 : s = "QPSK"
    · subst h2; simp [eq_comm]
    · by_cases h3 : s = "QAM16"
      · subst h3; simp [eq_comm]
      · simp [h1, h2, h3]

/-- Positions and values checked one after the other. -/
def posRes : IndicesArg → Res (Nat × List (List Int))
  | .arr1 l => if nonDecreasing l then .ok (l.length, [l]) else .error .ValueError
  | .arr2 r cols => if cols.all nonDecreasing then .ok (r, cols) else .error .ValueError
  | _ => .error .ValueError

def valRes {α : Type} : ValuesArg α → Nat → Res (PilotValues α)
  | .str s, _ => if s = "pn9" then .ok .pn9 else .error .AttributeError
  | .arr v, n => if v.length ≠ n then .error .ValueError else .ok (.array v)
  | .arr0, _ => .ok (.array [])
  | _, _ => .error .ValueError

theorem check_eq {α : Type} (idx : IndicesArg) (vals : ValuesArg α) (hv : vals ≠ .none) :
    ofdmCheckPilots idx vals = (posRes idx).bind fun rs => (valRes vals rs.1).bind fun v => .ok (some ⟨rs.2, rs.1, v⟩) := by
  cases vals with
  | none => exact absurd rfl hv
  | other =>
    cases idx with
    | arr1 l => simp only [ofdmCheckPilots, posRes, bind, Except.bind, pure, Except.pure, valRes]; split <;> rfl
    | arr2 r c => simp only [ofdmCheckPilots, posRes, bind, Except.bind, pure, Except.pure, valRes]; split <;> rfl
    | _ => rfl
  | str s =>
    cases idx with
    | arr1 l => simp only [ofdmCheckPilots, posRes, bind, Except.bind, pure, Except.pure, valRes]; split <;> simp only <;> split <;> rfl
    | arr2 r c => simp only [ofdmCheckPilots, posRes, bind, Except.bind, pure, Except.pure, valRes]; split <;> simp only <;> split <;> rfl
    | _ => rfl
  | arr v =>
    cases idx with
    | arr1 l => simp only [ofdmCheckPilots, posRes, bind, Except.bind, pure, Except.pure, valRes]; split <;> simp only <;> split <;> rfl
    | arr2 r c => simp only [ofdmCheckPilots, posRes, bind, Except.bind, pure, Except.pure, valRes]; split <;> simp only <;> split <;> rfl
    | _ => rfl
  | arr0 =>
    cases idx with
    | arr1 l => simp only [ofdmCheckPilots, posRes, bind, Except.bind, pure, Except.pure, valRes]; split <;> rfl
    | arr2 r c => simp only [ofdmCheckPilots, posRes, bind, Except.bind, pure, Except.pure, valRes]; split <;> rfl
    | _ => rfl

theorem pos_ok {idx : IndicesArg} {r : Nat} {sets : List (List Int)} : posRes idx = .ok (r, sets) ↔ Positions idx r sets := by
  have all_iff : ∀ cols : List (List Int), cols.all nonDecreasing = true ↔ ∀ c ∈ cols, c.Pairwise (· ≤ ·) := by
    intro cols; rw [List.all_eq_true]; simp only [nonDecreasing_iff]
  unfold Positions
  cases idx with
  | arr1 l =>
    simp only [posRes, nonDecreasing_iff]
    by_cases h : l.Pairwise (· ≤ ·)
    · rw [if_pos h]
      constructor
      · intro e; have := Except.ok.inj e; rw [Prod.mk.injEq] at this; exact Or.inl ⟨l, rfl, h, this.1.symm, this.2.symm⟩
      · rintro (⟨l', e, -, h1, h2⟩ | ⟨e, -⟩)
        · cases e; rw [h1, h2]
        · cases e
    · rw [if_neg h]
      constructor
      · intro e; cases e
      · rintro (⟨l', e, h', -⟩ | ⟨e, -⟩)
        · cases e; exact absurd h' h
        · cases e
  | arr2 r' cols =>
    simp only [posRes, all_iff]
    by_cases h : ∀ c ∈ cols, c.Pairwise (· ≤ ·)
    · rw [if_pos h]
      constructor
      · intro e; have := Except.ok.inj e; rw [Prod.mk.injEq] at this; obtain ⟨rfl, rfl⟩ := this; exact Or.inr ⟨rfl, h⟩
      · rintro (⟨l', e, -⟩ | ⟨e, -⟩)
        · cases e
        · cases e; rfl
    · rw [if_neg h]
      constructor
      · intro e; cases e
      · rintro (⟨l', e, -⟩ | ⟨e, h'⟩)
        · cases e
        · cases e; exact absurd h' h
  | _ => simp [posRes]

theorem val_ok {α : Type} {vals : ValuesArg α} {n : Nat} {v : PilotValues α} : valRes vals n = .ok v ↔ Values vals n v := by
  unfold Values
  cases vals with
  | str s => by_cases h : s = "pn9" <;> simp [valRes, h, eq_comm]
  | arr l =>
    by_cases h : l.length = n
    · simp [valRes, h, eq_comm]
    · simp [valRes, h]
  | arr0 => simp [valRes, eq_comm]
  | _ => simp [valRes]

theorem val_error {α : Type} {vals : ValuesArg α} {n : Nat} {e : PyErr} (h : valRes vals n = .error e) :
    e = .ValueError ∨ (e = .AttributeError ∧ ∃ s, vals = .str s ∧ s ≠ "pn9") := by
  cases vals with
  | str s => by_cases hs : s = "pn9" <;> simp [valRes, hs] at h ⊢; exact Or.inr h.symm
  | arr l => by_cases hs : l.length = n <;> simp [valRes, hs] at h ⊢; exact h.symm
  | arr0 => simp [valRes] at h
  | _ => simp [valRes] at h ⊢; exact h.symm

theorem pos_error {idx : IndicesArg} {e : PyErr} (h : posRes idx = .error e) : e = .ValueError := by
  cases idx with
  | arr1 l => simp only [posRes] at h; split at h <;> cases h; rfl
  | arr2 r l => simp only [posRes] at h; split at h <;> cases h; rfl
  | _ => cases h; rfl

theorem pilots_ok {α : Type} {idx : IndicesArg} {vals : ValuesArg α} {o : Option (Pilots α)} :
    (ofdmCheckBoth idx vals = .ok () ∧ ofdmCheckPilots idx vals = .ok o) ↔
      ((idx = .none ∧ vals = .none ∧ o = none) ∨
        (∃ p, o = some p ∧ Positions idx p.nPilots p.sets ∧ Values vals p.nPilots p.values)) := by
  by_cases hv : vals = .none
  · subst hv
    cases idx <;> simp [ofdmCheckBoth, ofdmCheckPilots, Positions, Values, eq_comm]
  · rw [check_eq idx vals hv, bind_ok]
    simp only [hv, false_and, and_false, false_or, bind_ok]
    constructor
    · rintro ⟨-, ⟨r, sets⟩, hp, v, hvl, e⟩
      exact ⟨_, (Except.ok.inj e).symm, pos_ok.1 hp, val_ok.1 hvl⟩
    · rintro ⟨⟨sets, r, v⟩, rfl, hp, hvl⟩
      refine ⟨?_, (r, sets), pos_ok.2 hp, v, val_ok.2 hvl, rfl⟩
      rcases hp with ⟨l, rfl, -⟩ | ⟨rfl, -⟩ <;> cases vals <;> first | rfl | exact absurd rfl hv

theorem pilots_error {α : Type} {idx : IndicesArg} {vals : ValuesArg α} {e : PyErr} (h : ofdmCheckPilots idx vals = .error e) :
    e = .ValueError ∨ (e = .AttributeError ∧ ∃ s, vals = .str s ∧ s ≠ "pn9") := by
  by_cases hv : vals = .none
  · subst hv; simp [ofdmCheckPilots] at h
  · rw [check_eq idx vals hv] at h
    cases hp : posRes idx with
    | error e' => rw [hp] at h; simp only [Except.bind] at h; cases h; exact Or.inl (pos_error hp)
    | ok rs =>
      rw [hp] at h; simp only [Except.bind] at h
      cases hvl : valRes vals rs.1 with
      | error e' => rw [hvl] at h; cases h; exact val_error hvl
      | ok v => rw [hvl] at h; cases h

theorem guard_ok {c : Bool} {u : Unit} : ofdmRequire c = .ok u ↔ c = true := by
  cases c <;> simp [ofdmRequire]

/-- **C70 (acceptance).**  The constructor succeeds exactly when `N_FFT` is a power of two, the modulation is one of the three names, the
paddings, the initial pilot set and the seed are integers, the spreading factor is 1, 2 or 4 and either no pilots are given or both the
positions (one or two dimensions, sorted columns) and the values (`"pn9"` or as many as there are pilots in a symbol) are acceptable; the
object then holds exactly these arguments. -/
theorem C70_accepts {α : Type} (N mod pl pr fs : PyVal) (idx : IndicesArg) (vals : ValuesArg α) (ips seed : PyVal) (s : OfdmStored α) :
    ofdmInit N mod pl pr fs idx vals ips seed = .ok s ↔ Describes N mod pl pr fs idx vals ips seed s := by
  unfold ofdmInit
  simp only [bind, bind_ok, guard_ok, int_ok, str_ok, isPowerOfTwo_iff, decide_eq_true_eq]
  constructor
  · rintro ⟨n, hN, -, ⟨k, rfl⟩, m, hm, l, hl, r, hr, ⟨⟩, hb, f, hf, -, hf3, i, hi, sd, hsd, p, hp, md, hmd, e⟩
    have e := Except.ok.inj e
    subst e
    refine ⟨⟨by rw [hN, Int.toNat_natCast], k, by rw [Int.toNat_natCast]⟩, ?_, hl, hr, ⟨?_, ?_⟩, pilots_ok.1 ⟨hb, hp⟩, hi, hsd⟩
    · rcases mod_ok.1 hmd with ⟨h1, h2⟩ | ⟨h1, h2⟩ | ⟨h1, h2⟩ <;> rw [hm, h1] <;> simp [h2]
    · rcases hf3 with rfl | rfl | rfl <;> exact hf
    · rcases hf3 with rfl | rfl | rfl <;> simp
  · rintro ⟨⟨hN, k, hk⟩, hm, hl, hr, ⟨hf, hf3⟩, hp, hi, hsd⟩
    obtain ⟨hb, hp⟩ := pilots_ok.2 hp
    have hm' : ∃ t, mod = .str t ∧ getModulator t = .ok s.modulation := by
      rcases hm with ⟨rfl, h⟩ | ⟨rfl, h⟩ | ⟨rfl, h⟩ <;> exact ⟨_, rfl, by rw [h]; decide⟩
    obtain ⟨t, ht, hmd⟩ := hm'
    refine ⟨s.nFFT, hN, (), ⟨k, by rw [hk]⟩, t, ht, _, hl, _, hr, (), hb, _, hf, (), ?_, _, hi, _, hsd, _, hp, _, hmd, ?_⟩
    · simp only [List.mem_cons, List.not_mem_nil, or_false] at hf3
      rcases hf3 with h | h | h <;> rw [h] <;> decide
    · simp only [pure, Except.pure, Int.toNat_natCast]

theorem bind_error {α β : Type} {x : Res α} {f : α → Res β} {e : PyErr} : x.bind f = .error e ↔ x = .error e ∨ ∃ a, x = .ok a ∧ f a = .error e := by
  cases x <;> simp [Except.bind]

theorem int_error {v : PyVal} {e : PyErr} (h : ofdmCheckInt v = .error e) : e = .ValueError := by
  unfold ofdmCheckInt at h; cases hv : v.asInt? <;> rw [hv] at h <;> cases h; rfl

theorem guard_error {c : Bool} {e : PyErr} (h : ofdmRequire c = .error e) : e = .ValueError := by
  cases c <;> simp [ofdmRequire] at h; exact h.symm

/-- **C70 (errors).**  Everything else raises `ValueError`, except a string other than `"pn9"` given as pilot values, which can surface as
`AttributeError`. -/
theorem C70_errors {α : Type} (N mod pl pr fs : PyVal) (idx : IndicesArg) (vals : ValuesArg α) (ips seed : PyVal) (e : PyErr)
    (h : ofdmInit N mod pl pr fs idx vals ips seed = .error e) :
    e = .ValueError ∨ (e = .AttributeError ∧ ∃ s, vals = .str s ∧ s ≠ "pn9") := by
  unfold ofdmInit at h
  simp only [bind, bind_error] at h
  rcases h with h | ⟨_, -, h | ⟨_, -, h | ⟨_, -, h | ⟨_, -, h | ⟨_, -, h | ⟨_, -, h | ⟨_, -, h | ⟨_, -, h | ⟨_, -, h | ⟨_, -, h | ⟨_, -, h | ⟨_, -, h⟩⟩⟩⟩⟩⟩⟩⟩⟩⟩⟩⟩
  · exact Or.inl (int_error h)
  · exact Or.inl (guard_error h)
  · left; cases mod <;> simp [ofdmCheckStr] at h <;> exact h.symm
  · exact Or.inl (int_error h)
  · exact Or.inl (int_error h)
  · left; cases idx <;> cases vals <;> simp [ofdmCheckBoth] at h <;> exact h.symm
  · exact Or.inl (int_error h)
  · exact Or.inl (guard_error h)
  · exact Or.inl (int_error h)
  · exact Or.inl (int_error h)
  · exact pilots_error h
  · left
    rename_i m _
    unfold getModulator at h
    split at h
    · cases h
    · split at h
      · cases h
      · split at h <;> cases h; rfl
  · cases h

/-- The name of the modulation of an MCS, as in the table of the program. -/
def modName : ModKind → String
  | .BPSK => "BPSK" | .QPSK => "QPSK" | .QAM16 => "QAM16"

/-- **C70 (MR-OFDM).**  The arguments with which every supported MR-OFDM modulator builds its header and payload OFDM modulators - FFT size,
modulation of the MCS, `padding` and `padding - 1` guard tones, spreading, the pilot table of the option, `"pn9"` - are accepted, whatever
non-negative pilot set and seed are carried over, and give the modulator used in the frames. -/
theorem C70_mr_ofdm (p : OfdmParams) (h : Spec.Supported p) (MCS : Nat) (hM : MCS = p.mcs ∨ MCS = lowestMcs p.option) (α : Type) (i sd : Nat) :
    ∃ s : OfdmStored α, ofdmInit (.int (fftSize p.option)) (.str (modName (mcsModulation MCS)))
      (.int (((fftSize p.option : Int) - activeTones p.option) / 2)) (.int (((fftSize p.option : Int) - activeTones p.option) / 2 - 1))
      (.int (freqSpreading MCS)) (.arr2 (((pilotsIndices p.option)[0]?).getD []).length (pilotsIndices p.option)) (.str "pn9")
      (.int i) (.int sd) = .ok s ∧ s.cfg = p.ofdmCfg MCS α ∧ s.initialPilotSet = i ∧ s.initialSeed = sd := by
  have hf : ∀ p ∈ Spec.allSupported, (fftSize p.option = 2 ^ Nat.log2 (fftSize p.option)) ∧
      ((fftSize p.option : Int) - activeTones p.option) / 2 = (p.guard : Int) ∧ ((p.guard - 1 : Nat) : Int) = (p.guard : Int) - 1 ∧
      (freqSpreading p.mcs ∈ [1, 2, 4]) ∧ (freqSpreading (lowestMcs p.option) ∈ [1, 2, 4]) ∧
      ((pilotsIndices p.option).all nonDecreasing = true) := by decide +kernel
  obtain ⟨h1, h2, h3, h4, h4', h5⟩ := hf p (Spec.mem_allSupported h)
  have hsp : freqSpreading MCS ∈ [1, 2, 4] := by rcases hM with rfl | rfl <;> assumption
  refine ⟨⟨fftSize p.option, mcsModulation MCS, p.guard, p.guard - 1, freqSpreading MCS,
    some ⟨pilotsIndices p.option, (((pilotsIndices p.option)[0]?).getD []).length, .pn9⟩, i, sd⟩, ?_, ?_, rfl, rfl⟩
  · rw [C70_accepts]
    refine ⟨⟨rfl, _, h1⟩, ?_, by rw [h2]; rfl, by rw [h2]; rfl, ⟨rfl, hsp⟩, Or.inr ⟨_, rfl, Or.inr ⟨rfl, ?_⟩, Or.inl ⟨rfl, rfl⟩⟩, rfl, rfl⟩
    · cases mcsModulation MCS <;> simp [modName]
    · intro c hc
      exact (nonDecreasing_iff c).1 (List.all_eq_true.1 h5 c hc)
  · unfold OfdmStored.cfg OfdmParams.ofdmCfg
    simp only [Int.toNat_natCast]
    congr 1
    omega

/-! Non-vacuity: an accepted call and three refused ones. -/
example : ∃ s : OfdmStored Unit, ofdmInit (.int 16) (.str "QPSK") (.int 1) (.int 0) (.int 2) (.arr1 [-7, 7]) (.str "pn9") (.int 0) (.int 5) = .ok s :=
  ⟨_, rfl⟩
example : (ofdmInit (α := Unit) (.int 17) (.str "QPSK") (.int 1) (.int 0) (.int 2) .none .none (.int 0) (.int 5)).map (fun s => s.nFFT) = .error .ValueError := by
  decide
example : (ofdmInit (α := Unit) (.int 16) (.str "QPSK") (.int 1) (.int 0) (.int 2) (.arr1 [7, -7]) (.str "pn9") (.int 0) (.int 5)).map (fun s => s.nFFT) =
    .error .ValueError := by decide
example : (ofdmInit (α := Unit) (.int 16) (.str "QPSK") (.int 1) (.int 0) (.int 2) (.arr1 [-7, 7]) (.str "PN9") (.int 0) (.int 5)).map (fun s => s.nFFT) =
    .error .AttributeError := by decide

end SunPhy.C70
