import Verif.Proofs.OfdmFullRun
import Verif.Props.C70
import Verif.Props.C93
import Mathlib.Tactic.FinCases
/-
C103 — `Ofdm_modulator.bitsToIQ` for every constructed modulator and every argument.
-/
namespace SunPhy.C103
open SunPhy Spec

set_option linter.unusedSectionVars false

/-- Two-dimensional pilot positions: every column has the number of rows. -/
def Rectangular : IndicesArg → Prop
  | .arr2 r cols => ∀ c ∈ cols, c.length = r
  | _ => True

/-- **C103 (constructed modulators).**  Whatever arguments the constructor accepts, the object is `Built`. -/
theorem C103_built {α : Type} (N mod pl pr fs : PyVal) (idx : IndicesArg) (vals : ValuesArg α) (ips seed : PyVal) (hrect : Rectangular idx)
    (s : OfdmStored α) (h : ofdmInit N mod pl pr fs idx vals ips seed = .ok s) : Built s := by
  have d := (C70.C70_accepts N mod pl pr fs idx vals ips seed s).1 h
  refine ⟨d.nFFT.2, by simpa using d.spreading.2, ?_, ?_⟩
  · intro p hp ps hps
    rcases d.pilots with ⟨-, -, h3⟩ | ⟨p', h1, h2, -⟩
    · rw [hp] at h3; cases h3
    · rw [hp] at h1; cases h1
      rcases h2 with ⟨l, -, -, h4, h5⟩ | ⟨h4, -⟩
      · rw [h5] at hps
        rw [List.mem_singleton] at hps
        rw [hps, h4]
      · rw [h4] at hrect; exact hrect ps hps
  · intro p v hp hv
    rcases d.pilots with ⟨-, -, h3⟩ | ⟨p', h1, -, h2⟩
    · rw [hp] at h3; cases h3
    · rw [hp] at h1; cases h1
      rcases h2 with ⟨-, h4⟩ | ⟨l, -, h4, h5⟩ | ⟨-, h4⟩
      · rw [hv] at h4; cases h4
      · rw [hv] at h5; cases h5; exact Or.inl h4
      · rw [hv] at h4; cases h4; exact Or.inr rfl

section
variable {α : Type} [Mul α] [Zero α]

/-- **C103 (accepted calls, frequency domain).** -/
theorem C103_accepts_symbols (nb : Numbers α) (o : OfdmRun α) (hw : Built o.stored) (shape : List Nat) (data : List ℚ) (pad : Bool) :
    (∃ cols, ((OfdmRun.subcarriers nb (.arr shape data) pad).call o).1 = .ok cols) ↔ Ready o shape data pad := by
  constructor
  · rintro ⟨cols, hc⟩
    by_cases h1 : (shape.filter (· ≠ 1)).length = 1
    · obtain ⟨e1, e2⟩ := subcarriers_front_error nb o (data := data) (pad := pad) h1
      by_cases h2 : 0 < o.stored.splitLength
      · by_cases h3 : pad = true ∨ data.length % o.stored.splitLength.toNat = 0
        · cases h4 : pointRows o.stored.modulation o.stored.splitLength.toNat with
          | none => rw [e2 h2 h3 h4] at hc; cases hc
          | some R =>
            obtain ⟨P, e, r, c, -⟩ := subcarriers_front nb o hw h1 h2 h3 h4
            rw [e] at hc
            obtain ⟨g1, g2, g3⟩ := (addPilots_ok_iff o hw _ P).1 ⟨cols, hc⟩
            rw [r, c] at g2
            rw [c] at g3
            exact ⟨h1, h2, h3, g1, ⟨R, h4, g2⟩, g3⟩
        · rw [e1 (Or.inr ⟨by simpa using fun h => h3 (Or.inl h), fun h => h3 (Or.inr h)⟩)] at hc; cases hc
      · rw [e1 (Or.inl (by omega))] at hc; cases hc
    · rw [subcarriers_squeeze_error nb o (fun s d h => by cases h; exact h1)] at hc; cases hc
  · intro r
    obtain ⟨R, h4, h5⟩ := r.fits
    obtain ⟨P, e, r1, c1, -⟩ := subcarriers_front nb o hw r.oneAxis r.split r.size h4
    rw [e]
    exact (addPilots_ok_iff o hw _ P).2 ⟨r.band, by rw [r1, c1]; exact h5, by rw [c1]; exact r.pilots⟩

end

open Complex in
theorem bitsToIQ_eq (f : ℝ) (CP : ℚ) (a : BitsArg) (pad : Bool) (o : OfdmRun ℂ) :
    (OfdmRun.bitsToIQ f CP a pad).call o =
      (((OfdmRun.subcarriers (complexNumbers f) a pad).call o).1.map fun cols => cols.flatMap fun col => cyclicPrefix CP (ofdmIfft col),
        ((OfdmRun.subcarriers (complexNumbers f) a pad).call o).2) := by
  unfold OfdmRun.bitsToIQ PyM.call
  rw [ExceptT.run_bind]
  show (StateT.bind _ _ o : _) = _
  unfold StateT.bind
  cases h : (ExceptT.run (OfdmRun.subcarriers (complexNumbers f) a pad)) o with
  | mk r o' =>
    cases r with
    | error e => rfl
    | ok x => rfl

theorem ofdmBitsToIQ_eq (c : OfdmCfg ℂ) (f : ℝ) (CP : ℚ) (bits : Bits) (pad : Bool) (st : OfdmState) :
    (ofdmBitsToIQ c f CP bits pad).call st =
      (((ofdmSubcarriers c (complexNumbers f) bits pad).call st).1.map fun cols => cols.flatMap fun col => cyclicPrefix CP (ofdmIfft col),
        ((ofdmSubcarriers c (complexNumbers f) bits pad).call st).2) := by
  unfold ofdmBitsToIQ PyM.call
  rw [ExceptT.run_bind]
  show (StateT.bind _ _ st : _) = _
  unfold StateT.bind
  cases h : (ExceptT.run (ofdmSubcarriers c (complexNumbers f) bits pad)) st with
  | mk r o' =>
    cases r with
    | error e => rfl
    | ok x => rfl

/-- **C103 (accepted calls).**  For every constructed modulator in any state, a call with an array succeeds exactly when it is `Ready`; a call
with anything else is refused.  Neither the modulation factor nor the cyclic prefix matters. -/
theorem C103_accepts (f : ℝ) (CP : ℚ) (o : OfdmRun ℂ) (hw : Built o.stored) (pad : Bool) :
    (∀ shape data, (∃ iq, ((OfdmRun.bitsToIQ f CP (.arr shape data) pad).call o).1 = .ok iq) ↔ Ready o shape data pad) ∧
    (OfdmRun.bitsToIQ f CP .notArray pad).call o = (.error .ValueError, o) := by
  refine ⟨fun shape data => ?_, rfl⟩
  rw [← C103_accepts_symbols (complexNumbers f) o hw shape data pad, bitsToIQ_eq]
  cases ((OfdmRun.subcarriers (complexNumbers f) (.arr shape data) pad).call o).1 with
  | error e => simp [Except.map]
  | ok x => simp [Except.map]

/-- **C103 (default).**  A call that does not mention `pad` is one without padding. -/
theorem C103_default (f : ℝ) (CP : ℚ) (o : OfdmRun ℂ) (hw : Built o.stored) (shape : List Nat) (data : List ℚ) :
    ((∃ iq, ((OfdmRun.bitsToIQ f CP (.arr shape data)).call o).1 = .ok iq) ↔ Ready o shape data false) ∧
    ((∃ cols, ((OfdmRun.subcarriers (complexNumbers f) (.arr shape data)).call o).1 = .ok cols) ↔ Ready o shape data false) :=
  ⟨(C103_accepts f CP o hw false).1 shape data, C103_accepts_symbols (complexNumbers f) o hw shape data false⟩

/-! ### Refused calls -/

section
variable {α : Type} [Mul α] [Zero α]

theorem insertI_err (N : Nat) (pv : Int → α) (vals : PilotValues α) (ps : List Int) : ∀ (s : PilotLoopI α) e g, insertPilotsI N pv vals s ps = (.error e, g) →
    e = .ValueError ∨ e = .IndexError := by
  induction ps with
  | nil => intro s e g h; unfold insertPilotsI at h; cases h
  | cons p ps ih =>
    intro s e g h
    unfold insertPilotsI at h
    cases hi : insertPilotI N pv vals s p with
    | mk r g' =>
      rw [hi] at h
      cases r with
      | ok s' => exact ih s' e g h
      | error e' =>
        simp only at h
        have h := (Prod.mk.inj h).1
        cases h
        unfold insertPilotI at hi
        simp only at hi
        split at hi
        · cases hi; exact Or.inr rfl
        · split at hi
          · cases hi; exact Or.inr rfl
          · split at hi
            · cases hi
            · cases hi; exact Or.inl rfl

theorem placeData_err {N : Nat} {ch : List α} {av : List Int} {col : List α} {e : PyErr} (h : placeData N ch av col = .error e) : e = .ValueError := by
  unfold placeData at h
  simp only at h
  split at h
  · cases h
  · split at h
    · cases h
    · cases h; rfl

theorem symbolsI_err (N : Nat) (pv : Int → α) (pl : Pilots α) (av : List Int) (cols : List (List α)) : ∀ vi idx g e r, addPilotsSymbolsI N pv pl av vi idx g cols = (.error e, r) →
    e = .ValueError ∨ e = .IndexError := by
  induction cols with
  | nil => intro vi idx g e r h; unfold addPilotsSymbolsI at h; cases h
  | cons c cs ih =>
    intro vi idx g e r h
    unfold addPilotsSymbolsI at h
    cases hs : addPilotsSymbolI N pv pl av vi idx g c with
    | mk r1 s1 =>
      rw [hs] at h
      cases r1 with
      | error e' =>
        simp only at h
        have h := (Prod.mk.inj h).1
        cases h
        unfold addPilotsSymbolI at hs
        split at hs
        · cases hs; exact Or.inr rfl
        · split at hs
          · rename_i hi
            have := (Prod.mk.inj hs).1
            cases this
            exact insertI_err N pv pl.values _ _ _ _ hi
          · rename_i s2 g2 _
            simp only at hs
            cases hp : placeData N s2.channels s2.available c with
            | error e3 =>
              rw [hp] at hs
              have := (Prod.mk.inj hs).1
              cases this
              exact Or.inl (placeData_err hp)
            | ok ch => rw [hp] at hs; cases (Prod.mk.inj hs).1
      | ok v =>
        obtain ⟨ch, vi'⟩ := v
        simp only at h
        cases hr : addPilotsSymbolsI N pv pl av vi' s1.1 s1.2 cs with
        | mk r2 s2 =>
          rw [hr] at h
          cases r2 with
          | error e2 =>
            have := (Prod.mk.inj h).1
            cases this
            exact ih _ _ _ _ _ hr
          | ok x => cases h

theorem mapM_err {β γ : Type} (f : β → Res γ) (E : PyErr) (hf : ∀ x e, f x = .error e → e = E) (l : List β) : ∀ e, l.mapM f = .error e → e = E := by
  induction l with
  | nil => intro e h; cases h
  | cons a l ih =>
    intro e h
    rw [List.mapM_cons] at h
    simp only [bind, Except.bind, pure, Except.pure] at h
    cases ha : f a with
    | error e' => rw [ha] at h; cases h; exact hf a _ ha
    | ok y =>
      rw [ha] at h
      simp only at h
      cases hl : l.mapM f with
      | error e' => rw [hl] at h; cases h; exact ih _ hl
      | ok r => rw [hl] at h; cases h

theorem addPilots_err (o : OfdmRun α) (pv : Int → α) (P : Mat α) (e : PyErr) (o' : OfdmRun α) (h : o.addPilots pv P = (.error e, o')) :
    e = .ValueError ∧ (o' = o ∨ HasPilots o.stored) ∨ e = .IndexError ∧ HasPilots o.stored := by
  unfold OfdmRun.addPilots at h
  have hav : ∀ e, ofdmAvailable o.stored.nFFT o.stored.paddingLeft o.stored.paddingRight = .error e → e = .ValueError := by
    intro e h
    unfold ofdmAvailable at h
    extract_lets lo hi l1 l2 l3 at h
    by_cases hz : (0 : Int) ∈ l3
    · rw [if_pos hz] at h; cases h
    · rw [if_neg hz] at h; exact (Except.error.inj h).symm
  split at h
  · rename_i he
    obtain ⟨h1, h2⟩ := Prod.mk.inj h
    cases h1
    exact Or.inl ⟨hav _ he, Or.inl h2.symm⟩
  · rename_i av _
    have plain : ∀ e, (if P.rows = av.length ∨ P.rows = 1 then P.columns.mapM (placeData o.stored.nFFT (List.replicate o.stored.nFFT 0) av) else .error .ValueError : Res (List (List α))) = .error e → e = .ValueError := by
      intro e h
      split at h
      · exact mapM_err _ .ValueError (fun x e h => placeData_err h) _ e h
      · cases h; rfl
    simp only at h
    cases hp : o.stored.pilots with
    | none =>
      rw [hp] at h
      simp only at h
      obtain ⟨h1, h2⟩ := Prod.mk.inj h
      exact Or.inl ⟨plain e h1, Or.inl h2.symm⟩
    | some pl =>
      rw [hp] at h
      simp only at h
      split at h
      · rename_i h0
        have hs : HasPilots o.stored := ⟨pl, hp, h0⟩
        cases hr : addPilotsSymbolsI o.stored.nFFT pv pl av 0 o.columnIndex o.pn9 P.columns with
        | mk r s =>
          rw [hr] at h
          obtain ⟨h1, h2⟩ := Prod.mk.inj h
          simp only at h1
          subst h1
          rcases symbolsI_err _ _ _ _ _ _ _ _ _ _ hr with h | h
          · exact Or.inl ⟨h, Or.inr hs⟩
          · exact Or.inr ⟨h, hs⟩
      · obtain ⟨h1, h2⟩ := Prod.mk.inj h
        exact Or.inl ⟨plain e h1, Or.inl h2.symm⟩

/-- **C103 (refused calls).**  A refused call raises `ZeroDivisionError` exactly when a 1-D array is to be padded and a symbol holds no bits,
`AssertionError` exactly when the sizes agree but an odd number of values per symbol meets QPSK, `IndexError` only on modulators with
pilots, and `ValueError` otherwise.  Without pilots a refused call changes nothing. -/
theorem C103_refused (nb : Numbers α) (o o' : OfdmRun α) (hw : Built o.stored) (shape : List Nat) (data : List ℚ) (pad : Bool) (e : PyErr)
    (h : (OfdmRun.subcarriers nb (.arr shape data) pad).call o = (.error e, o')) :
    (e = .ZeroDivisionError ↔ (shape.filter (· ≠ 1)).length = 1 ∧ pad = true ∧ o.stored.splitLength = 0) ∧
    (e = .AssertionError ↔ (shape.filter (· ≠ 1)).length = 1 ∧ 0 < o.stored.splitLength ∧ (pad = true ∨ data.length % o.stored.splitLength.toNat = 0) ∧
      o.stored.modulation = .QPSK ∧ o.stored.splitLength.toNat % 2 = 1) ∧
    (e = .IndexError → HasPilots o.stored) ∧
    (e = .ZeroDivisionError ∨ e = .AssertionError ∨ e = .IndexError ∨ e = .ValueError) ∧
    (¬ HasPilots o.stored → o' = o) := by
  by_cases h1 : (shape.filter (· ≠ 1)).length = 1
  · obtain ⟨e1, e2⟩ := subcarriers_front_error nb o (data := data) (pad := pad) h1
    by_cases h2 : 0 < o.stored.splitLength
    · by_cases h3 : pad = true ∨ data.length % o.stored.splitLength.toNat = 0
      · cases h4 : pointRows o.stored.modulation o.stored.splitLength.toNat with
        | none =>
          rw [e2 h2 h3 h4] at h
          obtain ⟨g1, g2⟩ := Prod.mk.inj h
          have g1 := Except.error.inj g1
          have hodd : o.stored.modulation = .QPSK → o.stored.splitLength.toNat % 2 = 1 := by
            intro hq
            rw [hq] at h4
            simp only [pointRows] at h4
            split at h4
            · cases h4
            · omega
          split at g1
          · rename_i hq
            subst g1
            exact ⟨⟨(by intro h; cases h), fun ⟨_, _, h⟩ => by omega⟩, ⟨fun _ => ⟨h1, h2, h3, hq, hodd hq⟩, fun _ => rfl⟩, (by intro h; cases h), by simp, fun _ => g2.symm⟩
          · rename_i hq
            subst g1
            exact ⟨⟨(by intro h; cases h), fun ⟨_, _, h⟩ => by omega⟩, ⟨(by intro h; cases h), fun ⟨_, _, _, h, _⟩ => absurd h hq⟩, (by intro h; cases h), by simp, fun _ => g2.symm⟩
        | some R =>
          obtain ⟨P, e', -, -, -⟩ := subcarriers_front nb o hw h1 h2 h3 h4
          rw [e'] at h
          have hno : ¬ (o.stored.modulation = .QPSK ∧ o.stored.splitLength.toNat % 2 = 1) := by
            rintro ⟨hq, ho⟩
            rw [hq] at h4
            simp only [pointRows] at h4
            rw [if_neg (by omega)] at h4
            cases h4
          rcases addPilots_err o _ P e o' h with ⟨rfl, g⟩ | ⟨rfl, g⟩
          · exact ⟨⟨(by intro h; cases h), fun ⟨_, _, h⟩ => by omega⟩, ⟨(by intro h; cases h), fun ⟨_, _, _, h⟩ => absurd h hno⟩, (by intro h; cases h), by simp, fun hn => by
              rcases g with g | g
              · exact g
              · exact absurd g hn⟩
          · exact ⟨⟨(by intro h; cases h), fun ⟨_, _, h⟩ => by omega⟩, ⟨(by intro h; cases h), fun ⟨_, _, _, h⟩ => absurd h hno⟩, fun _ => g, by simp, fun hn => absurd g hn⟩
      · rw [e1 (Or.inr ⟨by simpa using fun h => h3 (Or.inl h), fun h => h3 (Or.inr h)⟩), if_neg (by omega)] at h
        obtain ⟨g1, g2⟩ := Prod.mk.inj h
        have g1 := Except.error.inj g1
        subst g1
        exact ⟨⟨(by intro h; cases h), fun ⟨_, _, h⟩ => by omega⟩, ⟨(by intro h; cases h), fun ⟨_, _, h, _⟩ => absurd h h3⟩, (by intro h; cases h), by simp, fun _ => g2.symm⟩
    · rw [e1 (Or.inl (by omega))] at h
      obtain ⟨g1, g2⟩ := Prod.mk.inj h
      have g1 := Except.error.inj g1
      split at g1
      · rename_i hz
        subst g1
        exact ⟨⟨fun _ => ⟨h1, hz⟩, fun _ => rfl⟩, ⟨(by intro h; cases h), fun ⟨_, h, _⟩ => absurd h h2⟩, (by intro h; cases h), by simp, fun _ => g2.symm⟩
      · rename_i hz
        subst g1
        exact ⟨⟨(by intro h; cases h), fun ⟨_, h⟩ => absurd h hz⟩, ⟨(by intro h; cases h), fun ⟨_, h, _⟩ => absurd h h2⟩, (by intro h; cases h), by simp, fun _ => g2.symm⟩
  · rw [subcarriers_squeeze_error nb o (fun s d h => by cases h; exact h1)] at h
    obtain ⟨g1, g2⟩ := Prod.mk.inj h
    have g1 := Except.error.inj g1
    subst g1
    exact ⟨⟨(by intro h; cases h), fun ⟨h, _⟩ => absurd h h1⟩, ⟨(by intro h; cases h), fun ⟨h, _⟩ => absurd h h1⟩, (by intro h; cases h), by simp, fun _ => g2.symm⟩

end

/-! ### The signal -/

/-- **C103 (signal).**  An accepted call on a modulator with data tones, with at least one symbol, gives the signal of the bit-level modulator
`ofdmBitsToIQ` (to which C23, C25, C26, C93 … apply) with the bits "entry > 0", for the configuration where negative paddings are 0, started
at the pilot set counted from the end when the index is negative and at the generator register modulo 512; and the two stay in step. -/
theorem C103_signal (f : ℝ) (CP : ℚ) (o : OfdmRun ℂ) (hw : Built o.stored) (shape : List Nat) (data : List ℚ) (hs : data.length = shape.prod) (pad : Bool)
    (h : Ready o shape data pad) (hD : 0 < freeTones o.stored) (hn : 0 < symbolCount o.stored.splitLength.toNat data.length pad)
    (st : OfdmState) (hrel : RunRel o st) :
    ∃ iq o' st', (OfdmRun.bitsToIQ f CP (.arr shape data) pad).call o = (.ok iq, o') ∧
      (ofdmBitsToIQ o.stored.cfg f CP (data.map fun q => decide (0 < q)) pad).call st = (.ok iq, st') ∧ o'.stored = o.stored ∧ RunRel o' st' := by
  obtain ⟨R, h4, h5⟩ := h.fits
  have h6 : ((o.stored.frequencySpreading * R : Nat) : Int) = freeTones o.stored ∨ o.stored.frequencySpreading * R = 1 := by
    rcases h5 with h5 | h5
    · omega
    · exact h5
  obtain ⟨a1, a2, a3, a4⟩ := fit_arith hw h.split h4 hD h6
  obtain ⟨P, e, r1, c1, v1⟩ := subcarriers_front (complexNumbers f) o hw h.oneAxis h.split h.size h4
  have hok : ∃ x, (o.addPilots (pilotOf (complexNumbers f)) P).1 = .ok x :=
    (addPilots_ok_iff o hw _ P).2 ⟨h.band, by rw [r1, c1]; exact h5, by rw [c1]; exact h.pilots⟩
  obtain ⟨x, o', st', s1, s2, s3, s4⟩ := addPilots_sim o hw _ P st hrel hok (by rw [c1]; exact hn)
  have hone : ∀ sh : List Nat, (sh.filter (· ≠ 1)).length = 1 → sh.prod ≠ 1 := by
    intro sh
    have key : ∀ sh : List Nat, sh.prod = (sh.filter (· ≠ 1)).prod := by
      intro sh
      induction sh with
      | nil => rfl
      | cons a l ih =>
        by_cases ha : a = 1
        · subst ha; simp [ih]
        · rw [List.filter_cons_of_pos (by simpa using ha), List.prod_cons, List.prod_cons, ih]
    intro hl
    rw [key]
    obtain ⟨x, hx⟩ := List.length_eq_one_iff.1 hl
    have hx1 : x ∈ sh.filter (· ≠ 1) := by rw [hx]; simp
    rw [hx]
    simpa using (List.mem_filter.1 hx1).2
  have hlen : (data.map fun q => decide (0 < q)).length ≠ 1 := by
    rw [List.length_map, hs]; exact hone shape h.oneAxis
  have front := ofdmSubcarriers_front o.stored.cfg (complexNumbers f) (L := o.stored.splitLength.toNat) (by rw [a4]; have := h.split; omega) (by have := h.split; omega) a1 hw.spreading
    (data.map fun q => decide (0 < q)) hlen pad (by rw [List.length_map]; exact h.size) st
  refine ⟨x.flatMap fun col => cyclicPrefix CP (ofdmIfft col), o', st', ?_, ?_, s3, s4⟩
  · rw [bitsToIQ_eq, e, s1]; rfl
  · rw [ofdmBitsToIQ_eq, front, ← paddedData_bits]
    have this : P.columns = (chunks o.stored.splitLength.toNat ((paddedData o.stored.splitLength.toNat data pad).map fun q => decide (0 < q))).map
        (dataCol o.stored.cfg (complexNumbers f)) := v1 a1 a2
    rw [← this, s2]; rfl

/-- **C103 (no symbols).**  An accepted call whose message is empty returns no samples and changes nothing. -/
theorem C103_empty (f : ℝ) (CP : ℚ) (o : OfdmRun ℂ) (hw : Built o.stored) (shape : List Nat) (data : List ℚ) (pad : Bool)
    (h : Ready o shape data pad) (hn : symbolCount o.stored.splitLength.toNat data.length pad = 0) :
    data = [] ∧ (OfdmRun.bitsToIQ f CP (.arr shape data) pad).call o = (.ok [], o) := by
  obtain ⟨R, h4, h5⟩ := h.fits
  have hL := h.split
  have hdata : data = [] := by
    rw [← List.length_eq_zero_iff]
    unfold symbolCount at hn
    have hp : 0 < o.stored.splitLength.toNat := by omega
    cases pad with
    | true =>
      simp only [if_true] at hn
      have := (ceilDiv_spec (a := data.length) hp).1
      rw [hn] at this; omega
    | false =>
      simp only [Bool.false_eq_true, if_false] at hn
      rcases h.size with hc | hc
      · cases hc
      · have := Nat.div_add_mod data.length o.stored.splitLength.toNat
        rw [hn, hc] at this; omega
  refine ⟨hdata, ?_⟩
  obtain ⟨P, e, r1, c1, -⟩ := subcarriers_front (complexNumbers f) o hw h.oneAxis h.split h.size h4
  have hok : ∃ x, (o.addPilots (pilotOf (complexNumbers f)) P).1 = .ok x :=
    (addPilots_ok_iff o hw _ P).2 ⟨h.band, by rw [r1, c1]; exact h5, by rw [c1]; exact h.pilots⟩
  have hnil : P.columns = [] := by unfold Mat.columns; rw [c1, hn]; rfl
  have hres : o.addPilots (pilotOf (complexNumbers f)) P = (.ok [], o) := by
    obtain ⟨x, hx⟩ := hok
    unfold OfdmRun.addPilots at hx ⊢
    rw [hnil] at hx ⊢
    split
    · rename_i he; rw [he] at hx; cases hx
    · rename_i av he
      rw [he] at hx
      simp only at hx ⊢
      have plain : ∀ x, (if P.rows = av.length ∨ P.rows = 1 then ([] : List (List ℂ)).mapM (placeData o.stored.nFFT (List.replicate o.stored.nFFT 0) av) else .error .ValueError : Res (List (List ℂ))) = .ok x →
          (if P.rows = av.length ∨ P.rows = 1 then ([] : List (List ℂ)).mapM (placeData o.stored.nFFT (List.replicate o.stored.nFFT 0) av) else .error .ValueError : Res (List (List ℂ))) = .ok [] := by
        intro x hx
        split at hx
        · rename_i hr; rw [if_pos hr]; rfl
        · cases hx
      cases hp : o.stored.pilots with
      | none =>
        rw [hp] at hx
        simp only at hx ⊢
        rw [plain x hx]
      | some pl =>
        rw [hp] at hx
        simp only at hx ⊢
        split
        · rfl
        · rename_i h0
          rw [if_neg h0] at hx
          simp only at hx
          rw [plain x hx]
  rw [bitsToIQ_eq, e, hres]; rfl

/-! Non-vacuity: three modulators the constructor accepts. -/

/-- Pilots, a negative initial pilot set and a negative seed. -/
def sample : OfdmStored ℂ := ⟨8, .BPSK, 1, 1, 1, some ⟨[[-2, 1], [-1, 2]], 2, .pn9⟩, -1, -5⟩
/-- A negative padding whose effect is lost in the division by the spreading factor. -/
def sampleNeg : OfdmStored ℂ := ⟨8, .BPSK, -1, 3, 4, none, 0, 0⟩
/-- No data tones at all. -/
def sampleLost : OfdmStored ℂ := ⟨2, .QAM16, 1, -1, 1, none, 0, 0⟩

example : ofdmInit (.int 8) (.str "BPSK") (.int 1) (.int 1) (.int 1) (.arr2 2 [[-2, 1], [-1, 2]]) (.str "pn9") (.int (-1)) (.int (-5)) = .ok sample := rfl
example : ofdmInit (.int 8) (.str "BPSK") (.int (-1)) (.int 3) (.int 4) .none .none (.int 0) (.int 0) = .ok sampleNeg := rfl
example : ofdmInit (.int 2) (.str "QAM16") (.int 1) (.int (-1)) (.int 1) .none .none (.int 0) (.int 0) = .ok sampleLost := rfl

theorem sample_built : Built sample := C103_built (.int 8) (.str "BPSK") (.int 1) (.int 1) (.int 1) (.arr2 2 [[-2, 1], [-1, 2]]) (.str "pn9") (.int (-1)) (.int (-5))
  (by intro c hc; fin_cases hc <;> rfl) _ rfl
theorem sampleNeg_built : Built sampleNeg := C103_built (.int 8) (.str "BPSK") (.int (-1)) (.int 3) (.int 4) .none .none (.int 0) (.int 0) trivial _ rfl
theorem sampleLost_built : Built sampleLost := C103_built (.int 2) (.str "QAM16") (.int 1) (.int (-1)) (.int 1) .none .none (.int 0) (.int 0) trivial _ rfl

/-- Two symbols, given as a 1 × 6 array. -/
theorem sample_ready (q : List ℚ) (hq : q.length = 6) : Ready sample.start [1, 6] q false := by
  have hL : sample.start.stored.splitLength = 3 := rfl
  refine ⟨rfl, by rw [hL]; decide, Or.inr (by rw [hL, hq]; rfl), by decide, ⟨3, rfl, Or.inr (Or.inl rfl)⟩, ?_⟩
  intro pl hp h0 n hn
  cases hp
  rw [hL, hq] at hn
  have hn2 : n < 2 := hn
  refine ⟨by decide, by decide, (by intro h; cases h), ?_⟩
  have key : ∀ n : Nat, n < 2 → ∃ ps ∈ ([[-2, 1], [-1, 2]] : List (List Int)), ([[-2, 1], [-1, 2]] : List (List Int))[(((-1 : Int) + n) % 2).toNat]? = some ps := by decide
  obtain ⟨ps, hps, hget⟩ := key n hn2
  refine ⟨ps, hget, ?_, ?_⟩
  · revert ps; intro ps hps _; fin_cases hps <;> decide
  · have : ∀ ps ∈ ([[-2, 1], [-1, 2]] : List (List Int)), ∀ t ∈ ps, t ∈ allTones 8 ∧ t ≠ 0 ∧ ¬ isGuard 8 1 1 t := by decide
    exact this ps hps

example : 0 < freeTones sample := by decide
example : 0 < symbolCount sample.start.stored.splitLength.toNat 6 false := by decide
example : RunRel sample.start ⟨1, ⟨0, 507⟩⟩ := ⟨by intro pl hp; cases hp; rfl, by decide⟩

/-- The accepted call of the sample, with entries that are not bits. -/
example : ∃ iq, ((OfdmRun.bitsToIQ 1 (1 / 4) (.arr [1, 6] [1, 0, -3, 1 / 2, 0, 7]) false).call sample.start).1 = .ok iq :=
  ((C103_accepts 1 (1 / 4) sample.start sample_built false).1 _ _).2 (sample_ready _ rfl)

/-- Four points of the negative padding on four tones. -/
theorem sampleNeg_ready (q : List ℚ) : Ready sampleNeg.start [3] q false := by
  have hL : sampleNeg.start.stored.splitLength = 1 := rfl
  exact ⟨rfl, by rw [hL]; decide, Or.inr (by rw [hL]; exact Nat.mod_one _), by decide, ⟨1, rfl, Or.inr (Or.inl rfl)⟩, fun pl hp => by cases hp⟩

theorem sampleLost_ready (q : List ℚ) (hq : q.length = 8) : Ready sampleLost.start [8] q false := by
  have hL : sampleLost.start.stored.splitLength = 4 := rfl
  exact ⟨rfl, by rw [hL]; decide, Or.inr (by rw [hL, hq]; rfl), by decide, ⟨1, rfl, Or.inr (Or.inr rfl)⟩, fun pl hp => by cases hp⟩

/-- Refused calls: a scalar, a size that does not fit, `pad` with no room for data. -/
example : ((OfdmRun.bitsToIQ 1 0 (.arr [1, 1] [1]) false).call sample.start).1 = .error .ValueError := rfl
example : ¬ ∃ iq, ((OfdmRun.bitsToIQ 1 0 (.arr [4] [1, 0, 1, 1]) false).call sample.start).1 = .ok iq := by
  rw [(C103_accepts 1 0 sample.start sample_built false).1]
  intro h
  rcases h.size with h | h
  · cases h
  · exact absurd h (by decide)

end SunPhy.C103
