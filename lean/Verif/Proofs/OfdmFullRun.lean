import Verif.Proofs.OfdmFullMat
/-
Whole calls of the unrestricted `Ofdm_modulator`.
-/
namespace SunPhy
open Spec

set_option linter.unusedSectionVars false

section
variable {α : Type}

theorem chunks_getElem {β} (n : Nat) (l : List β) (i : Nat) (h : i < (chunks n l).length) : (chunks n l)[i] = (l.drop (i * n)).take n := by
  simp [chunks]

theorem take_drop_range {n : Nat} (l : List ℚ) (j : Nat) (h : (j + 1) * n ≤ l.length) :
    (l.drop (j * n)).take n = (List.range n).map fun i => l.getD (j * n + i) 0 := by
  have e : (j + 1) * n = j * n + n := by ring
  apply List.ext_getElem
  · simp; omega
  · intro i h1 h2
    simp only [List.length_map, List.length_range] at h2
    simp [List.getD_eq_getElem?_getD, List.getElem?_eq_getElem (show j * n + i < l.length by omega)]

variable [Mul α] [Zero α]

/-- The mapped columns are those of the bit-level model. -/
theorem map_columns (nb : Numbers α) (k : ModKind) {L R C : Nat} (hL : 0 < L) (data : List ℚ) (hC : data.length / L = C) (hb : L % k.bitsPerSymbol = 0) (hR : R = L / k.bitsPerSymbol)
    (P : Mat α) (h1 : P.rows = R) (h2 : P.cols = C)
    (h3 : ∀ i j, i < R → j < C → P.at' i j = nb.ofGI (C08.point k ((List.range k.bitsPerSymbol).map fun a => decide (0 < data.getD (j * L + (k.bitsPerSymbol * i + a)) 0))) * nb.factor) :
    P.columns = (chunks L (data.map fun q => decide (0 < q))).map (mapCol nb k) := by
  have hbp := C08.bps_pos k
  unfold Mat.columns
  rw [h1, h2]
  apply List.ext_getElem
  · simp [chunks_length, hC]
  · intro j hj1 hj2
    simp only [List.length_map, List.length_range] at hj1
    simp only [List.getElem_map, List.getElem_range]
    rw [chunks_getElem, ← List.map_drop, ← List.map_take, take_drop_range]
    · unfold mapCol
      apply List.ext_getElem
      · simp [chunks_length, hR]
      · intro i hi1 hi2
        simp only [List.length_map, List.length_range] at hi1
        simp only [List.getElem_map, List.getElem_range]
        rw [h3 i j hi1 hj1, chunks_getElem]
        congr 3
        apply List.ext_getElem
        · simp only [List.length_map, List.length_range, List.length_take, List.length_drop]
          have : (i + 1) * k.bitsPerSymbol ≤ L := by
            calc (i + 1) * k.bitsPerSymbol ≤ R * k.bitsPerSymbol := Nat.mul_le_mul_right _ hi1
              _ ≤ L := by rw [hR]; exact Nat.div_mul_le_self _ _
          have e : (i + 1) * k.bitsPerSymbol = i * k.bitsPerSymbol + k.bitsPerSymbol := by ring
          omega
        · intro a ha1 ha2
          simp only [List.getElem_map, List.getElem_range, List.getElem_take, List.getElem_drop]
          rw [Nat.mul_comm k.bitsPerSymbol i]
    · calc (j + 1) * L ≤ C * L := Nat.mul_le_mul_right _ hj1
        _ ≤ data.length := by rw [← hC]; exact Nat.div_mul_le_self _ _

/-- Everything before the pilots. -/
theorem subcarriers_front (nb : Numbers α) (o : OfdmRun α) (hw : Built o.stored) {shape : List Nat} {data : List ℚ} {pad : Bool}
    (h1 : (shape.filter (· ≠ 1)).length = 1) (h2 : 0 < o.stored.splitLength)
    (h3 : pad = true ∨ data.length % o.stored.splitLength.toNat = 0) {R : Nat} (h4 : pointRows o.stored.modulation o.stored.splitLength.toNat = some R) :
    ∃ P : Mat α, (OfdmRun.subcarriers nb (.arr shape data) pad).call o = o.addPilots (pilotOf nb) P ∧ P.rows = o.stored.frequencySpreading * R ∧
      P.cols = symbolCount o.stored.splitLength.toNat data.length pad ∧
      (o.stored.splitLength.toNat % o.stored.modulation.bitsPerSymbol = 0 → R = o.stored.splitLength.toNat / o.stored.modulation.bitsPerSymbol →
        P.columns = (chunks o.stored.splitLength.toNat ((paddedData o.stored.splitLength.toNat data pad).map fun q => decide (0 < q))).map
          (fun blk => spreadCol nb o.stored.frequencySpreading (mapCol nb o.stored.modulation blk))) := by
  obtain ⟨L, hL⟩ : ∃ L : Nat, o.stored.splitLength = L := ⟨o.stored.splitLength.toNat, by omega⟩
  rw [hL] at h2 h3 h4 ⊢
  simp only [Int.toNat_natCast] at h3 h4 ⊢
  have hLp : 0 < L := by omega
  obtain ⟨P1, e1, r1, c1, v1⟩ := ofdmMapFull_ok nb o.stored.modulation
    (⟨L, symbolCount L data.length pad, fun i j => (paddedData L data pad).getD (j * L + i) 0⟩ : Mat ℚ) h4
  obtain ⟨P2, e2, r2, c2, v2⟩ := ofdmSpreadFull_ok nb hw.spreading P1
  refine ⟨P2, ?_, by rw [r2, r1], by rw [c2, c1], fun hb hR => ?_⟩
  · unfold OfdmRun.subcarriers PyM.call ofdmSqueeze
    simp only
    rw [if_pos h1]
    show (PyM.lift (.ok data) >>= _ : PyM _ _) o = _
    rw [PyM.lift_ok]
    show (PyM.lift (ofdmSplitFull o.stored.splitLength data pad) >>= _ : PyM _ _) o = _
    rw [hL, ofdmSplitFull_ok hLp data pad h3, PyM.lift_ok, e1, PyM.lift_ok, e2, PyM.lift_ok]
  · rw [v2]
    have hlen : (paddedData L data pad).length / L = symbolCount L data.length pad := by
      unfold paddedData symbolCount
      cases pad with
      | false => rfl
      | true =>
        simp only [if_true, List.length_append, List.length_replicate]
        have := (ceilDiv_spec (a := data.length) hLp).1
        rw [show data.length + (ceilDiv data.length L * L - data.length) = ceilDiv data.length L * L by omega]
        exact Nat.mul_div_cancel _ hLp
    rw [map_columns nb o.stored.modulation hLp (paddedData L data pad) hlen hb hR P1 r1 c1 (fun i j hi hj => v1 hb i j hi hj), List.map_map]
    rfl

/-- The exceptions raised before the pilots. -/
theorem subcarriers_front_error (nb : Numbers α) (o : OfdmRun α) {shape : List Nat} {data : List ℚ} {pad : Bool} (h1 : (shape.filter (· ≠ 1)).length = 1) :
    (o.stored.splitLength ≤ 0 ∨ (pad = false ∧ data.length % o.stored.splitLength.toNat ≠ 0) →
      (OfdmRun.subcarriers nb (.arr shape data) pad).call o = (.error (if pad = true ∧ o.stored.splitLength = 0 then .ZeroDivisionError else .ValueError), o)) ∧
    (0 < o.stored.splitLength → (pad = true ∨ data.length % o.stored.splitLength.toNat = 0) → pointRows o.stored.modulation o.stored.splitLength.toNat = none →
      (OfdmRun.subcarriers nb (.arr shape data) pad).call o = (.error (if o.stored.modulation = .QPSK then .AssertionError else .ValueError), o)) := by
  have start : (OfdmRun.subcarriers nb (.arr shape data) pad).call o = (do
      let split ← PyM.lift (ofdmSplitFull o.stored.splitLength data pad)
      let mapped ← PyM.lift (ofdmMapFull nb o.stored.modulation split)
      let spread ← PyM.lift (ofdmSpreadFull nb o.stored.frequencySpreading mapped)
      fun o => o.addPilots (pilotOf nb) spread : PyM _ _) o := by
    unfold OfdmRun.subcarriers PyM.call ofdmSqueeze
    simp only
    rw [if_pos h1]
    rfl
  rw [start]
  constructor
  · intro h
    rw [ofdmSplitFull_error _ _ _ h]
    rfl
  · intro h2 h3 h4
    obtain ⟨L, hL⟩ : ∃ L : Nat, o.stored.splitLength = L := ⟨o.stored.splitLength.toNat, by omega⟩
    rw [hL] at h2 h3 h4 ⊢
    simp only [Int.toNat_natCast] at h3 h4
    rw [ofdmSplitFull_ok (by omega) data pad h3, PyM.lift_ok, ofdmMapFull_error nb o.stored.modulation (⟨L, symbolCount L data.length pad, fun i j => (paddedData L data pad).getD (j * L + i) 0⟩ : Mat ℚ) h4]
    rfl

theorem subcarriers_squeeze_error (nb : Numbers α) (o : OfdmRun α) {a : BitsArg} {pad : Bool} (h : ∀ shape data, a = .arr shape data → (shape.filter (· ≠ 1)).length ≠ 1) :
    (OfdmRun.subcarriers nb a pad).call o = (.error .ValueError, o) := by
  cases a with
  | notArray => rfl
  | arr shape data =>
    unfold OfdmRun.subcarriers PyM.call ofdmSqueeze
    simp only
    rw [if_neg (h shape data rfl)]
    rfl

theorem availTones_card {N : Nat} (he : N % 2 = 0) {padL padR : Int} (hl : padL ≤ (N / 2 : Nat)) (hr : padR < (N / 2 : Nat)) (h0 : 0 < N) :
    ((availTones N padL.toNat padR.toNat).length : Int) = N - 1 - max padL 0 - max padR 0 := by
  have := availTones_length (N := N) (padL := padL.toNat) (padR := padR.toNat) he (by omega) (by omega)
  omega

theorem mem_avail {N : Nat} (he : N % 2 = 0) (padL padR : Nat) (t : Int) :
    t ∈ availTones N padL padR ↔ t ∈ allTones N ∧ t ≠ 0 ∧ ¬ isGuard N padL padR t := by
  have := mem_dataTones he (padL := padL) (padR := padR) (ps := []) (t := t)
  unfold availTones
  rw [this, mem_allTones he]
  simp; tauto

theorem avail_nodup (N padL padR : Nat) : (availTones N padL padR).Nodup := dataTones_nodup ..

theorem mapM_exists_ok_iff {β γ : Type} (f : β → Res γ) (l : List β) : (∃ r, l.mapM f = .ok r) ↔ ∀ x ∈ l, ∃ y, f x = .ok y := by
  induction l with
  | nil => simp [pure, Except.pure]
  | cons a l ih =>
    rw [List.mapM_cons]
    simp only [bind, Except.bind, pure, Except.pure, List.mem_cons, forall_eq_or_imp]
    cases hf : f a with
    | error e => simp
    | ok y =>
      simp only
      cases hl : l.mapM f with
      | error e =>
        rw [hl] at ih
        constructor
        · rintro ⟨r, hr⟩; cases hr
        · rintro ⟨-, h⟩; obtain ⟨r, hr⟩ := ih.2 h; cases hr
      | ok r =>
        rw [hl] at ih
        exact ⟨fun _ => ⟨⟨y, rfl⟩, ih.1 ⟨r, rfl⟩⟩, fun _ => ⟨_, rfl⟩⟩

theorem columns_get {β : Type} (M : Mat β) {n : Nat} {col : List β} (h : M.columns[n]? = some col) : n < M.cols ∧ col.length = M.rows := by
  unfold Mat.columns at h
  rw [List.getElem?_map] at h
  by_cases hn : n < M.cols
  · rw [List.getElem?_range hn, Option.map_some] at h
    exact ⟨hn, by rw [← Option.some.inj h]; simp⟩
  · rw [List.getElem?_eq_none (by simp; omega)] at h; cases h

theorem built_even {s : OfdmStored α} (hw : Built s) : s.nFFT % 2 = 0 ∧ 2 ≤ s.nFFT ∨ s.nFFT = 1 := by
  obtain ⟨k, hk⟩ := hw.power
  cases k with
  | zero => right; simpa using hk
  | succ k => left; rw [hk, pow_succ]; have := Nat.two_pow_pos k; omega

theorem built_wf {s : OfdmStored α} (hw : Built s) {pl : Pilots α} (hp : s.pilots = some pl) (h0 : 0 < pl.nPilots) : PilotsWf pl :=
  ⟨h0, hw.sets pl hp, fun v hv => hw.values pl v hp hv⟩

theorem index_mod {S n : Nat} (idx : Int) (hS : 0 < S) : ((idx % (S : Int)).toNat + n) % S = ((idx + n) % (S : Int)).toNat := by
  have h1 := Int.emod_nonneg idx (show (S : Int) ≠ 0 by omega)
  have : ((((idx % (S : Int)).toNat + n) % S : Nat) : Int) = (idx + n) % (S : Int) := by
    push_cast
    rw [Int.toNat_of_nonneg h1, Int.emod_add_emod]
  omega

/-- When the pilot stage succeeds. -/
theorem addPilots_ok_iff (o : OfdmRun α) (hw : Built o.stored) (pv : Int → α) (P : Mat α) :
    (∃ x, (o.addPilots pv P).1 = .ok x) ↔
      (2 ≤ o.stored.nFFT ∧ o.stored.paddingLeft ≤ (o.stored.nFFT / 2 : Nat) ∧ o.stored.paddingRight < (o.stored.nFFT / 2 : Nat)) ∧
      ((HasPilots o.stored ∧ P.cols = 0) ∨ (P.rows : Int) = freeTones o.stored ∨ P.rows = 1) ∧
      ∀ pl, o.stored.pilots = some pl → 0 < pl.nPilots → ∀ n < P.cols, PilotOk o pl n := by
  by_cases hband : 2 ≤ o.stored.nFFT ∧ o.stored.paddingLeft ≤ (o.stored.nFFT / 2 : Nat) ∧ o.stored.paddingRight < (o.stored.nFFT / 2 : Nat)
  · obtain ⟨b1, b2, b3⟩ := hband
    have he : o.stored.nFFT % 2 = 0 := by rcases built_even hw with h | h <;> omega
    have hav := ofdmAvailable_ok he (by omega) _ _ b2 b3
    have hcard := availTones_card he b2 b3 (by omega)
    have hmem := mem_avail he o.stored.paddingLeft.toNat o.stored.paddingRight.toNat
    have hnd := avail_nodup o.stored.nFFT o.stored.paddingLeft.toNat o.stored.paddingRight.toNat
    have hin : ∀ t ∈ availTones o.stored.nFFT o.stored.paddingLeft.toNat o.stored.paddingRight.toNat, inBand o.stored.nFFT t := by
      intro t ht; exact (mem_allTones he t).1 ((hmem t).1 ht).1
    unfold OfdmRun.addPilots
    rw [hav]
    simp only
    generalize availTones o.stored.nFFT o.stored.paddingLeft.toNat o.stored.paddingRight.toNat = av at *
    have plain : (¬ HasPilots o.stored) →
        ((∃ x, (if P.rows = av.length ∨ P.rows = 1 then P.columns.mapM (placeData o.stored.nFFT (List.replicate o.stored.nFFT 0) av) else .error .ValueError : Res (List (List α))) = .ok x) ↔
        (2 ≤ o.stored.nFFT ∧ o.stored.paddingLeft ≤ (o.stored.nFFT / 2 : Nat) ∧ o.stored.paddingRight < (o.stored.nFFT / 2 : Nat)) ∧
      ((HasPilots o.stored ∧ P.cols = 0) ∨ (P.rows : Int) = freeTones o.stored ∨ P.rows = 1) ∧
      ∀ pl, o.stored.pilots = some pl → 0 < pl.nPilots → ∀ n < P.cols, PilotOk o pl n) := by
      intro hno
      have hz : o.stored.nPilots = 0 := by
        unfold OfdmStored.nPilots
        cases hp : o.stored.pilots with
        | none => rfl
        | some pl =>
          simp only [Option.map_some, Option.getD_some]
          by_contra hne
          exact hno ⟨pl, hp, by omega⟩
      have hd : freeTones o.stored = av.length := by unfold freeTones; omega
      rw [hd]
      have hlast : ∀ pl, o.stored.pilots = some pl → 0 < pl.nPilots → ∀ n < P.cols, PilotOk o pl n := fun pl hp h0 => absurd ⟨pl, hp, h0⟩ hno
      by_cases hr : P.rows = av.length ∨ P.rows = 1
      · rw [if_pos hr]
        refine ⟨fun _ => ⟨⟨b1, b2, b3⟩, Or.inr (by rcases hr with h | h <;> [left; right] <;> omega), hlast⟩, fun _ => ?_⟩
        rw [mapM_exists_ok_iff]
        intro col hcol
        rw [placeData_iff]
        obtain ⟨n, hn⟩ := List.getElem?_of_mem hcol
        rw [(columns_get P hn).2]; exact hr
      · rw [if_neg hr]
        constructor
        · rintro ⟨x, hx⟩; cases hx
        · rintro ⟨-, h | h | h, -⟩
          · exact absurd h.1 hno
          · exact absurd (Or.inl (by omega)) hr
          · exact absurd (Or.inr h) hr
    cases hp : o.stored.pilots with
    | none =>
      simp only
      have := plain (by rintro ⟨pl, h, -⟩; rw [hp] at h; cases h)
      rw [← hp]; exact this
    | some pl =>
      simp only
      by_cases h0 : 0 < pl.nPilots
      · rw [if_pos h0]
        simp only
        have hhas : HasPilots o.stored := ⟨pl, hp, h0⟩
        have hn : o.stored.nPilots = pl.nPilots := by unfold OfdmStored.nPilots; rw [hp]; rfl
        have hwf := built_wf hw hp h0
        have hd : ∀ m : Nat, (m : Int) = freeTones o.stored ↔ m + pl.nPilots = av.length := by
          intro m; unfold freeTones; rw [hn]; omega
        by_cases hc : P.cols = 0
        · have hnil : P.columns = [] := by unfold Mat.columns; rw [hc]; rfl
          rw [hnil]
          exact ⟨fun _ => ⟨⟨b1, b2, b3⟩, Or.inl ⟨hhas, hc⟩, fun _ _ _ n hn => by omega⟩, fun _ => ⟨[], rfl⟩⟩
        · by_cases hidx : -(pl.sets.length : Int) ≤ o.columnIndex ∧ o.columnIndex < pl.sets.length
          · have hS : 0 < pl.sets.length := by omega
            have hrel : StRel pl.sets.length o.columnIndex o.pn9 ⟨(o.columnIndex % pl.sets.length).toNat, ⟨0, (o.pn9 % 512).toNat⟩⟩ := by
              refine ⟨rfl, ?_⟩
              unfold PnRel; simp only; omega
            obtain ⟨e1, -⟩ := symbolsI_sim o.stored.cfg pv pl av P.columns 0 _ _ _ hidx.1 hidx.2 hrel
            have hlt : (o.columnIndex % (pl.sets.length : Int)).toNat < pl.sets.length := (pilotSetAt_eq hidx.1 hidx.2).2
            have hiff := symbols_ok_iff (c := o.stored.cfg) he pv hwf hnd hin P.columns ⟨(o.columnIndex % pl.sets.length).toNat, ⟨0, (o.pn9 % 512).toNat⟩⟩ hlt
            show (∃ x, (addPilotsSymbolsI o.stored.cfg.nFFT pv pl av 0 o.columnIndex o.pn9 P.columns).1 = .ok x) ↔ _
            rw [e1, hiff]
            constructor
            · intro h
              have h' : ∀ n < P.cols, ∃ ps, pl.sets[((o.columnIndex + n) % pl.sets.length).toNat]? = some ps ∧ SymbolOk pl av ps P.rows := by
                intro n hn
                have hg : ∃ col, P.columns[n]? = some col := ⟨_, List.getElem?_eq_getElem (show n < P.columns.length by unfold Mat.columns; simpa using hn)⟩
                obtain ⟨col, hcol⟩ := hg
                obtain ⟨ps, q1, q2⟩ := h n col hcol
                rw [(columns_get P hcol).2] at q2
                rw [index_mod _ hS] at q1
                exact ⟨ps, q1, q2⟩
              refine ⟨⟨b1, b2, b3⟩, Or.inr ?_, ?_⟩
              · obtain ⟨ps, -, -, -, -, q⟩ := h' 0 (by omega)
                rcases q with q | q
                · exact Or.inl ((hd _).2 q)
                · exact Or.inr q
              · intro pl' hp' _ n hn
                cases hp'
                obtain ⟨ps, q1, q2, q3, q4, -⟩ := h' n hn
                exact ⟨hidx.1, hidx.2, q4, ps, q1, q2, fun t ht => (hmem t).1 (q3 t ht)⟩
            · rintro ⟨-, hr, hps⟩ n col hcol
              obtain ⟨hn2, hl⟩ := columns_get P hcol
              obtain ⟨-, -, q4, ps, q1, q2, q3⟩ := hps pl rfl h0 n hn2
              refine ⟨ps, by rw [index_mod _ hS]; exact q1, q2, fun t ht => (hmem t).2 (q3 t ht), q4, ?_⟩
              rw [hl]
              rcases hr with hr | hr | hr
              · exact absurd hr.2 hc
              · exact Or.inl ((hd _).1 hr)
              · exact Or.inr hr
          · constructor
            · rintro ⟨x, hx⟩
              exfalso
              have hnone : pilotSetAt pl.sets o.columnIndex = none := by
                unfold pilotSetAt
                split
                · exact List.getElem?_eq_none (by omega)
                · rw [if_neg (by omega)]
              have hcne : ∃ c cs, P.columns = c :: cs := by
                cases hcs : P.columns with
                | nil => exact absurd (by have := congrArg List.length hcs; unfold Mat.columns at this; simpa using this) hc
                | cons c cs => exact ⟨c, cs, rfl⟩
              obtain ⟨c, cs, hcs⟩ := hcne
              rw [hcs] at hx
              unfold addPilotsSymbolsI addPilotsSymbolI at hx
              rw [hnone] at hx
              cases hx
            · rintro ⟨-, -, h⟩
              have := h pl rfl h0 0 (by omega)
              exact absurd ⟨this.1, this.2.1⟩ hidx
      · rw [if_neg h0]
        have := plain (by rintro ⟨pl', h, h'⟩; rw [hp] at h; cases h; exact h0 h')
        rw [← hp]; exact this
  · have herr : ofdmAvailable o.stored.nFFT o.stored.paddingLeft o.stored.paddingRight = .error .ValueError := by
      apply ofdmAvailable_error
      rcases built_even hw with h | h <;> omega
    unfold OfdmRun.addPilots
    rw [herr]
    exact ⟨fun ⟨x, hx⟩ => (by cases hx), fun h => absurd h.1 hband⟩

/-! ### Agreement with the bit-level model -/

theorem fit_arith {s : OfdmStored α} (hw : Built s) (h2 : 0 < s.splitLength) {R : Nat} (h4 : pointRows s.modulation s.splitLength.toNat = some R)
    (hD : 0 < freeTones s) (hf : ((s.frequencySpreading * R : Nat) : Int) = freeTones s ∨ s.frequencySpreading * R = 1) :
    s.splitLength.toNat % s.modulation.bitsPerSymbol = 0 ∧ R = s.splitLength.toNat / s.modulation.bitsPerSymbol ∧
      ((s.frequencySpreading * R : Nat) : Int) = freeTones s ∧ s.cfg.splitLength = s.splitLength := by
  have hX : freeTones s ≤ (s.nFFT : Int) - s.nPilots - s.paddingLeft - s.paddingRight - 1 := by unfold freeTones; omega
  have hc : s.cfg.splitLength = (freeTones s * s.modulation.bitsPerSymbol).tdiv s.frequencySpreading := by
    unfold OfdmCfg.splitLength freeTones
    show ((((s.nFFT : Nat) : Int) - s.nPilots - (s.paddingLeft.toNat : Int) - (s.paddingRight.toNat : Int) - 1) * (s.modulation.bitsPerSymbol : Int)).tdiv (s.frequencySpreading : Int) = _
    rw [Int.toNat_eq_max, Int.toNat_eq_max]
    congr 2
    omega
  have hs : s.splitLength = (((s.nFFT : Int) - s.nPilots - s.paddingLeft - s.paddingRight - 1) * s.modulation.bitsPerSymbol).tdiv s.frequencySpreading := rfl
  rw [hc]
  generalize freeTones s = D at *
  generalize (s.nFFT : Int) - s.nPilots - s.paddingLeft - s.paddingRight - 1 = X at *
  have hsp := hw.spreading
  generalize s.frequencySpreading = sf at *
  generalize s.splitLength = L at *
  generalize s.modulation = k at *
  obtain ⟨D', rfl⟩ : ∃ D' : Nat, D = D' := ⟨D.toNat, by omega⟩
  obtain ⟨X', rfl⟩ : ∃ X' : Nat, X = X' := ⟨X.toNat, by omega⟩
  obtain ⟨L', rfl⟩ : ∃ L' : Nat, L = L' := ⟨L.toNat, by omega⟩
  simp only [Int.toNat_natCast] at h4 ⊢
  have t1 : ∀ (b : Nat) (x : Nat), ((x : Int) * (b : Int)).tdiv (sf : Int) = ((x * b / sf : Nat) : Int) := by
    intro b x
    rw [Int.tdiv_eq_ediv_of_nonneg (by positivity)]
    push_cast; rfl
  rw [t1] at hs ⊢
  have hs' : L' = X' * k.bitsPerSymbol / sf := by exact_mod_cast hs
  have hX' : D' ≤ X' := by omega
  have goal : L' % k.bitsPerSymbol = 0 ∧ R = L' / k.bitsPerSymbol ∧ sf * R = D' ∧ D' * k.bitsPerSymbol / sf = L' := by
    have hf' : sf * R = D' ∨ sf * R = 1 := by rcases hf with h | h <;> [left; right] <;> omega
    clear hf hc hs t1
    cases k with
    | BPSK =>
      simp only [pointRows, Option.some.injEq, ModKind.bitsPerSymbol] at *
      rcases hsp with rfl | rfl | rfl <;> omega
    | QPSK =>
      simp only [pointRows, ModKind.bitsPerSymbol] at *
      split at h4
      · rw [Option.some.injEq] at h4
        rcases hsp with rfl | rfl | rfl <;> omega
      · cases h4
    | QAM16 =>
      simp only [pointRows, ModKind.bitsPerSymbol] at *
      split at h4
      · rw [Option.some.injEq] at h4
        rcases hsp with rfl | rfl | rfl <;> omega
      · split at h4
        · rw [Option.some.injEq] at h4
          rcases hsp with rfl | rfl | rfl <;> omega
        · cases h4
  obtain ⟨g1, g2, g3, g4⟩ := goal
  exact ⟨g1, g2, by exact_mod_cast g3, by exact_mod_cast g4⟩

/-- The bit-level model before the pilots. -/
theorem ofdmSubcarriers_front (c : OfdmCfg α) (nb : Numbers α) {L : Nat} (hs : c.splitLength = L) (hL : 0 < L) (hb : L % c.modulation.bitsPerSymbol = 0)
    (hsf : c.frequencySpreading = 1 ∨ c.frequencySpreading = 2 ∨ c.frequencySpreading = 4) (bits : Bits) (h1 : bits.length ≠ 1) (pad : Bool)
    (hm : pad = true ∨ bits.length % L = 0) (st : OfdmState) :
    (ofdmSubcarriers c nb bits pad).call st = addPilotsAndPadding c (pilotOf nb) st
      ((chunks L (if pad then bits ++ List.replicate (ceilDiv bits.length L * L - bits.length) false else bits)).map (dataCol c nb)) := by
  have hsplit : c.splitMessage bits pad = .ok (chunks L (if pad then bits ++ List.replicate (ceilDiv bits.length L * L - bits.length) false else bits)) := by
    unfold OfdmCfg.splitMessage
    simp only
    rw [hs, if_neg (by omega)]
    simp only [Int.toNat_natCast]
    rw [if_neg (by rintro ⟨h1, h2⟩; rcases hm with h | h <;> simp_all)]
  generalize (if pad then bits ++ List.replicate (ceilDiv bits.length L * L - bits.length) false else bits) = b at *
  have hmap : (chunks L b).mapM (constellationMap nb c.modulation) = .ok ((chunks L b).map (mapCol nb c.modulation)) :=
    mapM_eq_ok _ _ _ fun b hb' => constellationMap_ok nb _ b (by rw [mem_chunks_length hb', hb])
  have hspr : ((chunks L b).map (mapCol nb c.modulation)).mapM (frequencySpread nb c.frequencySpreading) = .ok ((chunks L b).map (dataCol c nb)) := by
    rw [mapM_eq_ok _ (spreadCol nb c.frequencySpreading) _ fun b _ => frequencySpread_ok nb hsf b, List.map_map]
    rfl
  unfold ofdmSubcarriers PyM.call
  rw [if_neg h1, hsplit]
  show (PyM.lift (.ok (chunks L b)) >>= _ : PyM _ _) st = _
  rw [PyM.lift_ok, hmap, PyM.lift_ok, hspr, PyM.lift_ok]

/-- The pilot and state attributes of the two models agree. -/
def RunRel (o : OfdmRun α) (st : OfdmState) : Prop :=
  (∀ pl, o.stored.pilots = some pl → st.pilotsColumnIndex = (o.columnIndex % pl.sets.length).toNat) ∧ st.pn9.value % 512 = (o.pn9 % 512).toNat

theorem addPilots_sim (o : OfdmRun α) (hw : Built o.stored) (pv : Int → α) (P : Mat α) (st : OfdmState) (hrel : RunRel o st)
    (hok : ∃ x, (o.addPilots pv P).1 = .ok x) (hc : 0 < P.cols) :
    ∃ x o' st', o.addPilots pv P = (.ok x, o') ∧ addPilotsAndPadding o.stored.cfg pv st P.columns = (.ok x, st') ∧ o'.stored = o.stored ∧ RunRel o' st' := by
  obtain ⟨⟨b1, b2, b3⟩, hr, hpo⟩ := (addPilots_ok_iff o hw pv P).1 hok
  have he : o.stored.nFFT % 2 = 0 := by rcases built_even hw with h | h <;> omega
  have hav := ofdmAvailable_ok he (by omega) _ _ b2 b3
  have hav2 : o.stored.cfg.availableGlobal = .ok (availTones o.stored.nFFT o.stored.paddingLeft.toNat o.stored.paddingRight.toNat) :=
    availableGlobal_eq o.stored.cfg he (by show o.stored.paddingLeft.toNat ≤ o.stored.nFFT / 2; omega) (by show o.stored.paddingRight.toNat < o.stored.nFFT / 2; omega)
  obtain ⟨x, hx⟩ := hok
  refine ⟨x, (o.addPilots pv P).2, ?_⟩
  unfold OfdmRun.addPilots at hx ⊢
  unfold addPilotsAndPadding
  rw [hav] at hx ⊢
  rw [hav2]
  have hcp : o.stored.cfg.pilots = o.stored.pilots := rfl
  simp only [hcp] at hx ⊢
  have plain : ∀ x, (if P.rows = (availTones o.stored.nFFT o.stored.paddingLeft.toNat o.stored.paddingRight.toNat).length ∨ P.rows = 1 then
      P.columns.mapM (placeData o.stored.nFFT (List.replicate o.stored.nFFT 0) (availTones o.stored.nFFT o.stored.paddingLeft.toNat o.stored.paddingRight.toNat)) else .error .ValueError : Res (List (List α))) = .ok x →
      P.columns.mapM (placeData o.stored.cfg.nFFT (List.replicate o.stored.cfg.nFFT 0) (availTones o.stored.nFFT o.stored.paddingLeft.toNat o.stored.paddingRight.toNat)) = .ok x := by
    intro x hx
    split at hx
    · exact hx
    · cases hx
  cases hp : o.stored.pilots with
  | none =>
    rw [hp] at hx
    simp only at hx ⊢
    exact ⟨st, by rw [hx], by rw [plain x hx], trivial, hrel⟩
  | some pl =>
    rw [hp] at hx
    simp only at hx ⊢
    by_cases h0 : pl.nPilots > 0
    · rw [if_pos h0] at hx ⊢
      rw [if_pos h0]
      simp only at hx ⊢
      obtain ⟨i1, i2, -⟩ := hpo pl hp h0 0 hc
      obtain ⟨e1, -, -, e4⟩ := symbolsI_sim o.stored.cfg pv pl (availTones o.stored.nFFT o.stored.paddingLeft.toNat o.stored.paddingRight.toNat) P.columns 0 _ _ st i1 i2 ⟨hrel.1 pl hp, hrel.2⟩
      refine ⟨_, by rw [hx], Prod.ext (e1.symm.trans hx) rfl, trivial, ?_⟩
      refine ⟨fun pl' hp' => ?_, e4.2⟩
      simp only at hp'
      rw [hp] at hp'
      cases hp'
      exact e4.1
    · rw [if_neg h0] at hx ⊢
      rw [if_neg h0]
      simp only at hx ⊢
      exact ⟨st, by rw [hx], by rw [plain x hx], trivial, hrel⟩

theorem paddedData_bits {L : Nat} (data : List ℚ) (pad : Bool) : (paddedData L data pad).map (fun q => decide (0 < q)) =
    if pad then (data.map fun q => decide (0 < q)) ++ List.replicate (ceilDiv (data.map fun q => decide (0 < q)).length L * L - (data.map fun q => decide (0 < q)).length) false
      else data.map fun q => decide (0 < q) := by
  unfold paddedData
  cases pad with
  | false => rfl
  | true => simp

end
end SunPhy
