import Verif.Props.C103
import Verif.Proofs.OfdmInj
/-
C104 — `Ofdm_modulator.bitsToIQ` transmits the message: for every constructed modulator with data tones, different messages give different signals.
-/
namespace SunPhy.C104
open SunPhy Spec

set_option linter.unusedSectionVars false

section
variable {α : Type} [Mul α] [Zero α]

theorem insertI_inv (N : Nat) (pv : Int → α) (vals : PilotValues α) (ps : List Int) : ∀ (s s' : PilotLoopI α) g, s.available.Nodup → insertPilotsI N pv vals s ps = (.ok s', g) →
    s'.available.Nodup ∧ (∀ t ∈ s'.available, t ∈ s.available) ∧ s'.available.length + ps.length = s.available.length ∧ s'.channels.length = s.channels.length := by
  induction ps with
  | nil => intro s s' g h1 h; unfold insertPilotsI at h; cases h; exact ⟨h1, fun _ h => h, by simp, rfl⟩
  | cons p ps ih =>
    intro s s' g h1 h
    unfold insertPilotsI at h
    cases hi : insertPilotI N pv vals s p with
    | mk r g' =>
      rw [hi] at h
      cases r with
      | error e => cases h
      | ok s1 =>
        simp only at h
        have k : p ∈ s.available ∧ s1.available = s.available.erase p ∧ s1.channels.length = s.channels.length := by
          unfold insertPilotI at hi
          simp only at hi
          split at hi
          · cases hi
          · split at hi
            · cases hi
            · split at hi
              · rename_i hp
                have hi := Except.ok.inj (Prod.mk.inj hi).1
                rw [← hi]
                exact ⟨hp, rfl, by simp⟩
              · cases hi
        obtain ⟨k1, k2, k3⟩ := k
        obtain ⟨i1, i2, i3, i4⟩ := ih s1 s' g (by rw [k2]; exact h1.erase p) h
        refine ⟨i1, fun t ht => ?_, ?_, by rw [i4, k3]⟩
        · have := i2 t ht
          rw [k2] at this
          exact List.mem_of_mem_erase this
        · rw [k2, List.length_erase_of_mem k1] at i3
          have := List.length_pos_of_mem k1
          rw [List.length_cons]; omega

theorem placeData_length {N : Nat} {ch r : List α} {av : List Int} {col : List α} (h : placeData N ch av col = .ok r) : r.length = ch.length := by
  have key : ∀ (vals : List α) (ch : List α), ((av.zip vals).foldl (fun ch (p : Int × α) => ch.set (p.1 + (N : Int) / 2).toNat p.2) ch).length = ch.length := by
    intro vals
    generalize av.zip vals = l
    induction l with
    | nil => intro ch; rfl
    | cons p l ih => intro ch; rw [List.foldl_cons, ih]; simp
  unfold placeData at h
  simp only at h
  split at h
  · rw [← Except.ok.inj h]; exact key _ _
  · split at h
    · rw [← Except.ok.inj h]; exact key _ _
    · cases h

theorem placeData_inj {N : Nat} {ch r : List α} (hch : ch.length = N) {av : List Int} (hnd : av.Nodup) (hb : ∀ t ∈ av, inBand N t) {col col' : List α}
    (hl : col.length = av.length) (hl' : col'.length = av.length) (h : placeData N ch av col = .ok r) (h' : placeData N ch av col' = .ok r) : col = col' := by
  rw [placeData_ok _ _ _ _ hl] at h
  rw [placeData_ok _ _ _ _ hl'] at h'
  have e := (Except.ok.inj h).trans (Except.ok.inj h').symm
  have m1 := put_map N av col ch hch hnd hb hl.symm
  have m2 := put_map N av col' ch hch hnd hb hl'.symm
  rw [e, m2] at m1
  exact (List.map_injective_iff.2 (Option.some_injective α) m1).symm

theorem symbolsI_inj {N : Nat} (pv : Int → α) (pl : Pilots α) (hset : ∀ ps ∈ pl.sets, ps.length = pl.nPilots) {av : List Int} (hnd : av.Nodup) (hb : ∀ t ∈ av, inBand N t)
    (cols : List (List α)) : ∀ (cols' : List (List α)) vi idx g x r r', (∀ c ∈ cols, c.length + pl.nPilots = av.length) → (∀ c ∈ cols', c.length + pl.nPilots = av.length) →
    addPilotsSymbolsI N pv pl av vi idx g cols = (.ok x, r) → addPilotsSymbolsI N pv pl av vi idx g cols' = (.ok x, r') → cols = cols' ∧ ∀ s ∈ x, s.length = N := by
  have unfoldOk : ∀ c cs vi idx g x r, addPilotsSymbolsI N pv pl av vi idx g (c :: cs) = (.ok x, r) →
      ∃ ps s1 g' ch xs, pilotSetAt pl.sets idx = some ps ∧
        insertPilotsI N pv pl.values { channels := List.replicate N 0, available := av, pn9 := g, valuesIndex := vi } ps = (.ok s1, g') ∧
        placeData N s1.channels s1.available c = .ok ch ∧
        addPilotsSymbolsI N pv pl av s1.valuesIndex (if idx + 1 ≥ pl.sets.length then 0 else idx + 1) g' cs = (.ok xs, r) ∧ x = ch :: xs := by
    intro c cs vi idx g x r h
    unfold addPilotsSymbolsI addPilotsSymbolI at h
    cases hs : pilotSetAt pl.sets idx with
    | none => rw [hs] at h; cases h
    | some ps =>
      rw [hs] at h
      simp only at h
      cases hi : insertPilotsI N pv pl.values { channels := List.replicate N 0, available := av, pn9 := g, valuesIndex := vi } ps with
      | mk ri g' =>
        rw [hi] at h
        cases ri with
        | error e => cases h
        | ok s1 =>
          simp only at h
          cases hp : placeData N s1.channels s1.available c with
          | error e => rw [hp] at h; cases h
          | ok ch =>
            rw [hp] at h
            simp only at h
            cases hr : addPilotsSymbolsI N pv pl av s1.valuesIndex (if idx + 1 ≥ pl.sets.length then 0 else idx + 1) g' cs with
            | mk rr sr =>
              rw [hr] at h
              cases rr with
              | error e => cases h
              | ok xs =>
                simp only at h
                obtain ⟨e1, e2⟩ := Prod.mk.inj h
                exact ⟨ps, s1, g', ch, xs, rfl, hi, hp, by rw [← e2]; exact hr, (Except.ok.inj e1).symm⟩
  induction cols with
  | nil =>
    intro cols' vi idx g x r r' _ _ h h'
    have e : x = [] := (Except.ok.inj (Prod.mk.inj h).1).symm
    subst e
    refine ⟨?_, by simp⟩
    cases cols' with
    | nil => rfl
    | cons c cs =>
      obtain ⟨ps, s1, g', ch, xs, -, -, -, -, e⟩ := unfoldOk _ _ _ _ _ _ _ h'
      cases e
  | cons c cs ih =>
    intro cols' vi idx g x r r' hl hl' h h'
    obtain ⟨ps, s1, g', ch, xs, k1, k2, k3, k4, k5⟩ := unfoldOk _ _ _ _ _ _ _ h
    cases cols' with
    | nil =>
      have e : x = [] := (Except.ok.inj (Prod.mk.inj h').1).symm
      rw [k5] at e; cases e
    | cons c' cs' =>
      obtain ⟨ps', s1', g'', ch', xs', m1, m2, m3, m4, m5⟩ := unfoldOk _ _ _ _ _ _ _ h'
      rw [k1] at m1; cases m1
      rw [k2] at m2
      obtain ⟨m2a, m2b⟩ := Prod.mk.inj m2
      cases m2a; cases m2b
      rw [k5] at m5
      injection m5 with m5a m5b
      subst m5a m5b
      have hps : ps.length = pl.nPilots := by
        apply hset
        unfold pilotSetAt at k1
        split at k1
        · exact List.mem_of_getElem? k1
        · split at k1
          · exact List.mem_of_getElem? k1
          · cases k1
      obtain ⟨v1, v2, v3, v4⟩ := insertI_inv N pv pl.values ps _ _ _ hnd k2
      simp only [List.length_replicate] at v2 v3 v4
      have hc := hl c (by simp)
      have hc' := hl' c' (by simp)
      obtain ⟨i1, i2⟩ := ih cs' _ _ _ _ _ _ (fun d hd => hl d (by simp [hd])) (fun d hd => hl' d (by simp [hd])) k4 m4
      refine ⟨?_, ?_⟩
      · rw [placeData_inj v4 v1 (fun t ht => hb t (v2 t ht)) (by omega) (by omega) k3 m3, i1]
      · rw [k5]
        intro s hs
        rcases List.mem_cons.1 hs with rfl | hs
        · rw [placeData_length k3, v4]
        · exact i2 s hs

theorem mapM_ok_get {β γ : Type} (f : β → Res γ) (l : List β) : ∀ r, l.mapM f = .ok r → List.Forall₂ (fun x y => f x = .ok y) l r := by
  induction l with
  | nil => intro r h; cases h; exact List.Forall₂.nil
  | cons a l ih =>
    intro r h
    rw [List.mapM_cons] at h
    simp only [bind, Except.bind, pure, Except.pure] at h
    cases ha : f a with
    | error e => rw [ha] at h; cases h
    | ok y =>
      rw [ha] at h
      simp only at h
      cases hl : l.mapM f with
      | error e => rw [hl] at h; cases h
      | ok ys =>
        rw [hl] at h
        cases h
        exact List.Forall₂.cons ha (ih ys hl)

/-- The pilot stage loses nothing when the columns fit exactly. -/
theorem addPilots_inj (o : OfdmRun α) (hw : Built o.stored) (pv : Int → α) (P P' : Mat α) (hr : (P.rows : Int) = freeTones o.stored) (hr' : P'.rows = P.rows)
    (x : List (List α)) (h : (o.addPilots pv P).1 = .ok x) (h' : (o.addPilots pv P').1 = .ok x) :
    P.columns = P'.columns ∧ ∀ s ∈ x, s.length = o.stored.nFFT := by
  obtain ⟨⟨b1, b2, b3⟩, -, -⟩ := (addPilots_ok_iff o hw pv P).1 ⟨x, h⟩
  have he : o.stored.nFFT % 2 = 0 := by rcases built_even hw with h | h <;> omega
  have hav := ofdmAvailable_ok he (by omega) _ _ b2 b3
  have hcard := availTones_card he b2 b3 (by omega)
  have hnd := avail_nodup o.stored.nFFT o.stored.paddingLeft.toNat o.stored.paddingRight.toNat
  have hin : ∀ t ∈ availTones o.stored.nFFT o.stored.paddingLeft.toNat o.stored.paddingRight.toNat, inBand o.stored.nFFT t := by
    intro t ht; exact (mem_allTones he t).1 ((mem_avail he _ _ t).1 ht).1
  unfold OfdmRun.addPilots at h h'
  rw [hav] at h h'
  simp only at h h'
  generalize availTones o.stored.nFFT o.stored.paddingLeft.toNat o.stored.paddingRight.toNat = av at *
  have hlen : ∀ (Q : Mat α), Q.rows = P.rows → ∀ c ∈ Q.columns, c.length = P.rows := by
    intro Q hQ c hc
    obtain ⟨n, hn⟩ := List.getElem?_of_mem hc
    rw [(columns_get Q hn).2, hQ]
  have plain : o.stored.nPilots = 0 → ∀ x,
      (if P.rows = av.length ∨ P.rows = 1 then P.columns.mapM (placeData o.stored.nFFT (List.replicate o.stored.nFFT 0) av) else .error .ValueError : Res (List (List α))) = .ok x →
      (if P'.rows = av.length ∨ P'.rows = 1 then P'.columns.mapM (placeData o.stored.nFFT (List.replicate o.stored.nFFT 0) av) else .error .ValueError : Res (List (List α))) = .ok x →
      P.columns = P'.columns ∧ ∀ s ∈ x, s.length = o.stored.nFFT := by
    intro hz x h h'
    have hR : P.rows = av.length := by unfold freeTones at hr; omega
    rw [if_pos (Or.inl hR)] at h
    rw [if_pos (Or.inl (by rw [hr', hR]))] at h'
    have f1 := mapM_ok_get _ _ _ h
    have f2 := mapM_ok_get _ _ _ h'
    constructor
    · have l1 := hlen P rfl
      have l2 := hlen P' hr'
      generalize P.columns = A at f1 l1
      generalize P'.columns = B at f2 l2
      clear h h'
      induction f1 generalizing B with
      | nil => cases f2; rfl
      | cons ha _ ih =>
        cases f2 with
        | cons hb f2 =>
          rw [ih (fun c hc => l1 c (by simp [hc])) _ f2 (fun c hc => l2 c (by simp [hc])),
            placeData_inj (by simp) hnd hin (by rw [l1 _ (by simp), hR]) (by rw [l2 _ (by simp), hR]) ha hb]
    · intro s hs
      obtain ⟨n, hn, hns⟩ := List.mem_iff_getElem.1 hs
      have hA : n < P.columns.length := by rw [f1.length_eq]; exact hn
      have := (List.forall₂_iff_get.1 f1).2 n hA hn
      simp only [List.get_eq_getElem] at this
      rw [hns] at this
      rw [placeData_length this]; simp
  cases hp : o.stored.pilots with
  | none =>
    rw [hp] at h h'
    simp only at h h'
    exact plain (by unfold OfdmStored.nPilots; rw [hp]; rfl) x h h'
  | some pl =>
    rw [hp] at h h'
    simp only at h h'
    by_cases h0 : pl.nPilots > 0
    · rw [if_pos h0] at h h'
      simp only at h h'
      have hn : o.stored.nPilots = pl.nPilots := by unfold OfdmStored.nPilots; rw [hp]; rfl
      have hR : P.rows + pl.nPilots = av.length := by unfold freeTones at hr; omega
      exact symbolsI_inj pv pl (hw.sets pl hp) hnd hin P.columns P'.columns 0 _ _ x _ _
        (fun c hc => by rw [hlen P rfl c hc, hR]) (fun c hc => by rw [hlen P' hr' c hc, hR]) (Prod.ext h rfl) (Prod.ext h' rfl)
    · rw [if_neg h0] at h h'
      simp only at h h'
      refine plain ?_ x h h'
      unfold OfdmStored.nPilots; rw [hp]
      simp only [Option.map_some, Option.getD_some]; omega

end

/-! ### Signals -/

theorem cyclicPrefix_drop (CP : ℚ) (x : List ℂ) : (cyclicPrefix CP x).drop ((cyclicPrefix CP x).length - x.length) = x := by
  unfold cyclicPrefix
  split
  · simp only
    rw [List.length_append, Nat.add_sub_cancel]
    exact List.drop_left
  · simp

theorem cyclicPrefix_len (CP : ℚ) {x y : List ℂ} (h : x.length = y.length) : (cyclicPrefix CP x).length = (cyclicPrefix CP y).length := by
  unfold cyclicPrefix
  split
  · simp only [List.length_append, List.length_drop, h]
  · exact h

theorem cyclicPrefix_ge (CP : ℚ) (x : List ℂ) : x.length ≤ (cyclicPrefix CP x).length := by
  unfold cyclicPrefix
  split
  · simp only [List.length_append]; omega
  · exact Nat.le_refl _

theorem signal_inj {N : Nat} (hN : 0 < N) (CP : ℚ) {a b : List (List ℂ)} (ha : ∀ c ∈ a, c.length = N) (hb : ∀ c ∈ b, c.length = N)
    (h : (a.flatMap fun col => cyclicPrefix CP (ofdmIfft col)) = b.flatMap fun col => cyclicPrefix CP (ofdmIfft col)) : a = b := by
  rw [List.flatMap_def, List.flatMap_def] at h
  obtain ⟨M, hM⟩ : ∃ M, M = (cyclicPrefix CP (List.replicate N (0 : ℂ))).length := ⟨_, rfl⟩
  have hMp : 0 < M := by
    have := cyclicPrefix_ge CP (List.replicate N (0 : ℂ))
    rw [List.length_replicate] at this; omega
  have len : ∀ l : List (List ℂ), (∀ c ∈ l, c.length = N) → ∀ x ∈ l.map (fun col => cyclicPrefix CP (ofdmIfft col)), x.length = M := by
    intro l hl x hx
    obtain ⟨c, hc, rfl⟩ := List.mem_map.1 hx
    rw [hM]
    exact cyclicPrefix_len CP (by rw [ofdmIfft_length, hl c hc, List.length_replicate])
  have e := flatten_inj_const hMp (len a ha) (len b hb) h
  have back : ∀ l : List (List ℂ), (∀ c ∈ l, c.length = N) →
      (l.map (fun col => cyclicPrefix CP (ofdmIfft col))).map (fun y => fftshift (dftOrtho (y.drop (M - N)))) = l := by
    intro l hl
    rw [List.map_map]
    conv_rhs => rw [← List.map_id l]
    apply List.map_congr_left
    intro c hc
    have h1 := cyclicPrefix_drop CP (ofdmIfft c)
    rw [len l hl _ (List.mem_map.2 ⟨c, hc, rfl⟩), ofdmIfft_length, hl c hc] at h1
    simp only [Function.comp_apply, id_eq, h1, dft_ofdmIfft]
  rw [← back a ha, e, back b hb]

theorem spreadCol_inj (f : ℝ) {sf : Nat} (hsf : sf = 1 ∨ sf = 2 ∨ sf = 4) {a b : List ℂ} (hl : a.length = b.length)
    (h : spreadCol (complexNumbers f) sf a = spreadCol (complexNumbers f) sf b) : a = b := by
  obtain ⟨y, ey, -, -, ya⟩ := C25.C25_segments f sf hsf a
  obtain ⟨z, ez, -, -, zb⟩ := C25.C25_segments f sf hsf b
  rw [frequencySpread_ok _ hsf] at ey ez
  have ey := Except.ok.inj ey
  have ez := Except.ok.inj ez
  rw [← ya, ← zb, hl, ← ey, ← ez, h]

/-- **C104.**  On every constructed modulator with at least one data tone, in any state, with a non-zero modulation factor and any cyclic prefix:
if two accepted messages give the same signal, then the same entries are positive — provided no padding is asked for or the messages have equal sizes. -/
theorem C104_positive (f : ℝ) (hf : f ≠ 0) (CP : ℚ) (o : OfdmRun ℂ) (hw : Built o.stored) (hD : 0 < freeTones o.stored) (shape shape' : List Nat)
    (data data' : List ℚ) (pad : Bool) (hp : pad = false ∨ data.length = data'.length) (iq : List ℂ)
    (h : ((OfdmRun.bitsToIQ f CP (.arr shape data) pad).call o).1 = .ok iq) (h' : ((OfdmRun.bitsToIQ f CP (.arr shape' data') pad).call o).1 = .ok iq) :
    (data.map fun q => decide (0 < q)) = data'.map fun q => decide (0 < q) := by
  have r := ((C103.C103_accepts f CP o hw pad).1 shape data).1 ⟨iq, h⟩
  have r' := ((C103.C103_accepts f CP o hw pad).1 shape' data').1 ⟨iq, h'⟩
  obtain ⟨R, h4, h5⟩ := r.fits
  obtain ⟨R', h4', h5'⟩ := r'.fits
  have hRR : R' = R := Option.some.inj (h4'.symm.trans h4)
  subst hRR
  by_cases hc : symbolCount o.stored.splitLength.toNat data.length pad = 0 ∧ symbolCount o.stored.splitLength.toNat data'.length pad = 0
  · rw [(C103.C103_empty f CP o hw shape data pad r hc.1).1, (C103.C103_empty f CP o hw shape' data' pad r' hc.2).1]
  · have h6 : ((o.stored.frequencySpreading * R' : Nat) : Int) = freeTones o.stored ∨ o.stored.frequencySpreading * R' = 1 := by
      rcases h5 with h5 | h5
      · rcases h5' with h5' | h5'
        · exact absurd ⟨h5.2, h5'.2⟩ hc
        · exact h5'
      · exact h5
    obtain ⟨a1, a2, a3, -⟩ := fit_arith hw r.split h4 hD h6
    obtain ⟨P, e, r1, c1, v1⟩ := subcarriers_front (complexNumbers f) o hw r.oneAxis r.split r.size h4
    obtain ⟨P', e', r1', c1', v1'⟩ := subcarriers_front (complexNumbers f) o hw r'.oneAxis r'.split r'.size h4
    rw [C103.bitsToIQ_eq, e] at h
    rw [C103.bitsToIQ_eq, e'] at h'
    simp only at h h'
    cases hx : (o.addPilots (pilotOf (complexNumbers f)) P).1 with
    | error er => rw [hx] at h; cases h
    | ok x =>
      cases hx' : (o.addPilots (pilotOf (complexNumbers f)) P').1 with
      | error er => rw [hx'] at h'; cases h'
      | ok x' =>
        rw [hx] at h
        rw [hx'] at h'
        have h := Except.ok.inj h
        have h' := Except.ok.inj h'
        have hrow : (P.rows : Int) = freeTones o.stored := by rw [r1]; exact a3
        have hrow' : (P'.rows : Int) = freeTones o.stored := by rw [r1']; exact a3
        have s1 := (addPilots_inj o hw _ P P hrow rfl x hx hx).2
        have s2 := (addPilots_inj o hw _ P' P' hrow' rfl x' hx' hx').2
        have hxx := signal_inj (by have := r.band.1; omega) CP s1 s2 (h.trans h'.symm)
        subst hxx
        have hcol := (addPilots_inj o hw _ P P' hrow (by rw [r1, r1']) x hx hx').1
        rw [v1 a1 a2, v1' a1 a2] at hcol
        have hL : 0 < o.stored.splitLength.toNat := by have := r.split; omega
        have hsz := r.size
        have hsz' := r'.size
        generalize o.stored.splitLength.toNat = L at *
        have hpad : ∀ d : List ℚ, (pad = true ∨ d.length % L = 0) → (paddedData L d pad).length % L = 0 := by
          intro d hd
          unfold paddedData
          cases pad with
          | false => simpa using hd
          | true =>
            simp only [if_true, List.length_append, List.length_replicate]
            have := (ceilDiv_spec (a := d.length) hL).1
            rw [show d.length + (ceilDiv d.length L * L - d.length) = ceilDiv d.length L * L by omega]
            exact Nat.mul_mod_left _ _
        have hbits : ((paddedData L data pad).map fun q => decide (0 < q)) = (paddedData L data' pad).map fun q => decide (0 < q) := by
          rw [← chunks_flatten hL ((paddedData L data pad).map fun q => decide (0 < q)) (by rw [List.length_map]; exact hpad data hsz),
            ← chunks_flatten hL ((paddedData L data' pad).map fun q => decide (0 < q)) (by rw [List.length_map]; exact hpad data' hsz')]
          congr 1
          have ll := congrArg List.length hcol
          rw [List.length_map, List.length_map] at ll
          apply List.ext_getElem ll
          intro i i1 i2
          have hi : ((chunks L ((paddedData L data pad).map fun q => decide (0 < q))).map
              fun blk => spreadCol (complexNumbers f) o.stored.frequencySpreading (mapCol (complexNumbers f) o.stored.modulation blk))[i]? =
              ((chunks L ((paddedData L data' pad).map fun q => decide (0 < q))).map
              fun blk => spreadCol (complexNumbers f) o.stored.frequencySpreading (mapCol (complexNumbers f) o.stored.modulation blk))[i]? := by rw [hcol]
          rw [List.getElem?_map, List.getElem?_map, List.getElem?_eq_getElem i1, List.getElem?_eq_getElem i2] at hi
          simp only [Option.map_some, Option.some.injEq] at hi
          have l1 : (chunks L ((paddedData L data pad).map fun q => decide (0 < q)))[i].length = L := mem_chunks_length (List.getElem_mem _)
          have l2 : (chunks L ((paddedData L data' pad).map fun q => decide (0 < q)))[i].length = L := mem_chunks_length (List.getElem_mem _)
          exact mapCol_inj hf o.stored.modulation (by rw [l1, a1]) (by rw [l2, a1])
            (spreadCol_inj f hw.spreading (by rw [mapCol_length, mapCol_length, l1, l2]) hi)
        unfold paddedData at hbits
        cases pad with
        | false => exact hbits
        | true =>
          simp only [if_true, List.map_append] at hbits
          have hl : data.length = data'.length := by
            rcases hp with hp | hp
            · cases hp
            · exact hp
          exact (List.append_inj hbits (by simp [hl])).1

/-- **C104 (binary messages).**  Different binary messages give different signals. -/
theorem C104_distinct (f : ℝ) (hf : f ≠ 0) (CP : ℚ) (o : OfdmRun ℂ) (hw : Built o.stored) (hD : 0 < freeTones o.stored) (shape shape' : List Nat)
    (data data' : List ℚ) (hb : ∀ q ∈ data, q = 0 ∨ q = 1) (hb' : ∀ q ∈ data', q = 0 ∨ q = 1) (pad : Bool)
    (hp : pad = false ∨ data.length = data'.length) (iq : List ℂ)
    (h : ((OfdmRun.bitsToIQ f CP (.arr shape data) pad).call o).1 = .ok iq) (h' : ((OfdmRun.bitsToIQ f CP (.arr shape' data') pad).call o).1 = .ok iq) :
    data = data' := by
  have e := C104_positive f hf CP o hw hD shape shape' data data' pad hp iq h h'
  have back : ∀ d : List ℚ, (∀ q ∈ d, q = 0 ∨ q = 1) → (d.map fun q => decide (0 < q)).map (fun b => if b = true then (1 : ℚ) else 0) = d := by
    intro d hd
    rw [List.map_map]
    conv_rhs => rw [← List.map_id d]
    apply List.map_congr_left
    intro q hq
    rcases hd q hq with rfl | rfl <;> simp
  rw [← back data hb, ← back data' hb', e]

/-! ### No data tones -/

section
variable {α : Type} [Mul α] [Zero α]

theorem placeData_nil {N : Nat} {ch : List α} {col col' : List α} (h : col.length = col'.length) : placeData N ch [] col = placeData N ch [] col' := by
  unfold placeData
  simp only [List.zip_nil_left, List.foldl_nil, List.length_nil]
  match col, col', h with
  | [], [], _ => rfl
  | [a], [b], _ => rfl
  | a :: b :: l, c :: d :: l', _ => rfl

theorem symbolsI_nil {N : Nat} (pv : Int → α) (pl : Pilots α) (hset : ∀ ps ∈ pl.sets, ps.length = pl.nPilots) {av : List Int} (hnd : av.Nodup) (hav : av.length = pl.nPilots)
    (cols cols' : List (List α)) (h : List.Forall₂ (fun c c' => c.length = c'.length) cols cols') : ∀ vi idx g,
    addPilotsSymbolsI N pv pl av vi idx g cols = addPilotsSymbolsI N pv pl av vi idx g cols' := by
  induction h with
  | nil => intros; rfl
  | @cons c c' cs cs' hc _ ih =>
    intro vi idx g
    unfold addPilotsSymbolsI
    have e : addPilotsSymbolI N pv pl av vi idx g c = addPilotsSymbolI N pv pl av vi idx g c' := by
      unfold addPilotsSymbolI
      cases hs : pilotSetAt pl.sets idx with
      | none => rfl
      | some ps =>
        simp only
        cases hi : insertPilotsI N pv pl.values { channels := List.replicate N 0, available := av, pn9 := g, valuesIndex := vi } ps with
        | mk ri g' =>
          cases ri with
          | error e => rfl
          | ok s1 =>
            simp only
            have hps : ps.length = pl.nPilots := by
              apply hset
              unfold pilotSetAt at hs
              split at hs
              · exact List.mem_of_getElem? hs
              · split at hs
                · exact List.mem_of_getElem? hs
                · cases hs
            obtain ⟨-, -, v3, -⟩ := insertI_inv N pv pl.values ps _ _ _ hnd hi
            simp only at v3
            have hz : s1.available = [] := List.length_eq_zero_iff.1 (by omega)
            rw [hz, placeData_nil hc]
    rw [e]
    cases addPilotsSymbolI N pv pl av vi idx g c' with
    | mk r1 s1 =>
      cases r1 with
      | error e => rfl
      | ok v => obtain ⟨ch, vi'⟩ := v; simp only; rw [ih]

end

/-- **C104 (no data tones).**  On a constructed modulator without data tones, calls with messages of the same size and number of dimensions are indistinguishable:
same result, same state afterwards. -/
theorem C104_no_data (f : ℝ) (CP : ℚ) (o : OfdmRun ℂ) (hw : Built o.stored) (hD : freeTones o.stored = 0) (shape : List Nat)
    (data data' : List ℚ) (hl : data.length = data'.length) (pad : Bool) (h : Ready o shape data pad) :
    (OfdmRun.bitsToIQ f CP (.arr shape data) pad).call o = (OfdmRun.bitsToIQ f CP (.arr shape data') pad).call o := by
  obtain ⟨R, h4, h5⟩ := h.fits
  obtain ⟨P, e, r1, c1, -⟩ := subcarriers_front (complexNumbers f) o hw h.oneAxis h.split h.size h4
  obtain ⟨P', e', r1', c1', -⟩ := subcarriers_front (complexNumbers f) o hw (data := data') h.oneAxis h.split (by rw [← hl]; exact h.size) h4
  rw [C103.bitsToIQ_eq, C103.bitsToIQ_eq, e, e']
  have hcols : List.Forall₂ (fun c c' => c.length = c'.length) P.columns P'.columns := by
    have hcc : P'.cols = P.cols := by rw [c1, c1', hl]
    unfold Mat.columns
    rw [hcc, r1, r1']
    generalize List.range P.cols = l
    induction l with
    | nil => exact List.Forall₂.nil
    | cons a l ih => exact List.Forall₂.cons (by simp) ih
  have hrow : P'.rows = P.rows := by rw [r1, r1']
  have key : o.addPilots (pilotOf (complexNumbers f)) P = o.addPilots (pilotOf (complexNumbers f)) P' := by
    obtain ⟨b1, b2, b3⟩ := h.band
    have he : o.stored.nFFT % 2 = 0 := by rcases built_even hw with h | h <;> omega
    have hav := ofdmAvailable_ok he (by omega) _ _ b2 b3
    have hcard := availTones_card he b2 b3 (by omega)
    have hnd := avail_nodup o.stored.nFFT o.stored.paddingLeft.toNat o.stored.paddingRight.toNat
    unfold OfdmRun.addPilots
    rw [hav]
    simp only
    generalize availTones o.stored.nFFT o.stored.paddingLeft.toNat o.stored.paddingRight.toNat = av at *
    have plain : o.stored.nPilots = 0 →
        (if P.rows = av.length ∨ P.rows = 1 then P.columns.mapM (placeData o.stored.nFFT (List.replicate o.stored.nFFT 0) av) else .error .ValueError : Res (List (List ℂ))) =
        (if P'.rows = av.length ∨ P'.rows = 1 then P'.columns.mapM (placeData o.stored.nFFT (List.replicate o.stored.nFFT 0) av) else .error .ValueError : Res (List (List ℂ))) := by
      intro hz
      have hnil : av = [] := List.length_eq_zero_iff.1 (by unfold freeTones at hD; omega)
      rw [hrow, hnil]
      have : P.columns.mapM (placeData o.stored.nFFT (List.replicate o.stored.nFFT 0) []) = P'.columns.mapM (placeData o.stored.nFFT (List.replicate o.stored.nFFT 0) []) := by
        generalize P.columns = A at hcols
        generalize P'.columns = B at hcols
        induction hcols with
        | nil => rfl
        | cons hc _ ih => rw [List.mapM_cons, List.mapM_cons, placeData_nil hc, ih]
      rw [this]
    cases hp : o.stored.pilots with
    | none => simp only; rw [plain (by unfold OfdmStored.nPilots; rw [hp]; rfl)]
    | some pl =>
      simp only
      have hn : o.stored.nPilots = pl.nPilots := by unfold OfdmStored.nPilots; rw [hp]; rfl
      by_cases h0 : pl.nPilots > 0
      · rw [if_pos h0, if_pos h0]
        rw [symbolsI_nil _ pl (hw.sets pl hp) hnd (by unfold freeTones at hD; omega) _ _ hcols]
      · rw [if_neg h0, if_neg h0, plain (by omega)]
  rw [key]

/-! Non-vacuity: the samples of C103. -/
example (iq : List ℂ) (h : ((OfdmRun.bitsToIQ 1 (1 / 4) (.arr [6] [1, 0, 1, 1, 0, 1]) false).call C103.sample.start).1 = .ok iq) :
    ((OfdmRun.bitsToIQ 1 (1 / 4) (.arr [6] [1, 0, 1, 1, 0, 0]) false).call C103.sample.start).1 ≠ .ok iq := by
  intro h'
  have := C104_distinct 1 one_ne_zero (1 / 4) C103.sample.start C103.sample_built (by decide) [6] [6] _ _ (by decide) (by decide) false (Or.inl rfl) iq h h'
  revert this; decide

/-- Both calls succeed, so the signals exist and differ. -/
example : ∃ iq iq', ((OfdmRun.bitsToIQ 1 (1 / 4) (.arr [1, 6] [1, 0, 1, 1, 0, 1]) false).call C103.sample.start).1 = .ok iq ∧
    ((OfdmRun.bitsToIQ 1 (1 / 4) (.arr [1, 6] [1, 0, 1, 1, 0, 0]) false).call C103.sample.start).1 = .ok iq' ∧ iq ≠ iq' := by
  obtain ⟨iq, h⟩ := ((C103.C103_accepts 1 (1 / 4) C103.sample.start C103.sample_built false).1 [1, 6] [1, 0, 1, 1, 0, 1]).2 (C103.sample_ready _ rfl)
  obtain ⟨iq', h'⟩ := ((C103.C103_accepts 1 (1 / 4) C103.sample.start C103.sample_built false).1 [1, 6] [1, 0, 1, 1, 0, 0]).2 (C103.sample_ready _ rfl)
  refine ⟨iq, iq', h, h', fun e => ?_⟩
  subst e
  have := C104_distinct 1 one_ne_zero (1 / 4) C103.sample.start C103.sample_built (by decide) _ _ _ _ (by decide) (by decide) false (Or.inl rfl) iq h h'
  revert this; decide

/-- Without data tones two different messages have the same signal. -/
example : (OfdmRun.bitsToIQ 1 0 (.arr [8] [1, 0, 1, 1, 0, 1, 0, 0]) false).call C103.sampleLost.start =
    (OfdmRun.bitsToIQ 1 0 (.arr [8] [0, 0, 1, 1, 0, 1, 0, 0]) false).call C103.sampleLost.start :=
  C104_no_data 1 0 C103.sampleLost.start C103.sampleLost_built (by decide) [8] _ _ rfl false (C103.sampleLost_ready _ rfl)

end SunPhy.C104
