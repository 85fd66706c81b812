import Verif.Proofs.OfdmFrame
import Verif.Props.C05
/-
C23 — tone layout of OFDM symbols.
-/
namespace SunPhy.C23
open SunPhy Spec

/-- Conditions on the constructor arguments of `Ofdm_modulator` with pilots: even FFT size, DC outside the guard bands, pilot sets of
equal size, each consisting of different tones that are neither DC nor guard. -/
structure Usable {α} (c : OfdmCfg α) (pl : Pilots α) : Prop where
  pilots : c.pilots = some pl
  values : ∀ v, pl.values = .array v → v.length = pl.nPilots
  even : c.nFFT % 2 = 0
  left : c.paddingLeft ≤ c.nFFT / 2
  right : c.paddingRight < c.nFFT / 2
  npil : 0 < pl.nPilots
  sets : pl.sets ≠ []
  size : ∀ ps ∈ pl.sets, ps.length = pl.nPilots
  distinct : ∀ ps ∈ pl.sets, ps.Nodup
  free : ∀ ps ∈ pl.sets, ∀ t ∈ ps, t ∈ allTones c.nFFT ∧ t ≠ 0 ∧ ¬ isGuard c.nFFT c.paddingLeft c.paddingRight t

theorem Usable.good {α} [Zero α] {c : OfdmCfg α} {pl : Pilots α} (h : Usable c pl) : GoodCfg c pl := by
  refine ⟨h.pilots, h.values, h.even, h.left, h.right, h.npil, h.sets, fun ps hps => ⟨h.size ps hps, h.distinct ps hps, ?_⟩⟩
  intro t ht
  obtain ⟨h1, h2, h3⟩ := h.free ps hps t ht
  exact (mem_dataTones h.even).2 ⟨(mem_allTones h.even t).1 h1, h3, h2, by simp⟩

/-- Number of data tones. -/
def nDataTones {α} (c : OfdmCfg α) (pl : Pilots α) : Nat := c.nFFT - pl.nPilots - c.paddingLeft - c.paddingRight - 1

/-- The pilot values of symbol `n`: the array as given, or the bits `n*k, n*k+1, …` that the modulator's PN9 generator will deliver, as
BPSK values (`true ↦ +1`, `false ↦ -1`). -/
def PilotValuesAt {α} (pl : Pilots α) (pilotVal : Int → α) (pn9Value : Nat) (n : Nat) (pv : List α) : Prop :=
  match pl.values with
  | .array v => pv = v
  | .pn9 => pv.length = pl.nPilots ∧
      ∀ i < pl.nPilots, ∃ b, C05.output pn9Value (n * pl.nPilots + i) = some b ∧ pv[i]? = some (pilotVal (if b = 1 then 1 else -1))

theorem valuesAt_ok {α} [Zero α] (pl : Pilots α) (pilotVal : Int → α) (st : OfdmState) (n : Nat) :
    PilotValuesAt pl pilotVal st.getPn9Value n (pl.valuesAt pilotVal (nthPn9 pl st n)) := by
  unfold PilotValuesAt Pilots.valuesAt nthPn9 Pilots.pn9At
  cases hv : pl.values with
  | array v => rfl
  | pn9 =>
    simp only [pilotVals]
    refine ⟨by rw [List.length_map, Pn9.nextN_length], fun i hi => ⟨_, C05.output_eq _ _, ?_⟩⟩
    rw [Pn9.nextN_snd, Pn9.nextN_fst, List.getElem?_map, List.getElem?_map, List.getElem?_range hi]
    simp only [Option.map_some]
    rw [← Function.iterate_add_apply, show i + 1 + n * pl.nPilots = n * pl.nPilots + i + 1 by omega]
    unfold OfdmState.getPn9Value Pn9.getCurrentValue bpsk
    congr 2
    have := pn9Out_le (pn9Step^[n * pl.nPilots + i + 1] st.pn9.value)
    by_cases h : pn9Out (pn9Step^[n * pl.nPilots + i + 1] st.pn9.value) = 1
    · rw [if_pos h, h]; rfl
    · rw [if_neg h, show pn9Out (pn9Step^[n * pl.nPilots + i + 1] st.pn9.value) = 0 by omega]; rfl

/-- **C23 (with pilots).**  On a usable modulator, in any pilot state, every sequence of data columns of the right size is placed; symbol
`n` has zero DC and guard tones, the pilots on set `(index + n) mod count`, and the data on all remaining tones, in increasing order. -/
theorem C23_layout {α} [Zero α] (c : OfdmCfg α) (pl : Pilots α) (h : Usable c pl) (pilotVal : Int → α) (st : OfdmState)
    (hst : st.getPilotSetIndex < pl.sets.length) (cols : List (List α)) (hc : ∀ col ∈ cols, col.length = nDataTones c pl) :
    ∃ symbols st', addPilotsAndPadding c pilotVal st cols = (.ok symbols, st') ∧ symbols.length = cols.length ∧
      ∀ (n : Nat) (col : List α), cols[n]? = some col → ∃ ps pv symbol, symbols[n]? = some symbol ∧
        pl.sets[(st.getPilotSetIndex + n) % pl.sets.length]? = some ps ∧ PilotValuesAt pl pilotVal st.getPn9Value n pv ∧
        IsSymbol c.nFFT c.paddingLeft c.paddingRight ps pv col symbol := by
  have hn : c.nData = nDataTones c pl := by
    unfold OfdmCfg.nData nDataTones OfdmCfg.nPilots
    rw [h.pilots]; rfl
  refine ⟨_, _, addPilotsAndPadding_ok h.good pilotVal st hst cols (fun col hcol => by rw [hc col hcol, hn]), by simp, ?_⟩
  intro n col hcol
  refine ⟨nthSet pl st n, _, _, by rw [List.getElem?_mapIdx, hcol]; rfl, ?_, valuesAt_ok pl pilotVal st n,
    nthSymbol_spec h.good pilotVal st n col (by rw [hc col (List.mem_of_getElem? hcol), hn])⟩
  have hlt : (st.getPilotSetIndex + n) % pl.sets.length < pl.sets.length := Nat.mod_lt _ (List.length_pos_of_ne_nil h.sets)
  show _ = some (pl.sets.getD ((st.getPilotSetIndex + n) % pl.sets.length) [])
  rw [List.getD_eq_getElem?_getD, List.getElem?_eq_getElem hlt]
  rfl

/-- **C23 (without pilots).** -/
theorem C23_no_pilots {α} [Zero α] (c : OfdmCfg α) (h : c.pilots = none) (he : c.nFFT % 2 = 0) (hl : c.paddingLeft ≤ c.nFFT / 2)
    (hr : c.paddingRight < c.nFFT / 2) (pilotVal : Int → α) (st : OfdmState) (cols : List (List α))
    (hc : ∀ col ∈ cols, col.length = c.nFFT - c.paddingLeft - c.paddingRight - 1) :
    ∃ symbols, addPilotsAndPadding c pilotVal st cols = (.ok symbols, st) ∧ symbols.length = cols.length ∧
      ∀ (n : Nat) (col : List α), cols[n]? = some col → ∃ symbol, symbols[n]? = some symbol ∧ IsSymbol c.nFFT c.paddingLeft c.paddingRight [] [] col symbol := by
  have ha := availTones_length he hl hr
  have hlen : ∀ col ∈ cols, col.length = (availTones c.nFFT c.paddingLeft c.paddingRight).length := fun col hcol => by
    rw [hc col hcol]; omega
  refine ⟨cols.map fun col => symbolOf c.nFFT c.paddingLeft c.paddingRight [] [] col, ?_, by simp, ?_⟩
  · unfold addPilotsAndPadding
    rw [availableGlobal_eq c he hl hr]
    simp only [h]
    rw [mapM_eq_ok _ (fun col => symbolOf c.nFFT c.paddingLeft c.paddingRight [] [] col)]
    intro col hcol
    rw [placeData_ok _ _ _ _ (hlen col hcol)]
    rfl
  · intro n col hcol
    refine ⟨_, by rw [List.getElem?_map, hcol]; rfl, symbolOf_spec he (by omega) ⟨List.nodup_nil, by simp⟩ rfl ?_⟩
    exact (hlen col (List.mem_of_getElem? hcol)).symm

theorem insertPilots_sound {α} [Zero α] {N : Nat} (pilotVal : Int → α) (values : PilotValues α) (ps : List Int) :
    ∀ (s s' : PilotLoop α) g, s.available.Nodup → insertPilots N pilotVal values s ps = (.ok s', g) →
      ps.Nodup ∧ ∀ p ∈ ps, p ∈ s.available := by
  induction ps with
  | nil => intros; simp
  | cons p ps ih =>
    intro s s' g hav h
    unfold insertPilots at h
    cases hi : insertPilot N pilotVal values s p with
    | mk r g' =>
      rw [hi] at h
      cases r with
      | error e => simp at h
      | ok s1 =>
        simp only at h
        have h1 : p ∈ s.available ∧ s1.available = s.available.erase p := by
          unfold insertPilot at hi
          simp only at hi
          split at hi
          · cases hi
          · split at hi
            · cases hi
            · split at hi
              · rename_i hp
                rw [Prod.mk.injEq] at hi
                obtain ⟨hi, -⟩ := hi
                cases hi
                exact ⟨hp, rfl⟩
              · cases hi
        obtain ⟨h2, h3⟩ := ih s1 s' g (by rw [h1.2]; exact hav.erase p) h
        rw [h1.2] at h3
        refine ⟨List.nodup_cons.2 ⟨fun hp => ?_, h2⟩, ?_⟩
        · have := h3 p hp
          rw [hav.mem_erase_iff] at this
          exact this.1 rfl
        · intro q hq
          rcases List.mem_cons.1 hq with rfl | hq
          · exact h1.1
          · exact List.mem_of_mem_erase (h3 q hq)

theorem symbols_sound {α} [Zero α] (c : OfdmCfg α) (pilotVal : Int → α) (pl : Pilots α) (av : List Int) (hav : av.Nodup)
    (cols : List (List α)) : ∀ (vi : Nat) (st st' : OfdmState) symbols,
    addPilotsSymbols c pilotVal pl av vi st cols = (.ok symbols, st') →
    ∀ n < cols.length, ∃ ps, pl.sets[(st.pilotsColumnIndex + n) % pl.sets.length]? = some ps ∧ ps.Nodup ∧ ∀ p ∈ ps, p ∈ av := by
  induction cols with
  | nil => intro _ _ _ _ _ n hn; simp at hn
  | cons col cols ih =>
    intro vi st st' symbols h n hn
    unfold addPilotsSymbols at h
    cases h1 : addPilotsSymbol c pilotVal pl av vi st col with
    | mk r st1 =>
      rw [h1] at h
      cases r with
      | error e => simp at h
      | ok v =>
        obtain ⟨ch, vi'⟩ := v
        simp only at h
        cases h2 : addPilotsSymbols c pilotVal pl av vi' st1 cols with
        | mk r2 st2 =>
          rw [h2] at h
          cases r2 with
          | error e => simp at h
          | ok chs =>
            unfold addPilotsSymbol at h1
            cases hset : pl.sets[st.pilotsColumnIndex]? with
            | none => rw [hset] at h1; simp at h1
            | some ps =>
              have hlt := (List.getElem?_eq_some_iff.1 hset).1
              rw [hset] at h1
              simp only at h1
              split at h1
              · simp at h1
              · rename_i s1 g hins
                have hst1 : st1.pilotsColumnIndex = if st.pilotsColumnIndex + 1 ≥ pl.sets.length then 0 else st.pilotsColumnIndex + 1 := by
                  split at h1
                  · simp at h1
                  · rw [Prod.mk.injEq] at h1
                    rw [← h1.2]
                cases n with
                | zero =>
                  refine ⟨ps, ?_, ?_⟩
                  · rw [Nat.add_zero, Nat.mod_eq_of_lt hlt]; exact hset
                  · exact insertPilots_sound pilotVal pl.values ps _ _ _ hav hins
                | succ n =>
                  have := ih vi' st1 st2 chs h2 n (by simpa using hn)
                  rw [hst1] at this
                  have e : ((if st.pilotsColumnIndex + 1 ≥ pl.sets.length then 0 else st.pilotsColumnIndex + 1) + n) % pl.sets.length =
                      (st.pilotsColumnIndex + (n + 1)) % pl.sets.length := by
                    split
                    · have : st.pilotsColumnIndex + 1 = pl.sets.length := by omega
                      rw [show st.pilotsColumnIndex + (n + 1) = pl.sets.length + n by omega, Nat.zero_add, Nat.add_mod_left]
                    · congr 1; omega
                  rwa [e] at this

/-- **C23 (collisions are never modulated).**  Whatever the pilot sets (the constructor does not check them), a call that succeeds has
only used sets of pairwise different tones, none of them DC or guard: a set with a duplicate, a guard tone, DC or a tone outside the
band raises an exception. -/
theorem C23_success_implies_valid {α} [Zero α] (c : OfdmCfg α) (pl : Pilots α) (hp : c.pilots = some pl) (h0 : 0 < pl.nPilots)
    (he : c.nFFT % 2 = 0) (hl : c.paddingLeft ≤ c.nFFT / 2) (hr : c.paddingRight < c.nFFT / 2) (pilotVal : Int → α)
    (st st' : OfdmState) (cols symbols : List (List α)) (hok : addPilotsAndPadding c pilotVal st cols = (.ok symbols, st')) :
    ∀ n < cols.length, ∃ ps, pl.sets[(st.getPilotSetIndex + n) % pl.sets.length]? = some ps ∧ ps.Nodup ∧
      ∀ t ∈ ps, t ∈ allTones c.nFFT ∧ t ≠ 0 ∧ ¬ isGuard c.nFFT c.paddingLeft c.paddingRight t := by
  unfold addPilotsAndPadding at hok
  rw [availableGlobal_eq c he hl hr] at hok
  simp only [hp] at hok
  rw [if_pos h0] at hok
  intro n hn
  obtain ⟨ps, h1, h2, h3⟩ := symbols_sound c pilotVal pl _ (dataTones_nodup ..) cols 0 st st' symbols hok n hn
  refine ⟨ps, h1, h2, fun t ht => ?_⟩
  have := (mem_dataTones he).1 (h3 t ht)
  exact ⟨(mem_allTones he t).2 this.1, this.2.2.1, this.2.1⟩

/-- **C23 (the data can be read back)** from a symbol, knowing the pilot set. -/
theorem C23_read_back {α} [Zero α] (N padL padR : Nat) (ps : List Int) (pv col symbol : List α)
    (h : IsSymbol N padL padR ps pv col symbol) : (dataToneList N padL padR ps).filterMap (tone N symbol) = col := by
  have e : (dataToneList N padL padR ps).filterMap (tone N symbol) = ((dataToneList N padL padR ps).map (tone N symbol)).filterMap id := by
    rw [List.filterMap_map]; rfl
  rw [e, h.data, List.filterMap_map]
  exact List.filterMap_some

/-- **C23 (MR-OFDM).**  The modulators created by `Mr_ofdm_modulator` for header and payload are usable for every supported
configuration. -/
theorem C23_mr_ofdm (p : OfdmParams) (h : Supported p) (MCS : Nat) (α : Type) [Zero α] :
    Usable (p.ofdmCfg MCS α) ⟨pilotsIndices p.option, (((pilotsIndices p.option)[0]?).getD []).length, .pn9⟩ := by
  have g := goodCfg h MCS α
  refine ⟨rfl, (fun v hv => by cases hv), g.even, g.left, g.right, g.npil, g.sets, fun ps hps => (g.good ps hps).1,
    fun ps hps => (g.good ps hps).2.1, fun ps hps t ht => ?_⟩
  have := (mem_dataTones g.even).1 ((g.good ps hps).2.2 t ht)
  exact ⟨(mem_allTones g.even t).2 this.1, this.2.2.1, this.2.1⟩

/-- A usable modulator with an array of pilot values. -/
example : Usable (α := Int) ⟨8, .BPSK, 1, 1, 1, some ⟨[[-2, 1], [-1, 2]], 2, .array [5, 7]⟩⟩ ⟨[[-2, 1], [-1, 2]], 2, .array [5, 7]⟩ :=
  ⟨rfl, fun v hv => by cases hv; rfl, rfl, by decide, by decide, by decide, by decide, by decide, by decide, by decide +kernel⟩

example : addPilotsAndPadding (α := Int) ⟨8, .BPSK, 1, 1, 1, some ⟨[[-2, 1], [-1, 2]], 2, .array [5, 7]⟩⟩ id
    (OfdmState.init) [[10, 20, 30], [11, 21, 31]] = (.ok [[0, 10, 5, 20, 0, 7, 30, 0], [0, 11, 21, 5, 0, 31, 7, 0]], OfdmState.init) := by
  decide +kernel

/-- A duplicated pilot is refused. -/
example : (addPilotsAndPadding (α := Int) ⟨8, .BPSK, 1, 1, 1, some ⟨[[1, 1]], 2, .array [5, 7]⟩⟩ id
    (OfdmState.init) [[10, 20, 30]]).1 = .error .ValueError := by
  decide +kernel

end SunPhy.C23
