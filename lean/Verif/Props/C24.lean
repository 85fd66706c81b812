import Verif.Props.C23
/-
C24 — the pilot set and the pilot PN9 sequence run on across calls, across modulators and from header to payload.
-/
namespace SunPhy.C24
open SunPhy Spec

/-- A usable modulator whose data tones are filled exactly by `L` bits. -/
structure Fits {α} (c : OfdmCfg α) (pl : Pilots α) (L : Nat) : Prop where
  usable : C23.Usable c pl
  spreading : c.frequencySpreading = 1 ∨ c.frequencySpreading = 2 ∨ c.frequencySpreading = 4
  pos : 0 < L
  bits : c.frequencySpreading * L = C23.nDataTones c pl * c.modulation.bitsPerSymbol
  whole : L % c.modulation.bitsPerSymbol = 0

theorem Fits.good {α} [Mul α] [Zero α] {c : OfdmCfg α} {pl : Pilots α} {L : Nat} (h : Fits c pl L) : GoodMod c pl L := by
  have hb : 0 < c.modulation.bitsPerSymbol := by cases c.modulation <;> decide
  obtain ⟨k, hk⟩ := Nat.dvd_of_mod_eq_zero h.whole
  have hnp : c.nPilots = pl.nPilots := by unfold OfdmCfg.nPilots; rw [h.usable.pilots]; rfl
  have hsf : 0 < c.frequencySpreading := by rcases h.spreading with e | e | e <;> omega
  have e := h.bits
  have hd : c.nData = C23.nDataTones c pl := by unfold OfdmCfg.nData C23.nDataTones; rw [hnp]
  have hpos : 0 < C23.nDataTones c pl := by
    have : 0 < C23.nDataTones c pl * c.modulation.bitsPerSymbol := by rw [← e]; exact Nat.mul_pos hsf h.pos
    exact Nat.pos_of_mul_pos_right this
  refine ⟨h.usable.good, ?_, h.pos, h.whole, h.spreading, ?_⟩
  · unfold OfdmCfg.splitLength
    rw [hnp]
    have e1 : (c.nFFT : Int) - pl.nPilots - c.paddingLeft - c.paddingRight - 1 = (C23.nDataTones c pl : Nat) := by
      unfold C23.nDataTones at hpos ⊢; omega
    rw [e1]
    have e2 : ((C23.nDataTones c pl : Nat) : Int) * (c.modulation.bitsPerSymbol : Nat) = (c.frequencySpreading : Int) * (L : Int) := by
      rw [← Int.natCast_mul, ← Int.natCast_mul, e]
    rw [e2]
    exact Int.mul_tdiv_cancel_left _ (by omega)
  · rw [hd]
    rw [hk] at e ⊢
    rw [Nat.mul_div_cancel_left _ hb]
    apply Nat.eq_of_mul_eq_mul_right hb
    rw [← e]
    rw [Nat.mul_assoc, Nat.mul_comm k]

/-- **C24 (one call or two).**  On the same modulator, in any pilot state, `bitsToIQ(a)` followed by `bitsToIQ(b)` gives the samples of
`bitsToIQ(a ++ b)` and leaves the same state (`a`, `b` fill whole symbols; a single bit is refused by the code). -/
theorem C24_concat (c : OfdmCfg ℂ) (pl : Pilots ℂ) (L : Nat) (h : Fits c pl L) (factor : ℝ) (CP : ℚ) (st : OfdmState)
    (hst : st.getPilotSetIndex < pl.sets.length) (a b : Bits) (ha : a.length % L = 0) (hb : b.length % L = 0)
    (h1 : a.length ≠ 1 ∧ b.length ≠ 1 ∧ (a ++ b).length ≠ 1) :
    ∃ x y st1 st2, (ofdmBitsToIQ c factor CP a).call st = (.ok x, st1) ∧ (ofdmBitsToIQ c factor CP b).call st1 = (.ok y, st2) ∧
      (ofdmBitsToIQ c factor CP (a ++ b)).call st = (.ok (x ++ y), st2) := by
  have g := h.good
  refine ⟨_, _, _, _, ofdmBitsToIQ_ok g factor CP a ha h1.1 st hst false,
    ofdmBitsToIQ_ok g factor CP b hb h1.2.1 _ (stateAfter_index_lt g.cfg.sets _ _) false, ?_⟩
  rw [ofdmBitsToIQ_ok g factor CP (a ++ b) (by rw [List.length_append, Nat.add_mod, ha, hb]; rfl) h1.2.2 st hst false,
    streamSymbols_append g _ _ _ _ ha, List.flatMap_append, stateAfter_add, List.length_append,
    Nat.add_div_of_dvd_right (Nat.dvd_of_mod_eq_zero ha)]

/-- Two pilot states that answer `get_pilot_set_index()` and `get_pn9_value()` alike. -/
def Sim (s t : OfdmState) : Prop := s.getPilotSetIndex = t.getPilotSetIndex ∧ s.getPn9Value = t.getPn9Value

section
variable {α : Type} [Zero α]

theorem insertPilot_sim (N : Nat) (pv : Int → α) (vals : PilotValues α) (s : PilotLoop α) (g : Pn9) (hg : s.pn9.value = g.value) (p : Int) :
    (∃ e g1 g2, insertPilot N pv vals s p = (.error e, g1) ∧ insertPilot N pv vals { s with pn9 := g } p = (.error e, g2) ∧ g1.value = g2.value) ∨
    (∃ s1 g1 g2, insertPilot N pv vals s p = (.ok s1, g1) ∧ insertPilot N pv vals { s with pn9 := g } p = (.ok { s1 with pn9 := g2 }, g2) ∧
      g1.value = g2.value ∧ s1.pn9 = g1) := by
  have hn : s.pn9.next.1 = g.next.1 ∧ s.pn9.next.2.value = g.next.2.value := by simp [Pn9.next, hg]
  unfold insertPilot
  cases vals with
  | pn9 =>
    simp only
    by_cases h1 : p + (N : Int) / 2 ≥ N ∨ p + (N : Int) / 2 < -(N : Int)
    · left; exact ⟨.IndexError, _, _, by rw [if_pos h1], by rw [if_pos h1], hn.2⟩
    · rw [if_neg h1, if_neg h1]
      by_cases h2 : p ∈ s.available
      · right
        rw [if_pos h2, if_pos h2]
        refine ⟨_, _, g.next.2, rfl, ?_, hn.2, rfl⟩
        rw [← hn.1]
      · left
        rw [if_neg h2, if_neg h2]
        exact ⟨.ValueError, _, _, rfl, rfl, hn.2⟩
  | array v =>
    simp only
    cases v[s.valuesIndex]? with
    | none => left; exact ⟨.IndexError, _, _, rfl, rfl, hg⟩
    | some x =>
      simp only
      by_cases h1 : p + (N : Int) / 2 ≥ N ∨ p + (N : Int) / 2 < -(N : Int)
      · left; exact ⟨.IndexError, _, _, by rw [if_pos h1], by rw [if_pos h1], hg⟩
      · rw [if_neg h1, if_neg h1]
        by_cases h2 : p ∈ s.available
        · right
          rw [if_pos h2, if_pos h2]
          exact ⟨_, _, g, rfl, rfl, hg, rfl⟩
        · left
          rw [if_neg h2, if_neg h2]
          exact ⟨.ValueError, _, _, rfl, rfl, hg⟩

theorem insertPilots_sim (N : Nat) (pv : Int → α) (vals : PilotValues α) (ps : List Int) : ∀ (s : PilotLoop α) (g : Pn9),
    s.pn9.value = g.value →
    (∃ e g1 g2, insertPilots N pv vals s ps = (.error e, g1) ∧ insertPilots N pv vals { s with pn9 := g } ps = (.error e, g2) ∧ g1.value = g2.value) ∨
    (∃ s1 g1 g2, insertPilots N pv vals s ps = (.ok s1, g1) ∧ insertPilots N pv vals { s with pn9 := g } ps = (.ok { s1 with pn9 := g2 }, g2) ∧
      g1.value = g2.value ∧ s1.pn9 = g1) := by
  induction ps with
  | nil => intro s g hg; right; exact ⟨s, s.pn9, g, rfl, rfl, hg, rfl⟩
  | cons p ps ih =>
    intro s g hg
    unfold insertPilots
    rcases insertPilot_sim N pv vals s g hg p with ⟨e, g1, g2, h1, h2, h3⟩ | ⟨s1, g1, g2, h1, h2, h3, h4⟩
    · left; rw [h1, h2]; exact ⟨e, g1, g2, rfl, rfl, h3⟩
    · rw [h1, h2]
      simp only
      exact ih s1 g2 (by rw [h4, h3])

theorem symbol_sim (c : OfdmCfg α) (pv : Int → α) (pl : Pilots α) (av : List Int) (vi : Nat) (st st2 : OfdmState) (h : Sim st st2) (col : List α) :
    (addPilotsSymbol c pv pl av vi st col).1 = (addPilotsSymbol c pv pl av vi st2 col).1 ∧
    Sim (addPilotsSymbol c pv pl av vi st col).2 (addPilotsSymbol c pv pl av vi st2 col).2 := by
  obtain ⟨h1, h2⟩ := h
  unfold OfdmState.getPilotSetIndex at h1
  unfold OfdmState.getPn9Value Pn9.getCurrentValue at h2
  unfold addPilotsSymbol
  rw [← h1]
  cases pl.sets[st.pilotsColumnIndex]? with
  | none => exact ⟨rfl, h1, h2⟩
  | some set =>
    simp only
    rcases insertPilots_sim c.nFFT pv pl.values set ⟨List.replicate c.nFFT 0, av, st.pn9, vi⟩ st2.pn9 h2 with
      ⟨e, g1, g2, e1, e2, e3⟩ | ⟨s1, g1, g2, e1, e2, e3, e4⟩
    · rw [e1, show insertPilots c.nFFT pv pl.values ⟨List.replicate c.nFFT 0, av, st2.pn9, vi⟩ set = _ from e2]
      exact ⟨rfl, rfl, e3⟩
    · rw [e1, show insertPilots c.nFFT pv pl.values ⟨List.replicate c.nFFT 0, av, st2.pn9, vi⟩ set = _ from e2]
      simp only
      cases placeData c.nFFT s1.channels s1.available col with
      | error e => exact ⟨rfl, rfl, e3⟩
      | ok ch => exact ⟨rfl, rfl, e3⟩

theorem symbols_sim (c : OfdmCfg α) (pv : Int → α) (pl : Pilots α) (av : List Int) (cols : List (List α)) :
    ∀ (vi : Nat) (st st2 : OfdmState), Sim st st2 →
    (addPilotsSymbols c pv pl av vi st cols).1 = (addPilotsSymbols c pv pl av vi st2 cols).1 ∧
    Sim (addPilotsSymbols c pv pl av vi st cols).2 (addPilotsSymbols c pv pl av vi st2 cols).2 := by
  induction cols with
  | nil => intro vi st st2 h; exact ⟨rfl, h⟩
  | cons col cols ih =>
    intro vi st st2 h
    obtain ⟨h1, h2⟩ := symbol_sim c pv pl av vi st st2 h col
    unfold addPilotsSymbols
    generalize addPilotsSymbol c pv pl av vi st col = r1 at h1 h2
    generalize addPilotsSymbol c pv pl av vi st2 col = r2 at h1 h2
    obtain ⟨r1, s1⟩ := r1
    obtain ⟨r2, s2⟩ := r2
    simp only at h1 h2
    subst h1
    cases r1 with
    | error e => exact ⟨rfl, h2⟩
    | ok v =>
      obtain ⟨ch, vi'⟩ := v
      obtain ⟨h3, h4⟩ := ih vi' s1 s2 h2
      simp only
      generalize addPilotsSymbols c pv pl av vi' s1 cols = q1 at h3 h4
      generalize addPilotsSymbols c pv pl av vi' s2 cols = q2 at h3 h4
      obtain ⟨q1, t1⟩ := q1
      obtain ⟨q2, t2⟩ := q2
      simp only at h3 h4
      subst h3
      cases q1 with
      | error e => exact ⟨rfl, h4⟩
      | ok v => exact ⟨rfl, h4⟩

theorem pilots_sim (c : OfdmCfg α) (pv : Int → α) (st st2 : OfdmState) (h : Sim st st2) (cols : List (List α)) :
    (addPilotsAndPadding c pv st cols).1 = (addPilotsAndPadding c pv st2 cols).1 ∧
    Sim (addPilotsAndPadding c pv st cols).2 (addPilotsAndPadding c pv st2 cols).2 := by
  unfold addPilotsAndPadding
  cases c.availableGlobal with
  | error e => exact ⟨rfl, h⟩
  | ok av =>
    simp only
    cases c.pilots with
    | none => exact ⟨rfl, h⟩
    | some pl =>
      simp only
      split
      · exact symbols_sim c pv pl av cols 0 st st2 h
      · exact ⟨rfl, h⟩
end

theorem subcarriers_sim {α} [Mul α] [Zero α] (c : OfdmCfg α) (nb : Numbers α) (bits : Bits) (pad : Bool) (st st2 : OfdmState) (h : Sim st st2) :
    ((ofdmSubcarriers c nb bits pad).call st).1 = ((ofdmSubcarriers c nb bits pad).call st2).1 ∧
    Sim ((ofdmSubcarriers c nb bits pad).call st).2 ((ofdmSubcarriers c nb bits pad).call st2).2 := by
  unfold ofdmSubcarriers
  by_cases h1 : bits.length = 1
  · rw [if_pos h1]
    exact ⟨rfl, h⟩
  · rw [if_neg h1]
    simp only [PyM.call_bind, PyM.call_pure, PyM.seqR_ok, PyM.call_lift]
    cases c.splitMessage bits pad with
    | error e => exact ⟨rfl, h⟩
    | ok split =>
      simp only [PyM.call_bind, PyM.call_lift, PyM.seqR_ok]
      cases split.mapM (constellationMap nb c.modulation) with
      | error e => exact ⟨rfl, h⟩
      | ok mapped =>
        simp only [PyM.call_bind, PyM.call_lift, PyM.seqR_ok]
        cases mapped.mapM (frequencySpread nb c.frequencySpreading) with
        | error e => exact ⟨rfl, h⟩
        | ok spread => exact pilots_sim c (pilotOf nb) st st2 h spread

/-- **C24 (handing over to a new modulator).**  After any history the old modulator is in some pilot state `st`; a new modulator with the
same parameters and `initial_pilot_set = get_pilot_set_index()`, `initial_pn9_seed = get_pn9_value()` returns the same samples (or the
same exception) as the old one would have, and answers the two queries alike afterwards: it can be used (and handed over) in its place
for ever. -/
theorem C24_handover (c : OfdmCfg ℂ) (factor : ℝ) (CP : ℚ) (st : OfdmState) (calls : List (Bits × Bool)) :
    let run : OfdmState → List (Res (List ℂ)) × OfdmState := fun s =>
      calls.foldl (fun r call => let x := (ofdmBitsToIQ c factor CP call.1 call.2).call r.2; (r.1 ++ [x.1], x.2)) ([], s)
    let new := OfdmState.init st.getPilotSetIndex st.getPn9Value
    (run st).1 = (run new).1 ∧ (run st).2.getPilotSetIndex = (run new).2.getPilotSetIndex ∧
      (run st).2.getPn9Value = (run new).2.getPn9Value := by
  have one : ∀ (call : Bits × Bool) s t, Sim s t → ((ofdmBitsToIQ c factor CP call.1 call.2).call s).1 =
      ((ofdmBitsToIQ c factor CP call.1 call.2).call t).1 ∧
      Sim ((ofdmBitsToIQ c factor CP call.1 call.2).call s).2 ((ofdmBitsToIQ c factor CP call.1 call.2).call t).2 := by
    intro call s t h
    obtain ⟨h1, h2⟩ := subcarriers_sim c (complexNumbers factor) call.1 call.2 s t h
    unfold ofdmBitsToIQ
    simp only [PyM.call_bind]
    generalize (ofdmSubcarriers c (complexNumbers factor) call.1 call.2).call s = q1 at h1 h2
    generalize (ofdmSubcarriers c (complexNumbers factor) call.1 call.2).call t = q2 at h1 h2
    obtain ⟨q1, t1⟩ := q1
    obtain ⟨q2, t2⟩ := q2
    simp only at h1 h2
    subst h1
    cases q1 with
    | error e => exact ⟨rfl, h2⟩
    | ok v => exact ⟨rfl, h2⟩
  have gen : ∀ (calls : List (Bits × Bool)) (acc : List (Res (List ℂ))) s t, Sim s t →
      (calls.foldl (fun r call => let x := (ofdmBitsToIQ c factor CP call.1 call.2).call r.2; (r.1 ++ [x.1], x.2)) (acc, s)).1 =
      (calls.foldl (fun r call => let x := (ofdmBitsToIQ c factor CP call.1 call.2).call r.2; (r.1 ++ [x.1], x.2)) (acc, t)).1 ∧
      Sim (calls.foldl (fun r call => let x := (ofdmBitsToIQ c factor CP call.1 call.2).call r.2; (r.1 ++ [x.1], x.2)) (acc, s)).2
      (calls.foldl (fun r call => let x := (ofdmBitsToIQ c factor CP call.1 call.2).call r.2; (r.1 ++ [x.1], x.2)) (acc, t)).2 := by
    intro calls
    induction calls with
    | nil => intro acc s t h; exact ⟨rfl, h⟩
    | cons call calls ih =>
      intro acc s t h
      obtain ⟨h1, h2⟩ := one call s t h
      simp only [List.foldl_cons]
      rw [h1]
      exact ih _ _ _ h2
  exact gen calls [] st _ ⟨rfl, rfl⟩

/-- Pilot values of the frame's symbol `n` in terms of the sequence started at the header. -/
theorem output_shift (s a k : Nat) : C05.output (pn9Step^[a] s) k = C05.output s (a + k) := by
  rw [C05.output_eq, C05.output_eq, ← Function.iterate_add_apply]
  congr 3; omega

/-- The pilots of an OFDM option. -/
def pilotsOf (opt : Nat) : Pilots ℂ := ⟨pilotsIndices opt, (((pilotsIndices opt)[0]?).getD []).length, .pn9⟩

/-- **C24 (header to payload).**  The frame of every acceptable message is the training fields followed by OFDM symbols such that symbol
`n` (header symbols first, counted through to the payload) carries the pilots on set `n mod (number of sets)` with PN9 bits number
`n*k, …, n*k + k-1` of the sequence started with seed `0x1FF` (`k` pilots per symbol). -/
theorem C24_frame (o : OfdmObj) (h : Supported o.params) (a : Arg) (m : Bits) (ha : checkBinaryArray a = .ok m)
    (h1 : 1 ≤ m.length / 8) (h2 : m.length / 8 ≤ 2047) :
    ∃ (iq : List ℂ) (fs : ℚ) (o' : OfdmObj) (training : List ℂ) (symbols : List (List ℂ)), (ofdmModBitsToIQ a).call o = (.ok (iq, fs), o') ∧
      iq = training ++ symbols.flatMap (fun col => cyclicPrefix (1 / 4) (ofdmIfft col)) ∧
      training.length = 5 * fftSize o.params.option + 5 * fftSize o.params.option / 2 ∧
      ∀ (n : Nat) (symbol : List ℂ), symbols[n]? = some symbol → ∃ ps pv datas,
        (pilotsIndices o.params.option)[n % (pilotsIndices o.params.option).length]? = some ps ∧
        C23.PilotValuesAt (pilotsOf o.params.option) (fun (v : Int) => ((v : Int) : ℂ)) 0x1FF n pv ∧
        IsSymbol (fftSize o.params.option) o.params.guard (o.params.guard - 1) ps pv datas symbol := by
  obtain ⟨o', e, -⟩ := bitsToIQ_ok h ha h1 h2
  refine ⟨_, _, o', stfIQ o.params ++ ltfIQ o.params, headerSyms o.params (m.length / 8) ++ payloadSyms o.params m, e, ?_, ?_, ?_⟩
  · unfold frameIQ symbolsIQ
    rw [List.flatMap_append]
    simp only [List.append_assoc]
  · obtain ⟨f1, f2⟩ := fft_facts o.params.option (by have := option_cases h; simp; omega)
    have hl := ltfTable_length o.params.option (by have := option_cases h; simp; omega)
    unfold stfIQ ltfIQ
    simp only [List.length_append, List.length_map, List.length_drop, List.length_zipWith, List.length_replicate]
    rw [cyclicPrefix_length_quarter _ (by rw [ofdmIfft_length, stfTable_length]; omega) (by rw [ofdmIfft_length, stfTable_length]; omega),
      ofdmIfft_length, stfTable_length, ofdmIfft_length, List.length_map, hl]
    omega
  · intro n symbol hs
    have hpv : ∀ factor, (pilotOf (complexNumbers factor) : Int → ℂ) = fun (v : Int) => ((v : Int) : ℂ) := by
      intro factor; funext v
      show ((v : Int) : ℂ) + ((0 : Int) : ℂ) * Complex.I = v
      simp
    have hset : ∀ k : Nat, (pilotsIndices o.params.option)[k % (pilotsIndices o.params.option).length]? =
        some ((pilotsIndices o.params.option).getD (k % (pilotsIndices o.params.option).length) []) := by
      intro k
      have hne := (goodCfg h 0 ℂ).sets
      have hlt : k % (pilotsIndices o.params.option).length < (pilotsIndices o.params.option).length :=
        Nat.mod_lt _ (List.length_pos_of_ne_nil hne)
      rw [List.getD_eq_getElem?_getD, List.getElem?_eq_getElem hlt]; rfl
    have hl : (headerSyms o.params (m.length / 8)).length = headerSymbols o.params := by
      unfold headerSyms
      rw [streamSymbols_length, headerCoded_length h h1 h2, Nat.mul_div_cancel _ (goodMod h (lowestMcs_le o.params.option) ℂ).pos]
    by_cases hn : n < headerSymbols o.params
    · rw [List.getElem?_append_left (by rw [hl]; exact hn)] at hs
      have g := goodMod h (lowestMcs_le o.params.option) ℂ
      unfold headerSyms streamSymbols at hs
      rw [List.getElem?_mapIdx] at hs
      obtain ⟨blk, hblk, rfl⟩ := Option.map_eq_some_iff.1 hs
      have := nthSymbol_spec g.cfg (pilotOf (complexNumbers (kMod (mcsModulation (lowestMcs o.params.option))))) OfdmState.init n
        (dataCol _ (complexNumbers (kMod (mcsModulation (lowestMcs o.params.option)))) blk)
        (g.dataCol_length _ (mem_chunks_length (List.mem_of_getElem? hblk)))
      refine ⟨_, _, _, ?_, ?_, this⟩
      · rw [hset n]
        unfold nthSet
        rw [show OfdmState.init.pilotsColumnIndex + n = n from Nat.zero_add n]
        rfl
      · have := C23.valuesAt_ok (optPilots ℂ o.params.option) (pilotOf (complexNumbers (kMod (mcsModulation (lowestMcs o.params.option))))) OfdmState.init n
        rw [hpv] at this ⊢
        exact this
    · rw [List.getElem?_append_right (by rw [hl]; omega), hl] at hs
      have g := goodMod h (mcs_le h) ℂ
      unfold payloadSyms streamSymbols at hs
      rw [List.getElem?_mapIdx] at hs
      obtain ⟨blk, hblk, rfl⟩ := Option.map_eq_some_iff.1 hs
      have := nthSymbol_spec g.cfg (pilotOf (complexNumbers (kMod (mcsModulation o.params.mcs)))) (payloadState o.params) (n - headerSymbols o.params)
        (dataCol _ (complexNumbers (kMod (mcsModulation o.params.mcs))) blk)
        (g.dataCol_length _ (mem_chunks_length (List.mem_of_getElem? hblk)))
      refine ⟨_, _, _, ?_, ?_, this⟩
      · rw [hset n]
        unfold nthSet
        have : ((payloadState o.params).pilotsColumnIndex + (n - headerSymbols o.params)) % (optPilots ℂ o.params.option).sets.length =
            n % (pilotsIndices o.params.option).length := by
          show ((0 + headerSymbols o.params) % (pilotsIndices o.params.option).length + (n - headerSymbols o.params)) % (pilotsIndices o.params.option).length = _
          rw [Nat.add_mod, Nat.mod_mod, ← Nat.add_mod]
          congr 1; omega
        rw [this]
        rfl
      · have := C23.valuesAt_ok (optPilots ℂ o.params.option) (pilotOf (complexNumbers (kMod (mcsModulation o.params.mcs)))) (payloadState o.params)
          (n - headerSymbols o.params)
        rw [hpv] at this ⊢
        unfold C23.PilotValuesAt at this ⊢
        simp only [pilotsOf, optPilots] at this ⊢
        refine ⟨this.1, fun i hi => ?_⟩
        obtain ⟨b, hb, hb2⟩ := this.2 i hi
        refine ⟨b, ?_, hb2⟩
        rw [← hb]
        have e1 : (payloadState o.params).getPn9Value = pn9Step^[headerSymbols o.params * (((pilotsIndices o.params.option)[0]?).getD []).length] 0x1FF := by
          show (((Pn9.new 0x1FF).nextN _).2).value = _
          rw [Pn9.nextN_snd]; rfl
        rw [e1, output_shift]
        congr 1
        have : n = headerSymbols o.params + (n - headerSymbols o.params) := by omega
        conv_lhs => rw [this, Nat.add_mul]
        omega

/-- Non-vacuity: the modulators of MR-OFDM fit. -/
theorem mr_ofdm_fits (p : OfdmParams) (h : Supported p) (MCS : Nat) (hM : MCS ≤ 6) :
    Fits (p.ofdmCfg MCS ℂ) (pilotsOf p.option) (dataTones p.option * nBpsc MCS / freqSpreading MCS) := by
  have ho := option_cases h
  have f := split_facts p.option (by simp; omega) MCS hM
  refine ⟨C23.C23_mr_ofdm p h MCS ℂ, f.2.2.1, f.1, ?_, f.2.1⟩
  have key : ∀ o ∈ [1, 2, 3, 4], ∀ M ≤ 6, freqSpreading M * (dataTones o * nBpsc M / freqSpreading M) =
      (fftSize o - (((pilotsIndices o)[0]?).getD []).length - (fftSize o - activeTones o) / 2 - ((fftSize o - activeTones o) / 2 - 1) - 1) *
        (mcsModulation M).bitsPerSymbol := by decide +kernel
  exact key p.option (by simp; omega) MCS hM

example : ∃ o : OfdmObj, Supported o.params := ⟨{ params := ⟨3, 2, 0, 0⟩ }, by unfold Supported; decide⟩

end SunPhy.C24
