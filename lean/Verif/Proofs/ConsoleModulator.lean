import Verif.Proofs.ConsoleSame
import Verif.Proofs.OfdmFullRun
import Verif.Spec.ConsoleLines
/-
The lines printed by `Ofdm_modulator.bitsToIQ`.
-/
namespace SunPhy
open PyM Spec

/-! ### The drawings -/

theorem guard_eq {N : Nat} {padL padR : Int} (hl : padL ≤ (N / 2 : Nat)) (hr : padR < (N / 2 : Nat)) :
    guardDrawing N padL padR = (List.range N).map (Out.channelChar N padL.toNat padR.toNat false []) := by
  apply List.ext_getElem?
  intro i
  have e : guardDrawing N padL padR =
      List.replicate padL.toNat '0' ++ List.replicate (N - padL.toNat - padR.toNat) '-' ++ List.replicate padR.toNat '0' := by
    unfold guardDrawing
    simp only
    have h1 : (if padL > 0 then List.replicate padL.toNat '0' ++ (List.replicate N '-').drop padL.toNat else List.replicate N '-') =
        List.replicate padL.toNat '0' ++ List.replicate (N - padL.toNat) '-' := by
      split
      · rw [List.drop_replicate]
      · rw [show padL.toNat = 0 by omega]; rfl
    rw [h1]
    split
    · rw [List.take_append, List.take_replicate, List.take_replicate]
      simp only [List.length_append, List.length_replicate]
      congr 3 <;> omega
    · rw [show padR.toNat = 0 by omega]; simp
  rw [e, List.append_assoc, List.getElem?_append, List.getElem?_append, List.getElem?_map]
  simp only [List.length_replicate, List.getElem?_replicate]
  by_cases hi : i < N
  · rw [List.getElem?_range hi]
    simp only [Out.channelChar, List.not_mem_nil, if_false, Option.map_some, Bool.false_eq_true, false_and]
    split_ifs <;> first | rfl | (exfalso; omega)
  · rw [List.getElem?_eq_none (by simpa using hi)]
    simp only [Option.map_none]
    split_ifs <;> first | rfl | (exfalso; omega)

theorem dc_eq {N : Nat} {padL padR : Int} (hl : padL ≤ (N / 2 : Nat)) (hr : padR < (N / 2 : Nat)) :
    dcDrawing (guardDrawing N padL padR) = (List.range N).map (Out.channelChar N padL.toNat padR.toNat true []) := by
  rw [guard_eq hl hr]
  unfold dcDrawing
  apply List.ext_getElem?
  intro i
  rw [List.getElem?_set, List.length_map, List.length_range]
  simp only [List.getElem?_map]
  by_cases hi : i < N
  · rw [List.getElem?_range hi]
    simp only [Out.channelChar, List.not_mem_nil, if_false, Option.map_some, Bool.false_eq_true, false_and, true_and]
    split_ifs <;> first | rfl | (exfalso; omega)
  · rw [List.getElem?_eq_none (by simpa using hi)]
    simp only [Option.map_none]
    split_ifs <;> first | rfl | (exfalso; omega)

theorem dc_eq_map {N : Nat} {padL padR : Int} (hl : padL ≤ (N / 2 : Nat)) (hr : padR < (N / 2 : Nat)) :
    dcDrawing ((List.range N).map (Out.channelChar N padL.toNat padR.toNat false [])) = (List.range N).map (Out.channelChar N padL.toNat padR.toNat true []) := by
  rw [← guard_eq hl hr, dc_eq hl hr]

theorem channelChar_append (N padL padR : Nat) (dc : Bool) (l : List Int) (p : Int) (i : Nat) :
    Out.channelChar N padL padR dc (l ++ [p]) i = if (i : Int) - (N / 2 : Nat) = p then 'P' else Out.channelChar N padL padR dc l i := by
  unfold Out.channelChar
  by_cases h1 : (i : Int) - (N / 2 : Nat) ∈ l
  · have : (i : Int) - (N / 2 : Nat) ∈ l ++ [p] := List.mem_append_left _ h1
    rw [if_pos this, if_pos h1]
    split <;> rfl
  · by_cases h2 : (i : Int) - (N / 2 : Nat) = p
    · have : (i : Int) - (N / 2 : Nat) ∈ l ++ [p] := List.mem_append_right _ (by rw [h2]; simp)
      rw [if_pos this, if_pos h2]
    · have : ¬ (i : Int) - (N / 2 : Nat) ∈ l ++ [p] := fun hm => (List.mem_append.1 hm).elim h1 (fun hm => h2 (List.mem_singleton.1 hm))
      rw [if_neg this, if_neg h2, if_neg h1]

theorem pilot_eq (N padL padR : Nat) (done tones : List Int) (h : ∀ t ∈ tones, t ∈ allTones N) :
    pilotDrawing N ((List.range N).map (Out.channelChar N padL padR true done)) tones = (List.range N).map (Out.channelChar N padL padR true (done ++ tones)) := by
  induction tones generalizing done with
  | nil => simp [pilotDrawing]
  | cons p tones ih =>
    unfold pilotDrawing at ih ⊢
    rw [List.foldl_cons]
    have e : ((List.range N).map (Out.channelChar N padL padR true done)).set (p + (N : Int) / 2).toNat 'P' =
        (List.range N).map (Out.channelChar N padL padR true (done ++ [p])) := by
      obtain ⟨j, hj, hp⟩ := List.mem_map.1 (h p (by simp))
      have hj := List.mem_range.1 hj
      have hpj : (p + (N : Int) / 2).toNat = j := by omega
      rw [hpj]
      apply List.ext_getElem?
      intro i
      rw [List.getElem?_set, List.length_map, List.length_range]
      simp only [List.getElem?_map]
      by_cases hi : i < N
      · rw [List.getElem?_range hi]
        simp only [Option.map_some, channelChar_append]
        split_ifs <;> first | rfl | (exfalso; omega)
      · rw [List.getElem?_eq_none (by simpa using hi)]
        simp only [Option.map_none]
        split_ifs <;> first | rfl | (exfalso; omega)
    rw [e, ih _ (fun t ht => h t (by simp [ht]))]
    simp

theorem drawing_none (N : Nat) : String.ofList (List.replicate N '-') = Out.drawing N 0 0 false [] := by
  unfold Out.drawing
  congr 1
  apply List.ext_getElem?
  intro i
  rw [List.getElem?_replicate, List.getElem?_map]
  by_cases hi : i < N
  · rw [List.getElem?_range hi, if_pos hi]
    simp [Out.channelChar]
    omega
  · rw [List.getElem?_eq_none (by simpa using hi), if_neg hi]; rfl

/-! ### The symbol loop -/

theorem printed_mod (S : Nat) (first : Int) (k : Nat) (hS : 0 < S) : Out.printedIndex S first k % S = (first + k) % S := by
  unfold Out.printedIndex
  split
  · rfl
  · exact Int.emod_emod_of_dvd _ (dvd_refl _)

theorem printed_next (S : Nat) (first : Int) (k : Nat) (hS : 0 < S) :
    (Out.printedIndex S first k + 1 ≥ S ↔ 0 ≤ first + k ∧ (first + k + 1) % S = 0) ∧
    Out.printedIndex S first (k + 1) = if Out.printedIndex S first k + 1 ≥ S then 0 else Out.printedIndex S first k + 1 := by
  have hS' : (0 : Int) < S := by omega
  unfold Out.printedIndex
  push_cast
  have e := Int.emod_add_mul_ediv (first + k) S
  have b1 := Int.emod_nonneg (first + k) (show (S : Int) ≠ 0 by omega)
  have b2 := Int.emod_lt_of_pos (first + k) hS'
  have s1 : (first + k + 1) % (S : Int) = if (first + k) % (S : Int) + 1 = S then 0 else (first + k) % (S : Int) + 1 := by
    rw [Int.add_emod]
    by_cases h1 : (S : Int) = 1
    · rw [h1]; omega
    · rw [Int.emod_eq_of_lt (a := 1) (by omega) (by omega)]
      split
      · rename_i h; rw [h]; exact Int.emod_self
      · exact Int.emod_eq_of_lt (by omega) (by omega)
  have small : 0 ≤ first + k → first + k < S → (first + k) % (S : Int) = first + k := fun h1 h2 => Int.emod_eq_of_lt h1 h2
  rw [show first + ((k : Int) + 1) = first + k + 1 by omega]
  generalize first + (k : Int) = x at *
  by_cases hx : x < S
  · simp only [if_pos hx]
    by_cases h0 : 0 ≤ x
    · rw [small h0 hx] at s1
      rw [s1]
      refine ⟨?_, ?_⟩ <;> split_ifs <;> omega
    · refine ⟨⟨fun h => by omega, fun h => absurd h.1 h0⟩, ?_⟩
      rw [if_pos (by omega), if_neg (by omega)]
  · simp only [if_neg hx]
    rw [s1]
    refine ⟨?_, ?_⟩ <;> split_ifs <;> omega


section
variable {α : Type} [Mul α] [Zero α]

theorem call_lift_ok {σ β : Type} {r : Res β} {s s' : σ} {b : β} (h : (PyM.lift r : PyM σ β).call s = (.ok b, s')) : r = .ok b ∧ s' = s := by
  rw [call_lift] at h
  exact ⟨congrArg Prod.fst h, (congrArg Prod.snd h).symm⟩

theorem symbolsP_out (t : OfdmTexts) (N padL padR : Nat) (pv : Int → α) (pl : Pilots α) (avail : List Int) (first : Int) (hf1 : -(pl.sets.length : Int) ≤ first) (hf2 : first < pl.sets.length)
    (cols : List (List α)) :
    ∀ (vi k : Nat) (c c' : Console (OfdmRun α)) (chs : List (List α)),
      (∀ n, k ≤ n → n < k + cols.length → ∀ t ∈ Out.pilotSet pl first n, t ∈ allTones N) →
      c.obj.columnIndex = Out.printedIndex pl.sets.length first k →
      (addPilotsSymbolsP true t N pv pl avail ((List.range N).map (Out.channelChar N padL padR true [])) vi cols).call c = (.ok chs, c') →
      chs.length = cols.length ∧ c'.obj.stored = c.obj.stored ∧
      c'.out = c.out ++ (List.range' k cols.length).flatMap (Out.symbolLines t.pilotSet N padL padR pl first) := by
  have hS : 0 < pl.sets.length := by omega
  induction cols with
  | nil =>
    intro vi k c c' chs _ _ h
    rw [addPilotsSymbolsP, call_pure] at h
    have h1 := Except.ok.inj (congrArg Prod.fst h)
    have h2 : c = c' := congrArg Prod.snd h
    subst h1 h2
    simp
  | cons col cols ih =>
    intro vi k c c' chs htones hidx h
    rw [addPilotsSymbolsP] at h
    obtain ⟨o, c1, h1, h⟩ := call_bind_ok h
    rw [call_quietly, call_get] at h1
    have e1 : c.obj = o := Except.ok.inj (congrArg Prod.fst h1)
    have e2 : c = c1 := congrArg Prod.snd h1
    subst e1 e2
    obtain ⟨set, c2, h2, h⟩ := call_bind_ok h
    obtain ⟨h2, e2⟩ := call_lift_ok h2
    subst e2
    have hset : set = Out.pilotSet pl first k := by
      have hb : -(pl.sets.length : Int) ≤ c2.obj.columnIndex ∧ c2.obj.columnIndex < pl.sets.length := by
        rw [hidx]
        unfold Out.printedIndex
        split
        · omega
        · have := Int.emod_nonneg (first + k) (show (pl.sets.length : Int) ≠ 0 by omega)
          have := Int.emod_lt_of_pos (first + k) (show (0 : Int) < pl.sets.length by omega)
          omega
      rw [(pilotSetAt_eq hb.1 hb.2).1, hidx, printed_mod _ _ _ hS] at h2
      unfold Out.pilotSet
      cases e : pl.sets[((first + k) % (pl.sets.length : Int)).toNat]? with
      | none => rw [e] at h2; cases h2
      | some s => rw [e] at h2; rw [Option.getD_some]; exact (Except.ok.inj h2).symm
    obtain ⟨_, c3, h3, h⟩ := call_bind_ok h
    rw [say_true, call_printLine] at h3
    have e3 : _ = c3 := congrArg Prod.snd h3
    subst e3
    dsimp only at h
    obtain ⟨_, c4, h4, h⟩ := call_bind_ok h
    rw [call_quietly, call_modify] at h4
    have e4 : _ = c4 := congrArg Prod.snd h4
    subst e4
    obtain ⟨s1, c5, h5, h⟩ := call_bind_ok h
    obtain ⟨h5, e5⟩ := call_lift_ok h5
    subst e5
    obtain ⟨_, c6, h6, h⟩ := call_bind_ok h
    rw [call_quietly, call_modify] at h6
    have e6 : _ = c6 := congrArg Prod.snd h6
    subst e6
    dsimp only at h
    obtain ⟨n1, n2⟩ := printed_next pl.sets.length first k hS
    have htail : ∀ n, k + 1 ≤ n → n < k + 1 + cols.length → ∀ t ∈ Out.pilotSet pl first n, t ∈ allTones N :=
      fun n h1 h2 => htones n (by omega) (by rw [List.length_cons]; omega)
    have hp := pilot_eq N padL padR [] set (by rw [hset]; exact htones k (by omega) (by rw [List.length_cons]; omega))
    rw [List.nil_append] at hp
    have fin : ∀ cm : Console (OfdmRun α), cm.obj.columnIndex = Out.printedIndex pl.sets.length first (k + 1) → cm.obj.stored = c2.obj.stored →
        cm.out = c2.out ++ Out.symbolLines t.pilotSet N padL padR pl first k →
        (do let ch ← PyM.lift (placeData N s1.channels s1.available col)
            let chs ← addPilotsSymbolsP true t N pv pl avail ((List.range N).map (Out.channelChar N padL padR true [])) s1.valuesIndex cols
            return ch :: chs : PyM (Console (OfdmRun α)) _).call cm = (.ok chs, c') →
        chs.length = (col :: cols).length ∧ c'.obj.stored = c2.obj.stored ∧
        c'.out = c2.out ++ (List.range' k (col :: cols).length).flatMap (Out.symbolLines t.pilotSet N padL padR pl first) := by
      intro cm hi hst ho g
      obtain ⟨ch, c7, h7, g2⟩ := call_bind_ok g
      obtain ⟨h7, e7⟩ := call_lift_ok h7
      rw [e7] at g2
      obtain ⟨chs', c8, h8, g3⟩ := call_bind_ok g2
      obtain ⟨l1, l2, l3⟩ := ih _ (k + 1) cm c8 chs' htail hi h8
      rw [call_pure] at g3
      have x1 := Except.ok.inj (congrArg Prod.fst g3)
      have x2 : c8 = c' := congrArg Prod.snd g3
      subst x1 x2
      refine ⟨by simp [l1], by rw [l2, hst], ?_⟩
      rw [l3, ho, List.length_cons, List.range'_succ, List.flatMap_cons, List.append_assoc]
    split at h
    · rename_i hw
      obtain ⟨_, c7, h7, h⟩ := call_bind_ok h
      rw [call_quietly, call_modify] at h7
      have e7 : _ = c7 := congrArg Prod.snd h7
      subst e7
      obtain ⟨_, c8, h8, h⟩ := call_bind_ok h
      rw [say_true, call_printLine] at h8
      have e8 : _ = c8 := congrArg Prod.snd h8
      subst e8
      dsimp only at h hw
      rw [hidx] at hw
      refine fin _ ?_ ?_ ?_ h
      · rw [n2, if_pos hw]
      · rfl
      · dsimp only
        unfold Out.symbolLines Out.drawing
        rw [if_pos (n1.1 hw), hp, hset, hidx, List.append_assoc]
    · rename_i hw
      rw [hidx] at hw
      refine fin _ ?_ ?_ ?_ h
      · dsimp only
        rw [n2, if_neg hw, hidx]
      · rfl
      · dsimp only
        unfold Out.symbolLines
        rw [if_neg (fun hn => hw (n1.2 hn)), hset, hidx]
        rfl

/-- The lines of `_add_pilots_and_padding`. -/
def pilotLines (t : OfdmTexts) (o : OfdmRun α) (rows K : Nat) : List String :=
  let s := o.stored
  let padL := s.paddingLeft.toNat
  let padR := s.paddingRight.toNat
  [(if s.nPilots = 0 then "Adding OFDM DC Tone and padding..." else "Adding OFDM pilots, DC Tone and padding..."),
   "  Message without pilots :",
   s!"    {Out.drawing s.nFFT 0 0 false []} ({rows}x)",
   s!"  Adding padding ({s.paddingLeft}, {s.paddingRight})",
   s!"    {Out.drawing s.nFFT padL padR false []} ({rows}x)",
   "  Adding DC Tone",
   s!"    {Out.drawing s.nFFT padL padR true []} ({s.nFFT}x)"] ++
  (match s.pilots with
   | some pl => if 0 < pl.nPilots then (List.range K).flatMap (Out.symbolLines t.pilotSet s.nFFT padL padR pl o.columnIndex) else []
   | none => [])

theorem addPilotsP_out (t : OfdmTexts) (pv : Int → α) (M : Mat α) (c c' : Console (OfdmRun α)) (cols : List (List α))
    (hl : c.obj.stored.paddingLeft ≤ (c.obj.stored.nFFT / 2 : Nat)) (hr : c.obj.stored.paddingRight < (c.obj.stored.nFFT / 2 : Nat))
    (hp : ∀ pl, c.obj.stored.pilots = some pl → 0 < pl.nPilots → ∀ n < M.cols, PilotOk c.obj pl n)
    (h : (addPilotsP true t pv M).call c = (.ok cols, c')) :
    cols.length = M.cols ∧ c'.obj.stored = c.obj.stored ∧ c'.out = c.out ++ pilotLines t c.obj M.rows M.cols := by
  unfold addPilotsP at h
  obtain ⟨o, c1, h1, h⟩ := call_bind_ok h
  rw [call_quietly, call_get] at h1
  have e1 : c.obj = o := Except.ok.inj (congrArg Prod.fst h1)
  have e2 : c = c1 := congrArg Prod.snd h1
  subst e1
  rw [← e2] at h
  clear h1 e2 c1
  dsimp only at h
  simp only [say_true] at h
  rw [call_bind, call_printLine, seqR_ok, call_bind, call_printLine, seqR_ok, call_bind, call_printLine, seqR_ok, call_bind, call_printLine, seqR_ok, call_bind, call_printLine, seqR_ok,
    call_bind, call_printLine, seqR_ok, call_bind, call_printLine, seqR_ok] at h
  obtain ⟨avail, c2, h2, h⟩ := call_bind_ok h
  obtain ⟨h2, e2⟩ := call_lift_ok h2
  rw [guard_eq hl hr, dc_eq_map hl hr] at h
  rw [guard_eq hl hr, dc_eq_map hl hr, drawing_none] at e2
  have eo : c2.obj = c.obj := by rw [e2]
  have ec : M.columns.length = M.cols := by simp [Mat.columns]
  have head : (("Adding OFDM " ++ if c.obj.stored.nPilots ≠ 0 then "pilots, " else "") ++ "DC Tone and padding...") =
      (if c.obj.stored.nPilots = 0 then "Adding OFDM DC Tone and padding..." else "Adding OFDM pilots, DC Tone and padding...") := by
    by_cases hn : c.obj.stored.nPilots = 0
    · rw [if_neg (not_not.2 hn), if_pos hn]; decide +kernel
    · rw [if_pos hn, if_neg hn]; decide +kernel
  have eout : c2.out = c.out ++ [(if c.obj.stored.nPilots = 0 then "Adding OFDM DC Tone and padding..." else "Adding OFDM pilots, DC Tone and padding..."),
      "  Message without pilots :",
      s!"    {Out.drawing c.obj.stored.nFFT 0 0 false []} ({M.rows}x)",
      s!"  Adding padding ({c.obj.stored.paddingLeft}, {c.obj.stored.paddingRight})",
      s!"    {Out.drawing c.obj.stored.nFFT c.obj.stored.paddingLeft.toNat c.obj.stored.paddingRight.toNat false []} ({M.rows}x)",
      "  Adding DC Tone",
      s!"    {Out.drawing c.obj.stored.nFFT c.obj.stored.paddingLeft.toNat c.obj.stored.paddingRight.toNat true []} ({c.obj.stored.nFFT}x)"] := by
    rw [e2, ← head]
    simp only [List.append_assoc]
    rfl
  have plain : ∀ (f : List α → Res (List α)) (p : Prop) [Decidable p], (lift (if p then M.columns.mapM f else .error .ValueError) : PyM (Console (OfdmRun α)) _).call c2 = (.ok cols, c') →
      cols.length = M.cols ∧ c'.obj.stored = c.obj.stored ∧ c'.out = c2.out := by
    intro f p _ h
    obtain ⟨h, e⟩ := call_lift_ok h
    split at h
    · exact ⟨by rw [mapM_length h, ec], by rw [e, eo], by rw [e]⟩
    · cases h
  unfold pilotLines
  cases hpl : c.obj.stored.pilots with
  | none =>
    simp only [hpl] at h ⊢
    obtain ⟨a1, a2, a3⟩ := plain _ _ h
    exact ⟨a1, a2, by rw [a3, eout, List.append_nil]⟩
  | some pl =>
    simp only [hpl] at h ⊢
    by_cases h0 : 0 < pl.nPilots
    · rw [if_pos h0] at h ⊢
      by_cases hK : M.cols = 0
      · rw [hK] at ec
        rw [List.length_eq_zero_iff.1 ec, addPilotsSymbolsP, call_pure] at h
        have x1 := Except.ok.inj (congrArg Prod.fst h)
        have x2 : c2 = c' := congrArg Prod.snd h
        subst x1
        rw [← x2]
        exact ⟨by simp [hK], by rw [eo], by rw [eout, hK]; simp⟩
      · have hok := hp pl hpl h0
        obtain ⟨f1, f2, -⟩ := hok 0 (by omega)
        have ci : c2.obj.columnIndex = Out.printedIndex pl.sets.length c.obj.columnIndex 0 := by
          rw [eo]; unfold Out.printedIndex; simp [f2]
        obtain ⟨a1, a2, a3⟩ := symbolsP_out t _ _ _ pv pl avail c.obj.columnIndex f1 f2 M.columns 0 0 c2 c' cols (by
          intro n _ hn u hu
          obtain ⟨-, -, -, ps, hps, -, hm⟩ := hok n (by omega)
          unfold Out.pilotSet at hu
          rw [hps, Option.getD_some] at hu
          exact (hm u hu).1) ci h
        refine ⟨by rw [a1, ec], by rw [a2, eo], ?_⟩
        rw [a3, eout, ec, List.append_assoc, List.range_eq_range']
    · rw [if_neg h0] at h ⊢
      obtain ⟨a1, a2, a3⟩ := plain _ _ h
      exact ⟨a1, a2, by rw [a3, eout, List.append_nil]⟩

theorem text_missing (a b c : Nat) : s!"    Padding message with {a} zeros ({shape1 b} -> {shape1 c})" = s!"    Padding message with {a} zeros (({b},) -> ({c},))" := by
  have ts : ∀ s : String, toString s = s := fun _ => rfl
  apply String.toList_inj.1
  simp [shape1, ts]
theorem text_columns (n a b : Nat) : s!"    Splitting message from length {n} to {shape2 a b} ({a} channels before mapping and {b} OFDM symbols)" =
    s!"    Splitting message from length {n} to ({a}, {b}) ({a} channels before mapping and {b} OFDM symbols)" := by
  have ts : ∀ s : String, toString s = s := fun _ => rfl
  apply String.toList_inj.1
  simp [shape2, ts]
theorem text_points (a b c d : Nat) : s!"    New message size {shape2 a b} -> {shape2 c d} ({c} + pilots as IFFT channels and {d} OFDM symbols)" =
    s!"    New message size ({a}, {b}) -> ({c}, {d}) ({c} + pilots as IFFT channels and {d} OFDM symbols)" := by
  have ts : ∀ s : String, toString s = s := fun _ => rfl
  apply String.toList_inj.1
  simp [shape2, ts]
theorem text_prefix (a b c d : Nat) : s!"    Signal {shape2 a b} -> {shape2 c d}" = s!"    Signal ({a}, {b}) -> ({c}, {d})" := by
  have ts : ∀ s : String, toString s = s := fun _ => rfl
  apply String.toList_inj.1
  simp [shape2, ts]

theorem mapP_out {σ : Type} (t : OfdmTexts) (nb : Numbers α) (k : ModKind) (M : Mat ℚ) {R : Nat} (h : pointRows k M.rows = some R) (c : Console σ) :
    ∃ P : Mat α, P.rows = R ∧ P.cols = M.cols ∧ (ofdmMapP true t nb k M).call c = (.ok P, ⟨c.obj, c.out ++
      [s!"Constellation mapping using {Out.modText k}...",
       s!"    Modulation factor is {t.factor}...",
       s!"    New message size ({M.rows}, {M.cols}) -> ({R}, {M.cols}) ({R} + pilots as IFFT channels and {M.cols} OFDM symbols)"]⟩) := by
  obtain ⟨P, e, r1, r2, -⟩ := ofdmMapFull_ok nb k M h
  have ek : k.show = Out.modText k := by cases k <;> rfl
  refine ⟨P, r1, r2, ?_⟩
  unfold ofdmMapP
  simp only [say_true, call_bind, call_printLine, seqR_ok, call_lift, e, call_pure, text_points, r1, r2, ek, List.append_assoc, List.singleton_append, List.cons_append, List.nil_append]

theorem spreadP_out {σ : Type} (nb : Numbers α) {sf : Nat} (h : sf = 1 ∨ sf = 2 ∨ sf = 4) (M : Mat α) (c : Console σ) :
    ∃ P : Mat α, P.rows = sf * M.rows ∧ P.cols = M.cols ∧ (ofdmSpreadP true nb sf M).call c = (.ok P, ⟨c.obj, c.out ++
      [match sf with
       | 1 => "Frequency spreading of 1 (no modification)"
       | k => s!"Frequency spreading of {k} ({k}x repetition)"]⟩) := by
  obtain ⟨P, e, r1, r2, -⟩ := ofdmSpreadFull_ok nb h M
  refine ⟨P, r1, r2, ?_⟩
  unfold ofdmSpreadP
  have t2 : (s!"Frequency spreading of {2} ({2}x repetition)" : String) = "Frequency spreading of 2 (2x repetition)" := by decide +kernel
  have t4 : (s!"Frequency spreading of {4} ({4}x repetition)" : String) = "Frequency spreading of 4 (4x repetition)" := by decide +kernel
  rcases h with rfl | rfl | rfl
  · simp only [if_true, say_true, call_bind, call_printLine, seqR_ok, call_lift, e]
    rfl
  · simp only [if_true, say_true, call_bind, call_printLine, seqR_ok, call_lift, e, t2]
    rfl
  · simp only [if_true, say_true, call_bind, call_printLine, seqR_ok, call_lift, e, t4]
    rfl

theorem splitP_out {σ : Type} {L : Int} (hL : 0 < L) (data : List ℚ) (pad : Bool) (h : pad = true ∨ data.length % L.toNat = 0) (c : Console σ) :
    ∃ M : Mat ℚ, M.rows = L.toNat ∧ M.cols = symbolCount L.toNat data.length pad ∧ (ofdmSplitP true L data pad).call c = (.ok M, ⟨c.obj, c.out ++
      (["Splitting message..."] ++
       (if pad then [s!"    Padding message with {M.cols * L.toNat - data.length} zeros (({data.length},) -> ({M.cols * L.toNat},))"] else []) ++
       [s!"    Splitting message from length {M.cols * L.toNat} to ({L.toNat}, {M.cols}) ({L.toNat} channels before mapping and {M.cols} OFDM symbols)"])⟩) := by
  have e : L.natAbs = L.toNat := by omega
  have hL' : 0 < L.toNat := by omega
  unfold ofdmSplitP ofdmPadP
  cases pad with
  | false =>
    have h : data.length % L.toNat = 0 := by simpa using h
    rw [raiseIf_false (by rw [e]; simp [h]), raiseIf_false (c := L ≤ 0) (by omega), pure_bind]
    refine ⟨⟨L.toNat, symbolCount L.toNat data.length false, fun i j => data.getD (j * L.toNat + i) 0⟩, rfl, rfl, ?_⟩
    have e2 : symbolCount L.toNat data.length false * L.toNat = data.length := Nat.div_mul_cancel (Nat.dvd_of_mod_eq_zero h)
    have e3 : data.length / L.toNat = symbolCount L.toNat data.length false := rfl
    simp only [Bool.false_eq_true, if_false, pure_bind, say_true, call_bind, call_printLine, seqR_ok, call_pure, text_columns, List.append_nil, e3, e2, List.append_assoc, List.singleton_append]
  | true =>
    rw [raiseIf_false (by simp), pure_bind]
    have hc : ceilDiv data.length L.toNat * L.toNat - data.length + data.length = ceilDiv data.length L.toNat * L.toNat := by
      have : data.length ≤ ceilDiv data.length L.toNat * L.toNat := by
        unfold ceilDiv
        have h1 := Nat.div_add_mod (data.length + L.toNat - 1) L.toNat
        have h2 := Nat.mod_lt (data.length + L.toNat - 1) hL'
        rw [Nat.mul_comm] at h1
        omega
      omega
    have hm : (data ++ List.replicate (ceilDiv data.length L.toNat * L.toNat - data.length) (0 : ℚ)).length = ceilDiv data.length L.toNat * L.toNat := by
      rw [List.length_append, List.length_replicate]; omega
    have e3 : ceilDiv data.length L.toNat * L.toNat / L.toNat = ceilDiv data.length L.toNat := Nat.mul_div_cancel _ hL'
    have e4 : symbolCount L.toNat data.length true = ceilDiv data.length L.toNat := rfl
    rw [raiseIf_false (by omega), raiseIf_false (by omega), raiseIf_false (by omega)]
    refine ⟨⟨L.toNat, ceilDiv data.length L.toNat,
      fun i j => (data ++ List.replicate (ceilDiv data.length L.toNat * L.toNat - data.length) (0 : ℚ)).getD (j * L.toNat + i) 0⟩, rfl, e4.symm, ?_⟩
    · simp only [if_true, pure_bind, bind_assoc, say_true, call_bind, call_printLine, seqR_ok, call_pure, text_columns, text_missing, e, hm, e3, List.append_assoc, List.singleton_append]

/-- The lines up to the iFFT. -/
theorem subcarriersP_out (t : OfdmTexts) (nb : Numbers α) (c c' : Console (OfdmRun α)) (hw : Built c.obj.stored) (shape : List Nat) (data : List ℚ) (pad : Bool)
    (hready : Ready c.obj shape data pad) (cols : List (List α)) (h : (OfdmRun.subcarriersP true t nb (.arr shape data) pad).call c = (.ok cols, c')) :
    ∃ R, pointRows c.obj.stored.modulation c.obj.stored.splitLength.toNat = some R ∧
    cols.length = symbolCount c.obj.stored.splitLength.toNat data.length pad ∧ c'.obj.stored = c.obj.stored ∧
    c'.out = c.out ++
      ((["Splitting message..."] ++
       (if pad then [s!"    Padding message with {symbolCount c.obj.stored.splitLength.toNat data.length pad * c.obj.stored.splitLength.toNat - data.length} zeros (({data.length},) -> ({symbolCount c.obj.stored.splitLength.toNat data.length pad * c.obj.stored.splitLength.toNat},))"] else []) ++
       [s!"    Splitting message from length {symbolCount c.obj.stored.splitLength.toNat data.length pad * c.obj.stored.splitLength.toNat} to ({c.obj.stored.splitLength.toNat}, {symbolCount c.obj.stored.splitLength.toNat data.length pad}) ({c.obj.stored.splitLength.toNat} channels before mapping and {symbolCount c.obj.stored.splitLength.toNat data.length pad} OFDM symbols)"]) ++
      [s!"Constellation mapping using {Out.modText c.obj.stored.modulation}...",
       s!"    Modulation factor is {t.factor}...",
       s!"    New message size ({c.obj.stored.splitLength.toNat}, {symbolCount c.obj.stored.splitLength.toNat data.length pad}) -> ({R}, {symbolCount c.obj.stored.splitLength.toNat data.length pad}) ({R} + pilots as IFFT channels and {symbolCount c.obj.stored.splitLength.toNat data.length pad} OFDM symbols)"] ++
      [match c.obj.stored.frequencySpreading with
       | 1 => "Frequency spreading of 1 (no modification)"
       | k => s!"Frequency spreading of {k} ({k}x repetition)"] ++
      pilotLines t c.obj (c.obj.stored.frequencySpreading * R) (symbolCount c.obj.stored.splitLength.toNat data.length pad)) := by
  obtain ⟨R, hR, -⟩ := hready.fits
  refine ⟨R, hR, ?_⟩
  unfold OfdmRun.subcarriersP at h
  obtain ⟨d, c1, h1, h⟩ := call_bind_ok h
  obtain ⟨h1, e1⟩ := call_lift_ok h1
  unfold ofdmSqueeze at h1
  simp only at h1
  rw [if_pos hready.oneAxis] at h1
  have hd : data = d := Except.ok.inj h1
  rw [e1] at h
  rw [← hd] at h
  obtain ⟨o, c2, h2, h⟩ := call_bind_ok h
  rw [call_quietly, call_get] at h2
  have eo : c.obj = o := Except.ok.inj (congrArg Prod.fst h2)
  have ec : c = c2 := congrArg Prod.snd h2
  rw [← eo, ← ec] at h
  dsimp only at h
  obtain ⟨M, m1, m2, hs⟩ := splitP_out hready.split data pad hready.size c
  rw [call_bind, hs, seqR_ok] at h
  obtain ⟨P, p1, p2, hm⟩ := mapP_out t nb c.obj.stored.modulation M (R := R) (by rw [m1]; exact hR) ⟨c.obj, c.out ++
      (["Splitting message..."] ++
       (if pad then [s!"    Padding message with {M.cols * c.obj.stored.splitLength.toNat - data.length} zeros (({data.length},) -> ({M.cols * c.obj.stored.splitLength.toNat},))"] else []) ++
       [s!"    Splitting message from length {M.cols * c.obj.stored.splitLength.toNat} to ({c.obj.stored.splitLength.toNat}, {M.cols}) ({c.obj.stored.splitLength.toNat} channels before mapping and {M.cols} OFDM symbols)"])⟩
  rw [call_bind, hm, seqR_ok] at h
  rw [call_bind] at h
  dsimp only at h
  obtain ⟨Q, q1, q2, hq⟩ := spreadP_out nb hw.spreading P (⟨c.obj, (c.out ++
      (["Splitting message..."] ++
       (if pad then [s!"    Padding message with {M.cols * c.obj.stored.splitLength.toNat - data.length} zeros (({data.length},) -> ({M.cols * c.obj.stored.splitLength.toNat},))"] else []) ++
       [s!"    Splitting message from length {M.cols * c.obj.stored.splitLength.toNat} to ({c.obj.stored.splitLength.toNat}, {M.cols}) ({c.obj.stored.splitLength.toNat} channels before mapping and {M.cols} OFDM symbols)"])) ++
      [s!"Constellation mapping using {Out.modText c.obj.stored.modulation}...",
       s!"    Modulation factor is {t.factor}...",
       s!"    New message size ({M.rows}, {M.cols}) -> ({R}, {M.cols}) ({R} + pilots as IFFT channels and {M.cols} OFDM symbols)"]⟩ : Console (OfdmRun α))
  rw [hq, seqR_ok] at h
  obtain ⟨a1, a2, a3⟩ := addPilotsP_out t (pilotOf nb) Q _ c' cols (by exact hready.band.2.1) (by exact hready.band.2.2)
    (by intro pl hpl h0 n hn; exact hready.pilots pl hpl h0 n (by rw [q2, p2, m2] at hn; exact hn)) h
  dsimp only at a1 a2 a3
  rw [q2, p2, m2] at a1
  refine ⟨a1, a2, ?_⟩
  rw [a3, q2, p2, q1, p1, m2, m1]
  simp only [List.append_assoc]
end


/-- The lines of a successful call. -/
theorem bitsP_modulator_out (t : OfdmTexts) (f : ℝ) (CP : ℚ) (c c' : Console (OfdmRun ℂ)) (hw : Built c.obj.stored) (shape : List Nat) (data : List ℚ) (pad : Bool)
    (hready : Ready c.obj shape data pad) (iq : List ℂ) (h : (OfdmRun.bitsToIQP true t f CP (.arr shape data) pad).call c = (.ok iq, c')) :
    ∃ R, pointRows c.obj.stored.modulation c.obj.stored.splitLength.toNat = some R ∧
    c'.out = c.out ++ Out.modulatorLines t.factor t.pilotSet CP c.obj data.length pad R := by
  unfold OfdmRun.bitsToIQP at h
  obtain ⟨cols, c1, h1, h⟩ := call_bind_ok h
  obtain ⟨R, hR, l1, l2, l3⟩ := subcarriersP_out t _ c c1 hw shape data pad hready cols h1
  refine ⟨R, hR, ?_⟩
  obtain ⟨o, c2, h2, h⟩ := call_bind_ok h
  rw [call_quietly, call_get] at h2
  have eo : c1.obj = o := Except.ok.inj (congrArg Prod.fst h2)
  have ec : c1 = c2 := congrArg Prod.snd h2
  rw [← eo, ← ec, l2] at h
  dsimp only at h
  rw [say_true, call_bind, call_printLine, seqR_ok] at h
  unfold Out.modulatorLines pilotLines at *
  dsimp only at l3 ⊢
  by_cases hCP : 0 < CP
  · have hN : c.obj.stored.nFFT - pyBound c.obj.stored.nFFT (-⌊(c.obj.stored.nFFT : ℚ) * CP⌋) + c.obj.stored.nFFT =
        c.obj.stored.nFFT + Out.modulatorLines.prefixRows c.obj.stored.nFFT CP := by
      have h0 : 0 ≤ ⌊(c.obj.stored.nFFT : ℚ) * CP⌋ := Int.floor_nonneg.2 (by positivity)
      unfold pyBound Out.modulatorLines.prefixRows
      dsimp only
      generalize ⌊(c.obj.stored.nFFT : ℚ) * CP⌋ = x at *
      split <;> split <;> omega
    rw [if_pos hCP, say_true, say_true, call_bind, call_printLine, seqR_ok, call_bind, call_printLine, seqR_ok, call_pure] at h
    have e := congrArg Prod.snd h
    dsimp only at e
    rw [← e, if_pos hCP]
    dsimp only
    rw [text_prefix, hN, l1, l3]
    simp only [List.append_assoc, List.cons_append, List.nil_append]
    rfl
  · rw [if_neg hCP, call_pure] at h
    have e := congrArg Prod.snd h
    dsimp only at e
    rw [← e, if_neg hCP]
    dsimp only
    rw [l3]
    simp only [List.append_assoc, List.cons_append, List.nil_append, List.append_nil]
    rfl

end SunPhy
