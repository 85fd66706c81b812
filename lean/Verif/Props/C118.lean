import Verif.Proofs.PilotArrays
import Verif.Props.C103
/-
C118: pilot arrays handed to `Ofdm_modulator`.
-/
namespace SunPhy.C118
open SunPhy Spec PyM
noncomputable section

/-- **C118 (looks).**  For every program - any number of `Ofdm_modulator` objects, arrays and lists made, changed, handed over as pilots or as message in any order, also several times - what the
program sees and the contents of its arrays (the returned signals among them) are those of the world in which a modulator looks at the arrays of the program whenever it needs a pilot, and lists are
copied when the modulator is constructed. -/
theorem C118_looks (l : List PilotEvent) :
    (PilotHeap.run l).log = (PilotWorld.runProgram false l).log ∧ (PilotHeap.run l).held.map (PilotHeap.run l).mem.cell = (PilotWorld.runProgram false l).held :=
  ⟨(run_rel l).log.symm, (run_rel l).held.symm⟩

/-- **C118 (untouched).**  If no array is written to after it was handed to a constructor, the modulators behave as if they had copied the pilots.  Lists may be changed at any time, and so may messages
and signals. -/
theorem C118_untouched (l : List PilotEvent) (h : Untouched l) :
    (PilotHeap.run l).log = (PilotWorld.runProgram true l).log ∧ (PilotHeap.run l).held.map (PilotHeap.run l).mem.cell = (PilotWorld.runProgram true l).held := by
  obtain ⟨H, hr⟩ := run_rel2 l h
  rw [(C118_looks l).1, (C118_looks l).2]
  exact ⟨hr.log, hr.held⟩

/-- **C118 (call).**  A constructor, a call or a getter changes no array that existed before; the arrays that the program holds are different from each other, so a returned signal is a new array. -/
theorem C118_call (l : List PilotEvent) :
    (PilotHeap.run l).held.Nodup ∧ (∀ a ∈ (PilotHeap.run l).held, a < (PilotHeap.run l).mem.next) ∧
    ∀ e, (∀ i c, e ≠ .write i c) → ∀ a < (PilotHeap.run l).mem.next, ((PilotHeap.run l).step e).mem.cell a = (PilotHeap.run l).mem.cell a := by
  have hr := run_rel l
  refine ⟨hr.nodup, hr.lt, ?_⟩
  generalize PilotHeap.run l = w at hr
  generalize PilotWorld.runProgram false l = v at hr
  intro e he a ha
  cases e with
  | make c => exact push_old c ha
  | write i c => exact absurd rfl (he i c)
  | construct args indices values =>
    unfold PilotHeap.step
    dsimp only
    cases hi : indicesArg (fun j => (w.held[j]?).map w.mem.cell) indices with
    | none => rfl
    | some ia =>
      cases hv : valuesArg (fun j => (w.held[j]?).map w.mem.cell) values with
      | none => rfl
      | some va =>
        dsimp only
        cases hs : args.init ia va with
        | error e => rfl
        | ok s => exact (construct_rel hr args indices values hi hv hs).2.1 a ha
  | call i j pad =>
    unfold PilotHeap.step
    dsimp only
    cases w.objs[i]? with
    | none => rfl
    | some o =>
      cases w.held[j]? with
      | none => rfl
      | some b =>
        dsimp only
        cases w.mem.cell b with
        | indices b x => rfl
        | values b x => rfl
        | samples x => rfl
        | free => rfl
        | message x =>
          dsimp only
          generalize (OfdmRun.bitsToIQ o.factor o.CP x pad).call (o.now w.mem) = r
          obtain ⟨r, o'⟩ := r
          cases r with
          | error e => rfl
          | ok iq => exact push_old _ ha
  | getters i =>
    unfold PilotHeap.step
    dsimp only
    cases w.objs[i]? <;> rfl

/-! ### What a constructor takes from the arrays -/

/-- **C118 (construction).**  In any program, a constructor handed the array or list number `j` of pilot tones and number `k` of pilot values acts on exactly what they contain at that moment; if it
succeeds, the new modulator goes on looking at `j` and at `k` unless they are lists. -/
theorem C118_construct (l : List PilotEvent) (args : ModulatorArgs) (j k : Nat) (b b' : Bool) (a : IndicesArg) (v : ValuesArg ℂ)
    (ha : a ≠ .none ∧ a ≠ .notArray) (hv : v = .arr0 ∨ ∃ x, v = .arr x)
    (hj : (PilotWorld.runProgram false l).held[j]? = some (.indices b a)) (hk : (PilotWorld.runProgram false l).held[k]? = some (.values b' v)) :
    let before := PilotWorld.runProgram false l
    let after := PilotWorld.runProgram false (l ++ [.construct args (some j) (.held k)])
    (PilotHeap.run (l ++ [.construct args (some j) (.held k)])).log = (PilotHeap.run l).log ++ [match args.init a v with | .ok _ => .done | .error e => .raised e] ∧
    after.held = before.held ∧
    (∀ s, args.init a v = .ok s → after.objs = before.objs ++ [{ run := s.start, factor := args.modulation_factor, CP := args.CP, indicesFrom := if b then none else some j, valuesFrom := if b' then none else some k }]) ∧
    (∀ e, args.init a v = .error e → after.objs = before.objs) := by
  intro before after
  have e : after = PilotWorld.step false before (.construct args (some j) (.held k)) := by
    show PilotWorld.runProgram false (l ++ _) = _
    unfold PilotWorld.runProgram
    rw [List.foldl_append]
    rfl
  rw [(C118_looks _).1, (C118_looks l).1]
  change after.log = before.log ++ _ ∧ _
  rw [e]
  have hj' : before.held[j]? = some (.indices b a) := hj
  have hk' : before.held[k]? = some (.values b' v) := hk
  have i1 : indicesArg (before.held[·]?) (some j) = some a := by
    unfold indicesArg
    simp only [hj']
    cases a <;> simp_all
  have i2 : valuesArg (before.held[·]?) (.held k) = some v := by
    unfold valuesArg
    simp only [hk']
    rcases hv with rfl | ⟨x, rfl⟩ <;> rfl
  have w1 : (some j).bind (watch false before.held) = if b then none else some j := by
    show watch false before.held j = _
    unfold watch
    rw [List.getD_eq_getElem?_getD, hj']
    rfl
  have w2 : watchValues false before.held (.held k) = if b' then none else some k := by
    show watch false before.held k = _
    unfold watch
    rw [List.getD_eq_getElem?_getD, hk']
    rfl
  unfold PilotWorld.step
  simp only [i1, i2, w1, w2]
  cases args.init a v with
  | error x => exact ⟨rfl, rfl, fun s h => (nomatch h), fun _ _ => rfl⟩
  | ok s => exact ⟨rfl, rfl, fun s' h => by rw [Except.ok.inj h], fun _ h => (nomatch h)⟩

/-! ### Examples -/

/-- Arguments of a modulator with four tones, one of them DC and one a pilot. -/
def args4 : ModulatorArgs := ⟨.int 4, .str "BPSK", 1, 0, .int 0, .int 0, .int 1, .int 0, .int 511⟩

/-- The pilot array is changed after the construction: tone 1 becomes tone 0 (DC). -/
def changed (isList : Bool) : List PilotEvent :=
  [.make (.indices isList (.arr1 [1])), .make (.message (.arr [2] [1, 0])), .construct args4 (some 0) (.str "pn9"), .write 0 (.indices isList (.arr1 [0])), .call 0 1 false]

def stored4 : OfdmStored ℂ := { nFFT := 4, modulation := .BPSK, paddingLeft := 0, paddingRight := 0, frequencySpreading := 1, pilots := some ⟨[[1]], 1, .pn9⟩, initialPilotSet := 0, initialSeed := 511 }

theorem init4 : args4.init (.arr1 [1]) (.str "pn9") = .ok stored4 := rfl

theorem ready4 : Ready stored4.start [2] [1, 0] false := by
  have hL : stored4.start.stored.splitLength = 2 := rfl
  refine ⟨rfl, by rw [hL]; decide, Or.inr (by rw [hL]; rfl), by decide, ⟨2, rfl, Or.inr (Or.inl rfl)⟩, ?_⟩
  intro pl hp h0 n hn
  cases hp
  have hn1 : n < 1 := hn
  obtain rfl : n = 0 := by omega
  refine ⟨by decide, by decide, by simp, [1], rfl, by decide, ?_⟩
  decide

theorem ok4 : ∃ iq o', (OfdmRun.bitsToIQ 1 0 (.arr [2] [1, 0]) false).call stored4.start = (.ok iq, o') := by
  have hb : Built stored4 := C103.C103_built (.int 4) (.str "BPSK") (.int 0) (.int 0) (.int 1) (.arr1 [1]) (.str "pn9") (.int 0) (.int 511) trivial _ rfl
  obtain ⟨iq, h⟩ := ((C103.C103_accepts 1 0 stored4.start hb false).1 _ _).2 ready4
  exact ⟨iq, _, Prod.ext h rfl⟩

/-- A program that meets the hypotheses of `C118_construct`: an array of tones and a list of values. -/
example : let l : List PilotEvent := [.make (.indices false (.arr1 [1])), .make (.values true (.arr [1]))]
    (PilotWorld.runProgram false l).held[0]? = some (.indices false (.arr1 [1])) ∧ (PilotWorld.runProgram false l).held[1]? = some (.values true (.arr [1])) ∧
    ∃ s, args4.init (.arr1 [1]) (.arr [1]) = .ok s := ⟨rfl, rfl, _, rfl⟩

/-- With an array the call fails: the modulator sees the new tone, although its constructor would have accepted it as well ... -/
example : (PilotHeap.run (changed false)).log = [.done, .raised .ValueError] := rfl

/-- ... with a list it does not. -/
example : (PilotHeap.run (changed true)).log = [.done, .done] := by
  have hu : Untouched (changed true) := by
    intro l₁ e l₂ hl i hi c hc
    have : PilotEvent.write i c ∈ changed true := by rw [hl]; exact List.mem_append_right _ (List.mem_cons_of_mem _ hc)
    simp only [changed, List.mem_cons, reduceCtorEq, List.not_mem_nil, or_false, false_or, PilotEvent.write.injEq] at this
    rw [this.2]
    rfl
  rw [(C118_untouched _ hu).1]
  obtain ⟨iq, o', h⟩ := ok4
  have e : PilotWorld.runProgram true (changed true) = PilotWorld.step true
      ⟨[{ run := stored4.start, factor := 1, CP := 0, indicesFrom := none, valuesFrom := none }], [.indices true (.arr1 [0]), .message (.arr [2] [1, 0])], [.done]⟩ (.call 0 1 false) := rfl
  rw [e]
  unfold PilotWorld.step
  dsimp only [List.getElem?_cons_zero, List.getElem?_cons_succ]
  have hn : PilotUser.now [.indices true (.arr1 [0]), .message (.arr [2] [1, 0])] { run := stored4.start, factor := 1, CP := 0, indicesFrom := none, valuesFrom := none } = stored4.start := rfl
  rw [hn, h]
  rfl

/-- A program that satisfies the hypothesis of `C118_untouched` and uses arrays. -/
example : Untouched [.make (.indices false (.arr1 [1])), .write 0 (.indices false (.arr1 [-1])), .make (.message (.arr [2] [1, 0])), .construct args4 (some 0) (.str "pn9"), .call 0 1 false,
    .write 1 (.message (.arr [2] [0, 0])), .call 0 1 false, .getters 0] := by
  intro l₁ e l₂ hl i hi c hc
  obtain ⟨a, ix, vs, rfl, hix⟩ := hi
  have h3 : l₁.length = 3 := by
    have hk : ∀ k, l₁.length = k → ([.make (.indices false (.arr1 [1])), .write 0 (.indices false (.arr1 [-1])), .make (.message (.arr [2] [1, 0])), .construct args4 (some 0) (.str "pn9"), .call 0 1 false,
        .write 1 (.message (.arr [2] [0, 0])), .call 0 1 false, .getters 0] : List PilotEvent)[k]? = some (.construct a ix vs) := by
      rintro k rfl
      rw [hl, List.getElem?_append_right (le_refl _), Nat.sub_self]
      rfl
    generalize l₁.length = k at hk
    have := hk k rfl
    match k, this with
    | 3, _ => rfl
    | k + 8, h => cases h
  have hd := congrArg (List.drop 3) hl
  rw [← h3, List.drop_left] at hd
  rw [h3] at hd
  simp only [List.drop_succ_cons, List.drop_zero, List.cons.injEq, PilotEvent.construct.injEq] at hd
  obtain ⟨⟨-, rfl, rfl⟩, rfl⟩ := hd
  simp only [List.mem_cons, reduceCtorEq, List.not_mem_nil, or_false, false_or, PilotEvent.write.injEq] at hc
  obtain ⟨rfl, rfl⟩ := hc
  rcases hix with hix | hix <;> cases hix

end
end SunPhy.C118
