import Verif.Proofs.MemoryOfdm
import Verif.Spec.Isolation
import Verif.Proofs.OfdmResult
import Verif.Props.C30
/-
C117: arrays are isolated.
-/
namespace SunPhy.C117
open SunPhy Spec PyM
noncomputable section

/-- The contents of the attributes of a modulator. -/
def contents (m : Mem) : ObjH → ObjV
  | .fsk o => .fsk {
      params := o.params
      PHR_PSDU := o.PHR_PSDU.map m.bits
      PHR_PSDU_encoded := o.PHR_PSDU_encoded.map m.bits
      PHR_PSDU_interleaved := o.PHR_PSDU_interleaved.map m.bits
      PHR_PSDU_scrambled := o.PHR_PSDU_scrambled.map m.bits
      binarySignal := o.binarySignal.map m.bits }
  | .oqpsk o => .oqpsk {
      params := o.params
      shr_bde := o.shr_bde.map m.bits
      cSHR := o.cSHR.map m.bits
      phr_encoded := o.phr_encoded.map m.bits
      phr_interleaved := o.phr_interleaved.map m.bits
      phr_bde := o.phr_bde.map m.bits
      cPHR := o.cPHR.map m.bits
      PSDU_encoded := o.PSDU_encoded.map m.bits
      PSDU_interleaved := o.PSDU_interleaved.map m.bits
      PSDU_temp := o.PSDU_temp.map m.bits
      PSDU_BDE := o.PSDU_BDE.map m.bits
      cPSDU := o.cPSDU.map m.bits
      cPPDU := o.cPPDU.map m.bits }
  | .ofdm o => .ofdm {
      params := o.params
      ij := o.ij.map m.nats
      N_PAD := o.N_PAD
      PHY_header := o.PHY_header.map m.bits
      PHY_header_encoded := o.PHY_header_encoded.map m.bits
      PHY_header_interleaved := o.PHY_header_interleaved.map m.bits
      payload_pad := o.payload_pad.map m.bits
      payload_scrambled := o.payload_scrambled.map m.bits
      payload_encoded := o.payload_encoded.map m.bits
      payload_interleaved := o.payload_interleaved.map m.bits
      mod_phy := o.mod_phy.map (·.state) }

/-- The arrays that the attributes of a modulator name. -/
def arrays : ObjH → List Nat
  | .fsk o => [o.PHR_PSDU, o.PHR_PSDU_encoded, o.PHR_PSDU_interleaved, o.PHR_PSDU_scrambled, o.binarySignal].filterMap id
  | .oqpsk o => [o.shr_bde, o.cSHR, o.phr_encoded, o.phr_interleaved, o.phr_bde, o.cPHR, o.PSDU_encoded, o.PSDU_interleaved, o.PSDU_temp, o.PSDU_BDE, o.cPSDU, o.cPPDU].filterMap id
  | .ofdm o => [o.PHY_header, o.PHY_header_encoded, o.PHY_header_interleaved, o.payload_pad, o.payload_scrambled, o.payload_encoded, o.payload_interleaved, o.ij, o.phr_subcarriers,
      o.mod_phy.bind (·.subcarriers)].filterMap id

/-- What the program can see, and the attributes. -/
def view (w : HeapWorld) : ValueWorld := ⟨w.objs.map (contents w.mem), w.held.map w.mem.cell, w.log⟩

/-- A modulator that a constructor made. -/
def Valid : ObjH → Prop
  | .ofdm o => Supported o.params
  | _ => True

theorem contents_congr {m m' : Mem} (o : ObjH) (h : ∀ a ∈ arrays o, m.cell a = m'.cell a) : contents m o = contents m' o := by
  cases o with
  | fsk o => exact congrArg ObjV.fsk (Referring.congr m m' o h)
  | oqpsk o => exact congrArg ObjV.oqpsk (Referring.congr m m' o h)
  | ofdm o => exact congrArg ObjV.ofdm (Referring.congr m m' o h)

/-- A call, with memory and without. -/
structure CallFacts (m : Mem) (o : ObjH) (r : Res (Nat × ℚ) × Mem × ObjH) (v : Res (List ℂ × ℚ) × ObjV) : Prop where
  next : m.next ≤ r.2.1.next
  frame : ∀ a < m.next, r.2.1.cell a = m.cell a
  attrs : ∀ a ∈ arrays r.2.2, a < r.2.1.next ∧ (a ∈ arrays o ∨ m.next ≤ a)
  state : v.2 = contents r.2.1 r.2.2
  same : match r.1, v.1 with
    | .ok x, .ok y => r.2.1.cell x.1 = .samples y.1 ∧ x.2 = y.2 ∧ m.next ≤ x.1 ∧ x.1 < r.2.1.next ∧ x.1 ∉ arrays r.2.2
    | .error e, .error e' => e = e'
    | _, _ => False

theorem facts_of {σ τ : Type} [Referring σ τ] {m : Mem} {o : σ} {h : HM σ (Nat × ℚ)} {p : PyM τ (List ℂ × ℚ)} (H : Sim ⟨m, o⟩ h p ⟨m, o⟩ (Signal ⟨m, o⟩)) (f : σ → ObjH) (g : τ → ObjV)
    (hf : ∀ o, arrays (f o) = Referring.refs o) (hg : ∀ m o, contents m (f o) = g (Referring.value m o)) :
    CallFacts m (f o) ((h.call ⟨m, o⟩).1, (h.call ⟨m, o⟩).2.mem, f (h.call ⟨m, o⟩).2.obj) ((p.call (Referring.value m o)).1, g (p.call (Referring.value m o)).2) := by
  obtain ⟨hk, hv, hm⟩ := H
  refine ⟨hk.next, hk.frame, ?_, ?_, ?_⟩
  · intro a ha
    have ha' : a ∈ arrays (f (h.call ⟨m, o⟩).2.obj) := ha
    rw [hf] at ha' ⊢
    exact hk.refs a ha'
  · show g _ = contents (h.call ⟨m, o⟩).2.mem (f (h.call ⟨m, o⟩).2.obj)
    rw [hg]
    exact congrArg g hv
  · show (match (h.call ⟨m, o⟩).1, (p.call (Referring.value m o)).1 with
      | .ok x, .ok y => (h.call ⟨m, o⟩).2.mem.cell x.1 = .samples y.1 ∧ x.2 = y.2 ∧ m.next ≤ x.1 ∧ x.1 < (h.call ⟨m, o⟩).2.mem.next ∧ x.1 ∉ arrays (f (h.call ⟨m, o⟩).2.obj)
      | .error e, .error e' => e = e'
      | _, _ => False)
    rw [hf]
    dsimp only at hm
    generalize h.call ⟨m, o⟩ = r at hm ⊢
    generalize p.call (Referring.value m o) = q at hm ⊢
    obtain ⟨r1, r2⟩ := r
    obtain ⟨q1, q2⟩ := q
    cases r1 <;> cases q1 <;> exact hm

theorem call_facts (rn : Rat → Rat) (bytes : Bool) (m : Mem) (ht : Tables m) (o : ObjH) (ho : Valid o) (hr : ∀ a ∈ arrays o, a < m.next) (a : Nat) :
    CallFacts m o (o.call rn bytes a m) ((contents m o).call rn bytes (m.msg a)) := by
  cases o with
  | fsk o =>
    have hk : Kept (⟨m, o⟩ : HS FskRefs) ⟨m, o⟩ := Kept.start hr
    cases bytes
    · exact facts_of (fsk_bits_sim rn hk rfl a) ObjH.fsk ObjV.fsk (fun _ => rfl) (fun _ _ => rfl)
    · exact facts_of (fsk_bytes_sim rn hk rfl a) ObjH.fsk ObjV.fsk (fun _ => rfl) (fun _ _ => rfl)
  | oqpsk o =>
    have hk : Kept (⟨m, o⟩ : HS OqpskRefs) ⟨m, o⟩ := Kept.start hr
    cases bytes
    · exact facts_of (oqpsk_bits_sim hk rfl a) ObjH.oqpsk ObjV.oqpsk (fun _ => rfl) (fun _ _ => rfl)
    · exact facts_of (oqpsk_bytes_sim hk rfl a) ObjH.oqpsk ObjV.oqpsk (fun _ => rfl) (fun _ _ => rfl)
  | ofdm o =>
    have hk : Kept (⟨m, o⟩ : HS OfdmRefs) ⟨m, o⟩ := Kept.start hr
    have h14 : 1 ≤ o.params.option ∧ o.params.option ≤ 4 := by
      have h := mem_allSupported ho
      have H : ∀ p ∈ allSupported, 1 ≤ p.option ∧ p.option ≤ 4 := by decide +kernel
      exact H _ h
    cases bytes
    · exact facts_of (ofdm_bits_sim hk ht rfl h14.1 h14.2 a) ObjH.ofdm ObjV.ofdm (fun _ => rfl) (fun _ _ => rfl)
    · exact facts_of (ofdm_bytes_sim hk ht rfl h14.1 h14.2 a) ObjH.ofdm ObjV.ofdm (fun _ => rfl) (fun _ _ => rfl)


theorem valid_call (rn : Rat → Rat) (bytes : Bool) (m : Mem) (ht : Tables m) (o : ObjH) (ho : Valid o) (hr : ∀ a ∈ arrays o, a < m.next) (a : Nat) :
    Valid (o.call rn bytes a m).2.2 := by
  have hs := (call_facts rn bytes m ht o ho hr a).state
  cases o with
  | fsk o => trivial
  | oqpsk o => trivial
  | ofdm o =>
    show Supported _
    have hp : ∀ v : OfdmObj, ((contents m (.ofdm o)).call rn bytes (m.msg a)).2 = .ofdm v → v.params = o.params := by
      intro v hv
      cases bytes
      · refine Eq.trans ?_ (bitsToIQ_result (o := Referring.value m o) ho (m.msg a)).2
        exact congrArg OfdmObj.params (ObjV.ofdm.inj hv).symm
      · refine Eq.trans ?_ (bytesToIQ_result (o := Referring.value m o) ho (m.msg a)).2
        exact congrArg OfdmObj.params (ObjV.ofdm.inj hv).symm
    have h' : (ObjH.call rn bytes a m (.ofdm o)).2.2 = .ofdm ((if bytes then ofdmBytesToIQH a else ofdmBitsToIQH a).call ⟨m, o⟩).2.obj := rfl
    have := hp _ hs
    exact Eq.mpr (congrArg Supported this) ho

/-- What holds in every state that a program can reach. -/
structure Inv (w : HeapWorld) : Prop where
  tables : Tables w.mem
  objs : ∀ o ∈ w.objs, Valid o ∧ ∀ a ∈ arrays o, a < w.mem.next ∧ a ∉ w.held
  held : ∀ a ∈ w.held, 12 ≤ a ∧ a < w.mem.next
  nodup : w.held.Nodup

theorem step_ok (rn : Rat → Rat) (w : HeapWorld) (hw : Inv w) (e : Event) : Inv (w.step rn e) ∧ view (w.step rn e) = (view w).step rn e := by
  cases e with
  | fsk p =>
    refine ⟨⟨hw.tables, fun o ho => ?_, hw.held, hw.nodup⟩, ?_⟩
    · rcases List.mem_append.1 ho with ho | ho
      · exact hw.objs o ho
      · rw [List.mem_singleton] at ho
        subst ho
        exact ⟨trivial, fun a ha => by cases ha⟩
    · show (⟨List.map _ (w.objs ++ _), _, _⟩ : ValueWorld) = ⟨List.map _ w.objs ++ _, _, _⟩
      rw [List.map_append]
      rfl
  | oqpsk p =>
    refine ⟨⟨hw.tables, fun o ho => ?_, hw.held, hw.nodup⟩, ?_⟩
    · rcases List.mem_append.1 ho with ho | ho
      · exact hw.objs o ho
      · rw [List.mem_singleton] at ho
        subst ho
        exact ⟨trivial, fun a ha => by cases ha⟩
    · show (⟨List.map _ (w.objs ++ _), _, _⟩ : ValueWorld) = ⟨List.map _ w.objs ++ _, _, _⟩
      rw [List.map_append]
      rfl
  | ofdm MCS op il sc =>
    unfold HeapWorld.step ValueWorld.step
    dsimp only
    cases hi : mrOfdmInit MCS op il sc with
    | error e => exact ⟨⟨hw.tables, hw.objs, hw.held, hw.nodup⟩, rfl⟩
    | ok p =>
      refine ⟨⟨hw.tables, fun o ho => ?_, hw.held, hw.nodup⟩, ?_⟩
      · rcases List.mem_append.1 ho with ho | ho
        · exact hw.objs o ho
        · rw [List.mem_singleton] at ho
          subst ho
          exact ⟨(C30.C30_supported p).1 ⟨MCS, op, il, sc, hi⟩, fun a ha => by cases ha⟩
      · show (⟨List.map _ (w.objs ++ _), _, _⟩ : ValueWorld) = ⟨List.map _ w.objs ++ _, _, _⟩
        rw [List.map_append]
        rfl
  | array c =>
    have hlt : ∀ a, a < w.mem.next → (w.mem.push c).cell a = w.mem.cell a := fun a ha => if_neg (by omega)
    refine ⟨⟨⟨Nat.le_succ_of_le hw.tables.1, fun a ha => ?_⟩, fun o ho => ?_, fun a ha => ?_, ?_⟩, ?_⟩
    · rw [← hw.tables.2 a ha]
      exact hlt a (lt_of_lt_of_le ha hw.tables.1)
    · refine ⟨(hw.objs o ho).1, fun a ha => ?_⟩
      have h := (hw.objs o ho).2 a ha
      refine ⟨Nat.lt_succ_of_lt h.1, fun hm => ?_⟩
      rcases List.mem_append.1 hm with hm | hm
      · exact h.2 hm
      · rw [List.mem_singleton] at hm
        omega
    · rcases List.mem_append.1 ha with ha | ha
      · exact ⟨(hw.held a ha).1, Nat.lt_succ_of_lt (hw.held a ha).2⟩
      · rw [List.mem_singleton] at ha
        subst ha
        exact ⟨hw.tables.1, Nat.lt_succ_self _⟩
    · show (w.held ++ [w.mem.next]).Nodup
      rw [List.nodup_append]
      refine ⟨hw.nodup, List.nodup_singleton _, fun a ha b hb => ?_⟩
      rw [List.mem_singleton] at hb
      have := (hw.held a ha).2
      omega
    · show (⟨w.objs.map (contents (w.mem.push c)), (w.held ++ [w.mem.next]).map (w.mem.push c).cell, w.log⟩ : ValueWorld) =
        ⟨w.objs.map (contents w.mem), w.held.map w.mem.cell ++ [c], w.log⟩
      rw [List.map_append, List.map_congr_left fun a ha => hlt a (hw.held a ha).2,
        List.map_congr_left fun o ho => contents_congr o fun a ha => hlt a ((hw.objs o ho).2 a ha).1]
      congr 2
      show [(w.mem.push c).cell w.mem.next] = _
      rw [push_cell, if_pos rfl]
  | write i c =>
    unfold HeapWorld.step ValueWorld.step
    dsimp only
    cases hi : w.held[i]? with
    | none =>
      refine ⟨hw, ?_⟩
      show view w = { view w with held := (w.held.map w.mem.cell).set i c }
      rw [List.set_eq_of_length_le (by rw [List.length_map]; exact List.getElem?_eq_none_iff.1 hi)]
      rfl
    | some a =>
      obtain ⟨hlen, ha⟩ := List.getElem?_eq_some_iff.1 hi
      have hmem : a ∈ w.held := by rw [← ha]; exact List.getElem_mem hlen
      have h12 := (hw.held a hmem).1
      refine ⟨⟨⟨hw.tables.1, fun b hb => ?_⟩, hw.objs, hw.held, hw.nodup⟩, ?_⟩
      · show (w.mem.put a c).cell b = _
        rw [put_cell, if_neg (by omega), hw.tables.2 b hb]
      · show (⟨w.objs.map (contents (w.mem.put a c)), w.held.map (w.mem.put a c).cell, w.log⟩ : ValueWorld) = ⟨w.objs.map (contents w.mem), (w.held.map w.mem.cell).set i c, w.log⟩
        have ho : w.objs.map (contents (w.mem.put a c)) = w.objs.map (contents w.mem) := by
          refine List.map_congr_left fun o ho => contents_congr o fun b hb => ?_
          have hne : b ≠ a := by intro e; subst e; exact ((hw.objs o ho).2 b hb).2 hmem
          rw [put_cell, if_neg hne]
        have hh : w.held.map (w.mem.put a c).cell = (w.held.map w.mem.cell).set i c := by
          apply List.ext_getElem
          · rw [List.length_map, List.length_set, List.length_map]
          · intro k h1 h2
            rw [List.length_map] at h1
            rw [List.getElem_map, List.getElem_set, put_cell]
            by_cases hk : i = k
            · subst hk
              rw [if_pos ha, if_pos rfl]
            · rw [if_neg hk, if_neg, List.getElem_map]
              intro e
              exact hk ((List.Nodup.getElem_inj_iff hw.nodup).1 (ha.trans e.symm))
        rw [ho, hh]
  | call bytes i j =>
    unfold HeapWorld.step ValueWorld.step
    dsimp only
    have hvo : (view w).objs[i]? = (w.objs[i]?).map (contents w.mem) := List.getElem?_map
    have hvh : (view w).held[j]? = (w.held[j]?).map w.mem.cell := List.getElem?_map
    rw [hvo, hvh]
    cases hi : w.objs[i]? with
    | none => exact ⟨hw, rfl⟩
    | some o =>
      cases hj : w.held[j]? with
      | none => exact ⟨hw, rfl⟩
      | some a =>
        simp only [Option.map_some]
        cases hc : w.mem.cell a with
        | bits b => exact ⟨hw, rfl⟩
        | nats b => exact ⟨hw, rfl⟩
        | sets b => exact ⟨hw, rfl⟩
        | columns b => exact ⟨hw, rfl⟩
        | samples b => exact ⟨hw, rfl⟩
        | free => exact ⟨hw, rfl⟩
        | msg x =>
          simp only
          have hmem : o ∈ w.objs := List.mem_of_getElem? hi
          have hmsg : w.mem.msg a = x := by unfold Mem.msg; rw [hc]
          have hF := call_facts rn bytes w.mem hw.tables o (hw.objs o hmem).1 (fun b hb => ((hw.objs o hmem).2 b hb).1) a
          have hV := valid_call rn bytes w.mem hw.tables o (hw.objs o hmem).1 (fun b hb => ((hw.objs o hmem).2 b hb).1) a
          rw [hmsg] at hF
          generalize o.call rn bytes a w.mem = r at hF hV
          generalize (contents w.mem o).call rn bytes x = v at hF
          obtain ⟨r1, m, o'⟩ := r
          obtain ⟨v1, v2⟩ := v
          obtain ⟨hnext, hframe, hattrs, hstate, hsame⟩ := hF
          simp only at hnext hframe hattrs hstate hsame hV
          have hT : Tables m := ⟨hw.tables.1.trans hnext, fun b hb => (hframe b (lt_of_lt_of_le hb hw.tables.1)).trans (hw.tables.2 b hb)⟩
          have hobjs : (w.objs.set i o').map (contents m) = (w.objs.map (contents w.mem)).set i v2 := by
            rw [List.map_set, hstate]
            congr 1
            exact List.map_congr_left fun q hq => contents_congr q fun b hb => hframe b ((hw.objs q hq).2 b hb).1
          have hheld : w.held.map m.cell = w.held.map w.mem.cell := List.map_congr_left fun b hb => hframe b (hw.held b hb).2
          have hO : ∀ q ∈ w.objs.set i o', Valid q ∧ ∀ b ∈ arrays q, b < m.next ∧ b ∉ w.held := by
            intro q hq
            rcases List.mem_or_eq_of_mem_set hq with hq | rfl
            · exact ⟨(hw.objs q hq).1, fun b hb => ⟨lt_of_lt_of_le ((hw.objs q hq).2 b hb).1 hnext, ((hw.objs q hq).2 b hb).2⟩⟩
            · refine ⟨hV, fun b hb => ⟨(hattrs b hb).1, fun hm => ?_⟩⟩
              rcases (hattrs b hb).2 with h | h
              · exact ((hw.objs o hmem).2 b h).2 hm
              · have := (hw.held b hm).2
                omega
          cases r1 with
          | error e =>
            cases v1 with
            | ok y => exact hsame.elim
            | error e' =>
              simp only at hsame
              subst hsame
              refine ⟨⟨hT, hO, fun b hb => ⟨(hw.held b hb).1, lt_of_lt_of_le (hw.held b hb).2 hnext⟩, hw.nodup⟩, ?_⟩
              show (⟨(w.objs.set i o').map (contents m), w.held.map m.cell, _⟩ : ValueWorld) = _
              rw [hobjs, hheld]
              rfl
          | ok y =>
            cases v1 with
            | error e' => exact hsame.elim
            | ok z =>
              obtain ⟨out, fs⟩ := y
              obtain ⟨iq, fs'⟩ := z
              simp only at hsame
              obtain ⟨hcell, rfl, hn, hlt, hnot⟩ := hsame
              refine ⟨⟨hT, fun q hq => ⟨(hO q hq).1, fun b hb => ⟨((hO q hq).2 b hb).1, fun hm => ?_⟩⟩, fun b hb => ?_, ?_⟩, ?_⟩
              · rcases List.mem_append.1 hm with hm | hm
                · exact ((hO q hq).2 b hb).2 hm
                · rw [List.mem_singleton] at hm
                  subst hm
                  rcases List.mem_or_eq_of_mem_set hq with hq | rfl
                  · have := ((hw.objs q hq).2 b hb).1
                    omega
                  · exact hnot hb
              · rcases List.mem_append.1 hb with hb | hb
                · exact ⟨(hw.held b hb).1, lt_of_lt_of_le (hw.held b hb).2 hnext⟩
                · rw [List.mem_singleton] at hb
                  subst hb
                  exact ⟨hw.tables.1.trans hn, hlt⟩
              · show (w.held ++ [out]).Nodup
                rw [List.nodup_append]
                refine ⟨hw.nodup, List.nodup_singleton _, fun b hb d hd => ?_⟩
                rw [List.mem_singleton] at hd
                have := (hw.held b hb).2
                omega
              · show (⟨(w.objs.set i o').map (contents m), (w.held ++ [out]).map m.cell, _⟩ : ValueWorld) = _
                rw [hobjs, List.map_append, hheld]
                show (⟨_, _ ++ [m.cell out], _⟩ : ValueWorld) = _
                rw [hcell]
                rfl

theorem start_inv : Inv HeapWorld.start :=
  ⟨⟨le_refl _, fun _ _ => rfl⟩, fun o ho => (by cases ho), fun a ha => (by cases ha), List.nodup_nil⟩

theorem run_ok (rn : Rat → Rat) (l : List Event) : Inv (HeapWorld.run rn l) ∧ view (HeapWorld.run rn l) = ValueWorld.run rn l := by
  unfold HeapWorld.run ValueWorld.run
  have h0 : view HeapWorld.start = ⟨[], [], []⟩ := rfl
  rw [← h0]
  have hw := start_inv
  generalize HeapWorld.start = w at hw
  induction l generalizing w with
  | nil => exact ⟨hw, rfl⟩
  | cons e l ih =>
    have := step_ok rn w hw e
    rw [List.foldl_cons, List.foldl_cons, ← this.2]
    exact ih _ this.1

/-- **C117 (program).**  For every program - any number of modulators of the three kinds, arrays made, changed and handed over in any order, signals that were returned changed and handed over
again - the outcomes of all calls, the contents of all arrays that the program holds and the contents of all attributes are those of the world in which every array is a value of its own
(`Spec.ValueWorld`). -/
theorem C117_program (rn : Rat → Rat) (l : List Event) : view (HeapWorld.run rn l) = ValueWorld.run rn l := (run_ok rn l).2

/-- **C117 (call).**  A call made by any program changes no array that existed before (not its argument, no other array of the program, no array of another modulator, no table of the library); an
array that it returns did not exist before, and no attribute names it. -/
theorem C117_call (rn : Rat → Rat) (l : List Event) (bytes : Bool) (i : Nat) (o : ObjH) (a : Nat) (ho : (HeapWorld.run rn l).objs[i]? = some o) :
    (∀ b < (HeapWorld.run rn l).mem.next, (o.call rn bytes a (HeapWorld.run rn l).mem).2.1.cell b = (HeapWorld.run rn l).mem.cell b) ∧
    ∀ out fs, (o.call rn bytes a (HeapWorld.run rn l).mem).1 = .ok (out, fs) →
      (HeapWorld.run rn l).mem.next ≤ out ∧ out ∉ arrays (o.call rn bytes a (HeapWorld.run rn l).mem).2.2 := by
  have hw := (run_ok rn l).1
  generalize HeapWorld.run rn l = w at *
  have hmem : o ∈ w.objs := List.mem_of_getElem? ho
  have hF := call_facts rn bytes w.mem hw.tables o (hw.objs o hmem).1 (fun b hb => ((hw.objs o hmem).2 b hb).1) a
  refine ⟨hF.frame, fun out fs he => ?_⟩
  have := hF.same
  rw [he] at this
  cases hv : ((contents w.mem o).call rn bytes (w.mem.msg a)).1 with
  | error e => rw [hv] at this; exact this.elim
  | ok y => rw [hv] at this; exact ⟨this.2.2.1, this.2.2.2.2⟩

/-- **C117 (separate).**  At every moment the arrays that the program holds are different from each other, from the arrays named by the attributes of the modulators, and from the tables of the
library, which have the contents they had after import. -/
theorem C117_separate (rn : Rat → Rat) (l : List Event) :
    (HeapWorld.run rn l).held.Nodup ∧ (∀ o ∈ (HeapWorld.run rn l).objs, ∀ a ∈ arrays o, a ∉ (HeapWorld.run rn l).held) ∧
    (∀ n, 1 ≤ n → n ≤ 4 → ∀ t ∈ [pilotsAddr n, stfAddr n, ltfAddr n], t ∉ (HeapWorld.run rn l).held ∧ (HeapWorld.run rn l).mem.cell t = Mem.imported.cell t) := by
  have hw := (run_ok rn l).1
  refine ⟨hw.nodup, fun o ho a ha => ((hw.objs o ho).2 a ha).2, fun n h1 h4 t ht => ?_⟩
  have h12 : t < 12 := by
    simp only [List.mem_cons, List.not_mem_nil, or_false, pilotsAddr, stfAddr, ltfAddr] at ht
    omega
  exact ⟨fun hm => by have := (hw.held t hm).1; omega, hw.tables.2 t h12⟩

theorem call_set (rn : Rat → Rat) (w : ValueWorld) (bytes : Bool) (i j k : Nat) (c : Cell) (hk : k ≠ j) :
    ((({ w with held := w.held.set k c } : ValueWorld).step rn (.call bytes i j)).log = (w.step rn (.call bytes i j)).log ∧
    (({ w with held := w.held.set k c } : ValueWorld).step rn (.call bytes i j)).objs = (w.step rn (.call bytes i j)).objs) ∧
    ∀ n ≠ k, (({ w with held := w.held.set k c } : ValueWorld).step rn (.call bytes i j)).held[n]? = (w.step rn (.call bytes i j)).held[n]? := by
  unfold ValueWorld.step
  dsimp only
  rw [List.getElem?_set_ne hk]
  cases w.objs[i]? with
  | none => exact ⟨⟨rfl, rfl⟩, fun n hn => List.getElem?_set_ne (Ne.symm hn)⟩
  | some o =>
    cases w.held[j]? with
    | none => exact ⟨⟨rfl, rfl⟩, fun n hn => List.getElem?_set_ne (Ne.symm hn)⟩
    | some d =>
      cases d with
      | msg x =>
        dsimp only
        generalize o.call rn bytes x = r
        obtain ⟨r, o'⟩ := r
        cases r with
        | error e => exact ⟨⟨rfl, rfl⟩, fun n hn => List.getElem?_set_ne (Ne.symm hn)⟩
        | ok y =>
          refine ⟨⟨rfl, rfl⟩, fun n hn => ?_⟩
          show (w.held.set k c ++ _)[n]? = (w.held ++ _)[n]?
          rw [List.getElem?_append, List.getElem?_append, List.length_set, List.getElem?_set_ne (Ne.symm hn)]
      | _ => exact ⟨⟨rfl, rfl⟩, fun n hn => List.getElem?_set_ne (Ne.symm hn)⟩

/-- **C117 (write).**  Writing into an array (an argument of an earlier call, or a signal that was returned) has no effect on a later call with another argument: same outcome, same attributes, same
contents of all other arrays, the returned signal among them. -/
theorem C117_write (rn : Rat → Rat) (l : List Event) (bytes : Bool) (i j k : Nat) (c : Cell) (hk : k ≠ j) :
    (view (HeapWorld.run rn (l ++ [.write k c, .call bytes i j]))).log = (view (HeapWorld.run rn (l ++ [.call bytes i j]))).log ∧
    (view (HeapWorld.run rn (l ++ [.write k c, .call bytes i j]))).objs = (view (HeapWorld.run rn (l ++ [.call bytes i j]))).objs ∧
    ∀ n ≠ k, (view (HeapWorld.run rn (l ++ [.write k c, .call bytes i j]))).held[n]? = (view (HeapWorld.run rn (l ++ [.call bytes i j]))).held[n]? := by
  rw [C117_program, C117_program]
  unfold ValueWorld.run
  rw [List.foldl_append, List.foldl_append]
  generalize List.foldl (ValueWorld.step rn) ⟨[], [], []⟩ l = w
  have := call_set rn w bytes i j k c hk
  exact ⟨this.1.1, this.1.2, this.2⟩

/-- A program with an MR-OFDM modulator: a message of 8 bits is handed over, a signal comes back; the message is overwritten and handed over again. -/
example (rn : Rat → Rat) : ∃ iq fs iq' fs',
    (view (HeapWorld.run rn [.ofdm (.int 3) (.int 2) (.int 0) (.int 1), .array (.msg (bitsArg (List.replicate 8 true))), .call false 0 0,
      .write 0 (.msg (bitsArg (List.replicate 16 false))), .call false 0 0])).held = [.msg (bitsArg (List.replicate 16 false)), .samples iq, .samples iq'] ∧
    (view (HeapWorld.run rn [.ofdm (.int 3) (.int 2) (.int 0) (.int 1), .array (.msg (bitsArg (List.replicate 8 true))), .call false 0 0,
      .write 0 (.msg (bitsArg (List.replicate 16 false))), .call false 0 0])).log = [.ok fs, .ok fs'] := by
  have hi : mrOfdmInit (.int 3) (.int 2) (.int 0) (.int 1) = .ok ⟨3, 2, 0, 1⟩ := by decide +kernel
  have hs : Supported ⟨3, 2, 0, 1⟩ := (C30.C30_supported _).1 ⟨_, _, _, _, hi⟩
  rw [C117_program]
  have h1 := bitsToIQ_result (o := { params := ⟨3, 2, 0, 1⟩ }) hs (bitsArg (List.replicate 8 true))
  rw [ofdmResult_bits _ (by decide), if_pos (by decide)] at h1
  obtain ⟨e1, hp1⟩ := h1
  have h2 := bitsToIQ_result (o := ((ofdmModBitsToIQ (bitsArg (List.replicate 8 true))).call { params := ⟨3, 2, 0, 1⟩ }).2) (by rw [hp1]; exact hs) (bitsArg (List.replicate 16 false))
  rw [ofdmResult_bits _ (by decide), if_pos (by decide), hp1] at h2
  obtain ⟨e2, -⟩ := h2
  refine ⟨frameIQ ⟨3, 2, 0, 1⟩ (List.replicate 8 true), ofdmFs ⟨3, 2, 0, 1⟩, frameIQ ⟨3, 2, 0, 1⟩ (List.replicate 16 false), ofdmFs ⟨3, 2, 0, 1⟩, ?_⟩
  simp only [ValueWorld.run, List.foldl_cons, List.foldl_nil, ValueWorld.step, hi, List.nil_append, List.getElem?_cons_zero, ObjV.call, Bool.false_eq_true, if_false, e1, List.cons_append,
    List.set_cons_zero, e2, and_self]

/-- References matter in the model: after a call of an MR-FSK modulator with whitening, two attributes name one array, and this array was written to after it had been made. -/
example : ∃ r : HS FskRefs,
    ((fskBinaryH 12).call ⟨Mem.imported.push (.msg (bitsArg (List.replicate 8 true))), { params := ⟨50, 1, 0, .FSK2, false, 0, 0, true, false, 4⟩ }⟩).2 = r ∧
    r.obj.PHR_PSDU = some 15 ∧ r.obj.PHR_PSDU_scrambled = some 15 ∧ r.obj.binarySignal = some 16 := by
  have hc : checkBinaryArray (bitsArg (List.replicate 8 true)) = .ok (List.replicate 8 true) := C03.C03_identity _ (by decide)
  have hm : (Mem.imported.push (.msg (bitsArg (List.replicate 8 true)))).msg 12 = bitsArg (List.replicate 8 true) := rfl
  refine ⟨_, rfl, ?_⟩
  unfold fskBinaryH checkBinaryArrayH
  simp only [call_bind, call_readArray, seqR_ok, hm, hc, call_lift, call_newArray, call_get, call_assign, call_refAttr, call_writeArray, Bool.false_eq_true, if_false, if_true, call_pure]
  exact ⟨rfl, rfl, rfl⟩

end
end SunPhy.C117
