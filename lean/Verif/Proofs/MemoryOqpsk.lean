import Verif.Proofs.MemoryFsk
/-
The MR-O-QPSK modulator with memory does the same as the one with values.
-/
namespace SunPhy
open PyM Referring

noncomputable instance : Referring OqpskRefs OqpskObj where
  refs o := attrRefs [o.shr_bde, o.cSHR, o.phr_encoded, o.phr_interleaved, o.phr_bde, o.cPHR, o.PSDU_encoded, o.PSDU_interleaved, o.PSDU_temp, o.PSDU_BDE, o.cPSDU, o.cPPDU]
  value m o := { params := o.params, shr_bde := o.shr_bde.map m.bits, cSHR := o.cSHR.map m.bits, phr_encoded := o.phr_encoded.map m.bits, phr_interleaved := o.phr_interleaved.map m.bits, phr_bde := o.phr_bde.map m.bits, cPHR := o.cPHR.map m.bits, PSDU_encoded := o.PSDU_encoded.map m.bits, PSDU_interleaved := o.PSDU_interleaved.map m.bits, PSDU_temp := o.PSDU_temp.map m.bits, PSDU_BDE := o.PSDU_BDE.map m.bits, cPSDU := o.cPSDU.map m.bits, cPPDU := o.cPPDU.map m.bits }
  congr m m' o h := by
    have h' : ∀ x ∈ [o.shr_bde, o.cSHR, o.phr_encoded, o.phr_interleaved, o.phr_bde, o.cPHR, o.PSDU_encoded, o.PSDU_interleaved, o.PSDU_temp, o.PSDU_BDE, o.cPSDU, o.cPPDU], x.map m.bits = x.map m'.bits := by
      intro x hx
      exact map_agree fun a ha => bits_agree (h a (mem_attrRefs.2 (ha ▸ hx)))
    simp only [List.mem_cons, List.not_mem_nil, or_false, forall_eq_or_imp, forall_eq] at h'
    simp only [h']

theorem oqpsk_refs (o : OqpskRefs) (a : Nat) : a ∈ refs o ↔ o.shr_bde = some a ∨ o.cSHR = some a ∨ o.phr_encoded = some a ∨ o.phr_interleaved = some a ∨ o.phr_bde = some a ∨ o.cPHR = some a ∨ o.PSDU_encoded = some a ∨ o.PSDU_interleaved = some a ∨ o.PSDU_temp = some a ∨ o.PSDU_BDE = some a ∨ o.cPSDU = some a ∨ o.cPPDU = some a := by
  show a ∈ attrRefs _ ↔ _
  rw [mem_attrRefs]
  simp only [List.mem_cons, List.not_mem_nil, or_false, eq_comm]

namespace OqpskSlot
noncomputable def shr_bde : Slot OqpskRefs OqpskObj where
  set a o := { o with shr_bde := some a }
  get o := o.shr_bde
  vset b o := { o with shr_bde := some b }
  vget o := o.shr_bde
  value_set _ _ _ := rfl
  refs_set := by slotRefs oqpsk_refs
  get_set _ _ := rfl
  vget_value _ _ := rfl
  vset_vset _ _ _ := rfl
noncomputable def cSHR : Slot OqpskRefs OqpskObj where
  set a o := { o with cSHR := some a }
  get o := o.cSHR
  vset b o := { o with cSHR := some b }
  vget o := o.cSHR
  value_set _ _ _ := rfl
  refs_set := by slotRefs oqpsk_refs
  get_set _ _ := rfl
  vget_value _ _ := rfl
  vset_vset _ _ _ := rfl
noncomputable def phr_encoded : Slot OqpskRefs OqpskObj where
  set a o := { o with phr_encoded := some a }
  get o := o.phr_encoded
  vset b o := { o with phr_encoded := some b }
  vget o := o.phr_encoded
  value_set _ _ _ := rfl
  refs_set := by slotRefs oqpsk_refs
  get_set _ _ := rfl
  vget_value _ _ := rfl
  vset_vset _ _ _ := rfl
noncomputable def phr_interleaved : Slot OqpskRefs OqpskObj where
  set a o := { o with phr_interleaved := some a }
  get o := o.phr_interleaved
  vset b o := { o with phr_interleaved := some b }
  vget o := o.phr_interleaved
  value_set _ _ _ := rfl
  refs_set := by slotRefs oqpsk_refs
  get_set _ _ := rfl
  vget_value _ _ := rfl
  vset_vset _ _ _ := rfl
noncomputable def phr_bde : Slot OqpskRefs OqpskObj where
  set a o := { o with phr_bde := some a }
  get o := o.phr_bde
  vset b o := { o with phr_bde := some b }
  vget o := o.phr_bde
  value_set _ _ _ := rfl
  refs_set := by slotRefs oqpsk_refs
  get_set _ _ := rfl
  vget_value _ _ := rfl
  vset_vset _ _ _ := rfl
noncomputable def cPHR : Slot OqpskRefs OqpskObj where
  set a o := { o with cPHR := some a }
  get o := o.cPHR
  vset b o := { o with cPHR := some b }
  vget o := o.cPHR
  value_set _ _ _ := rfl
  refs_set := by slotRefs oqpsk_refs
  get_set _ _ := rfl
  vget_value _ _ := rfl
  vset_vset _ _ _ := rfl
noncomputable def PSDU_encoded : Slot OqpskRefs OqpskObj where
  set a o := { o with PSDU_encoded := some a }
  get o := o.PSDU_encoded
  vset b o := { o with PSDU_encoded := some b }
  vget o := o.PSDU_encoded
  value_set _ _ _ := rfl
  refs_set := by slotRefs oqpsk_refs
  get_set _ _ := rfl
  vget_value _ _ := rfl
  vset_vset _ _ _ := rfl
noncomputable def PSDU_interleaved : Slot OqpskRefs OqpskObj where
  set a o := { o with PSDU_interleaved := some a }
  get o := o.PSDU_interleaved
  vset b o := { o with PSDU_interleaved := some b }
  vget o := o.PSDU_interleaved
  value_set _ _ _ := rfl
  refs_set := by slotRefs oqpsk_refs
  get_set _ _ := rfl
  vget_value _ _ := rfl
  vset_vset _ _ _ := rfl
noncomputable def PSDU_temp : Slot OqpskRefs OqpskObj where
  set a o := { o with PSDU_temp := some a }
  get o := o.PSDU_temp
  vset b o := { o with PSDU_temp := some b }
  vget o := o.PSDU_temp
  value_set _ _ _ := rfl
  refs_set := by slotRefs oqpsk_refs
  get_set _ _ := rfl
  vget_value _ _ := rfl
  vset_vset _ _ _ := rfl
noncomputable def PSDU_BDE : Slot OqpskRefs OqpskObj where
  set a o := { o with PSDU_BDE := some a }
  get o := o.PSDU_BDE
  vset b o := { o with PSDU_BDE := some b }
  vget o := o.PSDU_BDE
  value_set _ _ _ := rfl
  refs_set := by slotRefs oqpsk_refs
  get_set _ _ := rfl
  vget_value _ _ := rfl
  vset_vset _ _ _ := rfl
noncomputable def cPSDU : Slot OqpskRefs OqpskObj where
  set a o := { o with cPSDU := some a }
  get o := o.cPSDU
  vset b o := { o with cPSDU := some b }
  vget o := o.cPSDU
  value_set _ _ _ := rfl
  refs_set := by slotRefs oqpsk_refs
  get_set _ _ := rfl
  vget_value _ _ := rfl
  vset_vset _ _ _ := rfl
noncomputable def cPPDU : Slot OqpskRefs OqpskObj where
  set a o := { o with cPPDU := some a }
  get o := o.cPPDU
  vset b o := { o with cPPDU := some b }
  vget o := o.cPPDU
  value_set _ _ _ := rfl
  refs_set := by slotRefs oqpsk_refs
  get_set _ _ := rfl
  vget_value _ _ := rfl
  vset_vset _ _ _ := rfl
end OqpskSlot

section
variable {s0 s : HS OqpskRefs}

theorem sim_bde {α β : Type} (S : Slot OqpskRefs OqpskObj) {x : Bits} {e : Bool} {k : Nat → Unit → HM OqpskRefs α} {k' : PUnit → PyM OqpskObj β} {Q : HS OqpskRefs → α → β → Prop}
    (hs : Kept s0 s)
    (h : ∀ s', Kept s0 s' → Later s s' → s'.obj = S.set s.mem.next s.obj → s.mem.next < s'.mem.next → Sim s0 (k s.mem.next ()) (k' ⟨⟩) s' Q) :
    Sim s0 (bdeH x e >>= fun a => assign (S.set a) >>= k a) (modify (S.vset (bde x e)) >>= k') s Q := by
  unfold bdeH
  simp only [bind_assoc]
  refine sim_newWrite hs fun s' hs' hl ho hc hn => ?_
  rw [pure_bind]
  refine sim_alias S hs' (bits_of hc) hn hs.next fun s'' hs'' hl' ho' hm => ?_
  exact h s'' hs'' (hl.trans hl') (by rw [ho', ho]) (by rw [hm]; exact hn)

/-- The end of `bitsToIQ`: pilots and the frame. -/
theorem oqpsk_tail {p : OqpskParams} {spread : Bits} {x y : Nat} (hs : Kept s0 s) (hx : s.obj.cSHR = some x) (hy : s.obj.cPHR = some y) (hp : s.obj.params = s0.obj.params) :
    Sim s0 (do
      let x ← newArray (.bits (List.replicate (p.insertPilots spread).length false))
      writeArray x (.bits (p.insertPilots spread))
      assign fun o => { o with cPSDU := some x }
      let cs ← readArray (·.bits (← refAttr (·.cSHR)))
      let cp ← readArray (·.bits (← refAttr (·.cPHR)))
      let cd ← readArray (·.bits (← refAttr (·.cPSDU)))
      let x ← newArray (.bits (cs ++ cp ++ cd))
      assign fun o => { o with cPPDU := some x }
      refAttr (·.cPPDU)) (do
      modify fun o => { o with cPSDU := some (p.insertPilots spread) }
      let cs ← PyM.attr (·.cSHR)
      let cp ← PyM.attr (·.cPHR)
      let cd ← PyM.attr (·.cPSDU)
      modify fun o => { o with cPPDU := some (cs ++ cp ++ cd) }
      PyM.attr (·.cPPDU)) s fun s x y => s.mem.bits x = y ∧ s.obj.params = s0.obj.params := by
  refine sim_newWrite hs fun s1 hs1 hl1 ho1 hc1 hn1 => ?_
  refine sim_alias OqpskSlot.cPSDU hs1 (bits_of hc1) hn1 hs.next fun s2 hs2 hl2 ho2 hm2 => ?_
  refine sim_slot OqpskSlot.cSHR (x := x) (by rw [ho2, ho1]; exact hx) (sim_read ?_)
  refine sim_slot OqpskSlot.cPHR (x := y) (by rw [ho2, ho1]; exact hy) (sim_read ?_)
  refine sim_slot OqpskSlot.cPSDU (x := s.mem.next) (by rw [ho2]; rfl) (sim_read ?_)
  refine sim_newAssign OqpskSlot.cPPDU hs2 fun s3 hs3 hl3 ho3 hc3 hn3 => ?_
  exact sim_slot_end OqpskSlot.cPPDU hs3 (by rw [ho3]; rfl) ⟨rfl, by rw [ho3]; show s2.obj.params = _; rw [ho2]; show s1.obj.params = _; rw [ho1]; exact hp⟩

/-- Spreading of the payload. -/
theorem oqpsk_spread {p : OqpskParams} {x y t : Nat} (hs : Kept s0 s) (hx : s.obj.cSHR = some x) (hy : s.obj.cPHR = some y) (ht : s.obj.PSDU_temp = some t)
    (htn : t < s.mem.next) (ht0 : s0.mem.next ≤ t) (hp : s.obj.params = s0.obj.params) :
    Sim s0 (do
      let spread ← do
        if p.sm = 0 then
          let useBde ← PyM.lift (psduBdeDsss p.band p.rm)
          let t ← refAttr (·.PSDU_temp)
          if useBde then
            let tv ← readArray (·.bits t)
            let x ← bdeH tv false
            assign fun o => { o with PSDU_BDE := some x }
          else
            assign fun o => { o with PSDU_BDE := some t }
          let sp ← PyM.lift (psduSpreadingDsss p.band p.rm)
          let b ← readArray (·.bits (← refAttr (·.PSDU_BDE)))
          match sp with
          | some codes => PyM.lift (dsss b codes)
          | none => pure b
        else
          let t ← readArray (·.bits (← refAttr (·.PSDU_temp)))
          let f ← PyM.lift (mdsssFactor p.band p.rm)
          PyM.lift (mdsss t f)
      let x ← newArray (.bits (List.replicate (p.insertPilots spread).length false))
      writeArray x (.bits (p.insertPilots spread))
      assign fun o => { o with cPSDU := some x }
      let cs ← readArray (·.bits (← refAttr (·.cSHR)))
      let cp ← readArray (·.bits (← refAttr (·.cPHR)))
      let cd ← readArray (·.bits (← refAttr (·.cPSDU)))
      let x ← newArray (.bits (cs ++ cp ++ cd))
      assign fun o => { o with cPPDU := some x }
      refAttr (·.cPPDU)) (do
      let spread ← do
        if p.sm = 0 then
          let useBde ← PyM.lift (psduBdeDsss p.band p.rm)
          let t ← PyM.attr (·.PSDU_temp)
          modify fun o => { o with PSDU_BDE := some (if useBde then bde t false else t) }
          let sp ← PyM.lift (psduSpreadingDsss p.band p.rm)
          let b ← PyM.attr (·.PSDU_BDE)
          match sp with
          | some codes => PyM.lift (dsss b codes)
          | none => pure b
        else
          let t ← PyM.attr (·.PSDU_temp)
          let f ← PyM.lift (mdsssFactor p.band p.rm)
          PyM.lift (mdsss t f)
      modify fun o => { o with cPSDU := some (p.insertPilots spread) }
      let cs ← PyM.attr (·.cSHR)
      let cp ← PyM.attr (·.cPHR)
      let cd ← PyM.attr (·.cPSDU)
      modify fun o => { o with cPPDU := some (cs ++ cp ++ cd) }
      PyM.attr (·.cPPDU)) s fun s x y => s.mem.bits x = y ∧ s.obj.params = s0.obj.params := by
  by_cases hsm : p.sm = 0
  · simp only [hsm, if_true, bind_assoc]
    refine sim_lift hs fun useBde _ => ?_
    refine sim_slot OqpskSlot.PSDU_temp ht ?_
    cases useBde
    · simp only [Bool.false_eq_true, if_false, bind_assoc]
      refine sim_alias OqpskSlot.PSDU_BDE hs rfl htn ht0 fun s1 hs1 hl1 ho1 hm1 => ?_
      refine sim_lift hs1 fun sp _ => ?_
      refine sim_slot OqpskSlot.PSDU_BDE (x := t) (by rw [ho1]; rfl) (sim_read ?_)
      cases sp with
      | none =>
        simp only [pure_bind]
        exact oqpsk_tail (x := x) (y := y) hs1 (by rw [ho1]; exact hx) (by rw [ho1]; exact hy) (by rw [ho1]; exact hp)
      | some codes =>
        refine sim_lift hs1 fun spread _ => ?_
        exact oqpsk_tail (x := x) (y := y) hs1 (by rw [ho1]; exact hx) (by rw [ho1]; exact hy) (by rw [ho1]; exact hp)
    · simp only [if_true, bind_assoc]
      refine sim_read ?_
      refine sim_bde OqpskSlot.PSDU_BDE hs fun s1 hs1 hl1 ho1 hn1 => ?_
      refine sim_lift hs1 fun sp _ => ?_
      refine sim_slot OqpskSlot.PSDU_BDE (x := s.mem.next) (by rw [ho1]; rfl) (sim_read ?_)
      cases sp with
      | none =>
        simp only [pure_bind]
        exact oqpsk_tail (x := x) (y := y) hs1 (by rw [ho1]; exact hx) (by rw [ho1]; exact hy) (by rw [ho1]; exact hp)
      | some codes =>
        refine sim_lift hs1 fun spread _ => ?_
        exact oqpsk_tail (x := x) (y := y) hs1 (by rw [ho1]; exact hx) (by rw [ho1]; exact hy) (by rw [ho1]; exact hp)
  · simp only [hsm, if_false, bind_assoc]
    refine sim_slot OqpskSlot.PSDU_temp ht (sim_read ?_)
    refine sim_lift hs fun f _ => sim_lift hs fun spread _ => ?_
    exact oqpsk_tail hs hx hy hp

theorem oqpsk_chips_sim (hs : Kept s0 s) (hp0 : s.obj.params = s0.obj.params) (a : Nat) :
    Sim s0 (oqpskChipsH a) (oqpskChips (s.mem.msg a)) s fun s x y => s.mem.bits x = y ∧ s.obj.params = s0.obj.params := by
  unfold oqpskChipsH oqpskChips
  refine sim_check hs fun b s1 hs1 hl1 ho1 hc1 hn1 => ?_
  have hp1 : s1.obj.params = s0.obj.params := by rw [ho1]; exact hp0
  refine sim_get ?_
  show Sim s0 _ _ s1 _
  have hv : (value s1.mem s1.obj).params = s1.obj.params := rfl
  rw [hv]
  clear hv
  dsimp only
  generalize s1.obj.params = p
  refine sim_bde OqpskSlot.shr_bde hs1 fun s2 hs2 hl2 ho2 hn2 => ?_
  refine sim_slot OqpskSlot.shr_bde (x := s1.mem.next) (by rw [ho2]; rfl) (sim_read ?_)
  refine sim_lift hs2 fun cshr _ => ?_
  refine sim_newAssign OqpskSlot.cSHR hs2 fun s3 hs3 hl3 ho3 hc3 hn3 => ?_
  refine sim_read ?_
  rw [bits_of ((hl2.trans hl3).frame s.mem.next hn1 |>.trans hc1)]
  refine sim_lift hs3 fun phr _ => ?_
  refine sim_newAssign OqpskSlot.phr_encoded hs3 fun s4 hs4 hl4 ho4 hc4 hn4 => ?_
  refine sim_slot OqpskSlot.phr_encoded (x := s3.mem.next) (by rw [ho4]; rfl) (sim_read ?_)
  refine sim_lift hs4 fun pint _ => ?_
  refine sim_newAssign OqpskSlot.phr_interleaved hs4 fun s5 hs5 hl5 ho5 hc5 hn5 => ?_
  refine sim_slot OqpskSlot.phr_interleaved (x := s4.mem.next) (by rw [ho5]; rfl) (sim_read ?_)
  refine sim_slot OqpskSlot.shr_bde (x := s1.mem.next) (by rw [ho5, ho4, ho3, ho2]; rfl) (sim_read ?_)
  refine sim_bde OqpskSlot.phr_bde hs5 fun s6 hs6 hl6 ho6 hn6 => ?_
  refine sim_slot OqpskSlot.phr_bde (x := s5.mem.next) (by rw [ho6]; rfl) (sim_read ?_)
  refine sim_lift hs6 fun cphr _ => ?_
  refine sim_newAssign OqpskSlot.cPHR hs6 fun s7 hs7 hl7 ho7 hc7 hn7 => ?_
  have hl : Later s1 s7 := hl2.trans (hl3.trans (hl4.trans (hl5.trans (hl6.trans hl7))))
  have hx : s7.obj.cSHR = some s2.mem.next := by rw [ho7, ho6, ho5, ho4, ho3]; rfl
  have hy : s7.obj.cPHR = some s6.mem.next := by rw [ho7]; rfl
  have hp : s7.obj.params = s0.obj.params := by rw [ho7, ho6, ho5, ho4, ho3, ho2]; exact hp1
  by_cases hc : (0 ≤ p.rm ∧ p.rm ≤ 1) ∨ p.sm = 0
  · simp only [hc, if_true, bind_assoc]
    refine sim_read ?_
    rw [bits_of ((hl.frame s.mem.next hn1).trans hc1)]
    refine sim_newAssign OqpskSlot.PSDU_encoded hs7 fun s8 hs8 hl8 ho8 hc8 hn8 => ?_
    refine sim_slot OqpskSlot.PSDU_encoded (x := s7.mem.next) (by rw [ho8]; rfl) (sim_read ?_)
    refine sim_lift hs8 fun il _ => ?_
    refine sim_newAssign OqpskSlot.PSDU_interleaved hs8 fun s9 hs9 hl9 ho9 hc9 hn9 => ?_
    refine sim_slot OqpskSlot.PSDU_interleaved (x := s8.mem.next) (by rw [ho9]; rfl) ?_
    refine sim_alias OqpskSlot.PSDU_temp hs9 rfl hn9 hs8.next fun s10 hs10 hl10 ho10 hm10 => ?_
    exact oqpsk_spread (x := s2.mem.next) (y := s6.mem.next) (t := s8.mem.next) hs10 (by rw [ho10, ho9, ho8]; exact hx) (by rw [ho10, ho9, ho8]; exact hy) (by rw [ho10]; rfl)
      (by rw [hm10]; exact hn9) hs8.next (by rw [ho10, ho9, ho8]; exact hp)
  · simp only [hc, if_false, bind_assoc]
    refine sim_alias OqpskSlot.PSDU_temp hs7 (bits_of ((hl.frame s.mem.next hn1).trans hc1)) (lt_of_lt_of_le hn1 hl.next) hs.next fun s8 hs8 hl8 ho8 hm8 => ?_
    exact oqpsk_spread (x := s2.mem.next) (y := s6.mem.next) (t := s.mem.next) hs8 (by rw [ho8]; exact hx) (by rw [ho8]; exact hy) (by rw [ho8]; rfl)
      (by rw [hm8]; exact lt_of_lt_of_le hn1 hl.next) hs.next (by rw [ho8]; exact hp)

theorem oqpsk_bits_sim (hs : Kept s0 s) (hp0 : s.obj.params = s0.obj.params) (a : Nat) :
    Sim s0 (oqpskBitsToIQH a) (oqpskBitsToIQ (s.mem.msg a)) s (Signal s0) := by
  unfold oqpskBitsToIQH oqpskBitsToIQ
  refine sim_bind (oqpsk_chips_sim hs hp0 a) fun s' x y hs' hq => ?_
  refine sim_read ?_
  rw [hq.1]
  refine sim_get ?_
  exact sim_signal hs'

theorem oqpsk_bytes_sim (hs : Kept s0 s) (hp0 : s.obj.params = s0.obj.params) (a : Nat) :
    Sim s0 (oqpskBytesToIQH a) (oqpskBytesToIQ (s.mem.msg a)) s (Signal s0) := by
  unfold oqpskBytesToIQH oqpskBytesToIQ
  refine sim_toBinary hs fun b s' hs' ho hm => ?_
  rw [← hm]
  exact oqpsk_bits_sim hs' (by rw [ho]; exact hp0) _

end
end SunPhy
