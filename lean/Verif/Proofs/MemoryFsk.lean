import Verif.Proofs.Memory
/-
The MR-FSK modulator with memory does the same as the one with values.
-/
namespace SunPhy
open PyM Referring

noncomputable instance : Referring FskRefs FskObj where
  refs o := attrRefs [o.PHR_PSDU, o.PHR_PSDU_encoded, o.PHR_PSDU_interleaved, o.PHR_PSDU_scrambled, o.binarySignal]
  value m o := { params := o.params, PHR_PSDU := o.PHR_PSDU.map m.bits, PHR_PSDU_encoded := o.PHR_PSDU_encoded.map m.bits,
                 PHR_PSDU_interleaved := o.PHR_PSDU_interleaved.map m.bits, PHR_PSDU_scrambled := o.PHR_PSDU_scrambled.map m.bits,
                 binarySignal := o.binarySignal.map m.bits }
  congr m m' o h := by
    have h' : ∀ x ∈ [o.PHR_PSDU, o.PHR_PSDU_encoded, o.PHR_PSDU_interleaved, o.PHR_PSDU_scrambled, o.binarySignal], x.map m.bits = x.map m'.bits := by
      intro x hx
      exact map_agree fun a ha => bits_agree (h a (mem_attrRefs.2 (ha ▸ hx)))
    simp only [List.mem_cons, List.not_mem_nil, or_false, forall_eq_or_imp, forall_eq] at h'
    simp only [h']

theorem fsk_refs (o : FskRefs) (a : Nat) : a ∈ refs o ↔ o.PHR_PSDU = some a ∨ o.PHR_PSDU_encoded = some a ∨ o.PHR_PSDU_interleaved = some a ∨ o.PHR_PSDU_scrambled = some a ∨
    o.binarySignal = some a := by
  show a ∈ attrRefs _ ↔ _
  rw [mem_attrRefs]
  simp only [List.mem_cons, List.not_mem_nil, or_false, eq_comm]

theorem fsk_value (m : Mem) (o : FskRefs) : value m o = FskObj.mk o.params (o.PHR_PSDU.map m.bits) (o.PHR_PSDU_encoded.map m.bits)
    (o.PHR_PSDU_interleaved.map m.bits) (o.PHR_PSDU_scrambled.map m.bits) (o.binarySignal.map m.bits) := rfl

macro "slotRefs" t:term : tactic => `(tactic| (intro a o b hb; rw [$t:term] at hb ⊢; simp only [Option.some.injEq] at hb; grind))

namespace FskSlot
noncomputable def phrPsdu : Slot FskRefs FskObj where
  set a o := { o with PHR_PSDU := some a }
  get o := o.PHR_PSDU
  vset b o := { o with PHR_PSDU := some b }
  vget o := o.PHR_PSDU
  value_set _ _ _ := rfl
  refs_set := by slotRefs fsk_refs
  get_set _ _ := rfl
  vget_value _ _ := rfl
  vset_vset _ _ _ := rfl
noncomputable def encoded : Slot FskRefs FskObj where
  set a o := { o with PHR_PSDU_encoded := some a }
  get o := o.PHR_PSDU_encoded
  vset b o := { o with PHR_PSDU_encoded := some b }
  vget o := o.PHR_PSDU_encoded
  value_set _ _ _ := rfl
  refs_set := by slotRefs fsk_refs
  get_set _ _ := rfl
  vget_value _ _ := rfl
  vset_vset _ _ _ := rfl
noncomputable def interleaved : Slot FskRefs FskObj where
  set a o := { o with PHR_PSDU_interleaved := some a }
  get o := o.PHR_PSDU_interleaved
  vset b o := { o with PHR_PSDU_interleaved := some b }
  vget o := o.PHR_PSDU_interleaved
  value_set _ _ _ := rfl
  refs_set := by slotRefs fsk_refs
  get_set _ _ := rfl
  vget_value _ _ := rfl
  vset_vset _ _ _ := rfl
noncomputable def scrambled : Slot FskRefs FskObj where
  set a o := { o with PHR_PSDU_scrambled := some a }
  get o := o.PHR_PSDU_scrambled
  vset b o := { o with PHR_PSDU_scrambled := some b }
  vget o := o.PHR_PSDU_scrambled
  value_set _ _ _ := rfl
  refs_set := by slotRefs fsk_refs
  get_set _ _ := rfl
  vget_value _ _ := rfl
  vset_vset _ _ _ := rfl
noncomputable def binarySignal : Slot FskRefs FskObj where
  set a o := { o with binarySignal := some a }
  get o := o.binarySignal
  vset b o := { o with binarySignal := some b }
  vget o := o.binarySignal
  value_set _ _ _ := rfl
  refs_set := by slotRefs fsk_refs
  get_set _ _ := rfl
  vget_value _ _ := rfl
  vset_vset _ _ _ := rfl
end FskSlot

theorem sim_fskInterleaver {α β : Type} {s0 s : HS FskRefs} {a : Nat} {k : Nat → HM FskRefs α} {k' : Bits → PyM FskObj β} {Q : HS FskRefs → α → β → Prop}
    (hs : Kept s0 s)
    (h : ∀ r s', Kept s0 s' → Later s s' → s'.obj = s.obj → s'.mem.bits s.mem.next = r → s.mem.next < s'.mem.next → Sim s0 (k s.mem.next) (k' r) s' Q) :
    Sim s0 (fskInterleaverH a >>= k) (lift (fskInterleaver (s.mem.bits a)) >>= k') s Q := by
  unfold fskInterleaverH
  simp only [bind_assoc]
  refine sim_read (sim_new hs fun hs' => sim_lift hs' fun r hr => sim_write hs' hs.next (fun hm => ?_) fun hs'' => ?_)
  · exact absurd (hs.refs _ hm).1 (lt_irrefl _)
  · rw [pure_bind]
    refine h r _ hs'' ⟨Nat.le_succ _, fun x hx => ?_⟩ rfl (bits_of (by show (Mem.put _ _ _).cell _ = _; rw [put_cell, if_pos rfl])) (Nat.lt_succ_self _)
    show (Mem.put _ _ _).cell _ = _
    rw [put_cell, if_neg (by omega), push_cell, if_neg (by omega)]

section
variable {s0 s : HS FskRefs}

theorem fsk_tail {p : FskParams} {x : Nat} (hs : Kept s0 s) (hx : s.obj.PHR_PSDU = some x) (hp : s.obj.params = s0.obj.params) :
    Sim s0 (do
      let d ← readArray (·.bits (← refAttr (·.PHR_PSDU)))
      let s ← newArray (.bits (p.shr ++ d))
      assign fun o => { o with binarySignal := some s }
      refAttr (·.binarySignal)) (do
      let d ← PyM.attr (·.PHR_PSDU)
      modify fun o => { o with binarySignal := some (p.shr ++ d) }
      PyM.attr (·.binarySignal)) s fun s x y => s.mem.bits x = y ∧ s.obj.params = s0.obj.params := by
  refine sim_slot FskSlot.phrPsdu hx (sim_read ?_)
  refine sim_newAssign FskSlot.binarySignal hs fun s' hs hl ho hc hn => ?_
  exact sim_slot_end FskSlot.binarySignal hs (by rw [ho]; rfl) ⟨rfl, by rw [ho]; exact hp⟩

theorem fsk_scramble {p : FskParams} {x n : Nat} (hs : Kept s0 s) (hx : s.obj.PHR_PSDU = some x) (hp : s.obj.params = s0.obj.params) :
    Sim s0 (do
      let cur ← readArray (·.bits (← refAttr (·.PHR_PSDU)))
      let cpy ← newArray (.bits cur)
      assign fun o => { o with PHR_PSDU_scrambled := some cpy }
      let s ← refAttr (·.PHR_PSDU_scrambled)
      let scr ← readArray (·.bits s)
      writeArray s (.bits (scr.take n ++ scrambler (scr.drop n)))
      let s ← refAttr (·.PHR_PSDU_scrambled)
      assign fun o => { o with PHR_PSDU := some s }
      let d ← readArray (·.bits (← refAttr (·.PHR_PSDU)))
      let s ← newArray (.bits (p.shr ++ d))
      assign fun o => { o with binarySignal := some s }
      refAttr (·.binarySignal)) (do
      let cur ← PyM.attr (·.PHR_PSDU)
      modify fun o => { o with PHR_PSDU_scrambled := some cur }
      let scr ← PyM.attr (·.PHR_PSDU_scrambled)
      modify fun o => { o with PHR_PSDU_scrambled := some (scr.take n ++ scrambler (scr.drop n)) }
      let scr ← PyM.attr (·.PHR_PSDU_scrambled)
      modify fun o => { o with PHR_PSDU := some scr }
      let d ← PyM.attr (·.PHR_PSDU)
      modify fun o => { o with binarySignal := some (p.shr ++ d) }
      PyM.attr (·.binarySignal)) s fun s x y => s.mem.bits x = y ∧ s.obj.params = s0.obj.params := by
  refine sim_slot FskSlot.phrPsdu hx (sim_read ?_)
  refine sim_newAssignWrite FskSlot.scrambled (F := fun scr => scr.take n ++ scrambler (scr.drop n)) hs fun s' hs' hl ho hc hn => ?_
  refine sim_slot FskSlot.scrambled (x := s.mem.next) (by rw [ho]; rfl) ?_
  refine sim_alias FskSlot.phrPsdu hs' rfl hn hs.next fun s'' hs'' hl' ho' _ => ?_
  exact fsk_tail (x := s.mem.next) hs'' (by rw [ho']; rfl) (by rw [ho']; show s'.obj.params = _; rw [ho]; exact hp)

theorem fsk_binary_sim (hs : Kept s0 s) (hp0 : s.obj.params = s0.obj.params) (a : Nat) :
    Sim s0 (fskBinaryH a) (fskBinary (s.mem.msg a)) s fun s x y => s.mem.bits x = y ∧ s.obj.params = s0.obj.params := by
  unfold fskBinaryH fskBinary
  refine sim_check hs fun b s1 hs1 hl1 ho1 hc1 hn1 => ?_
  refine sim_get ?_
  show Sim s0 _ _ s1 _
  refine sim_read ?_
  rw [bits_of hc1]
  have hv : (value s1.mem s1.obj).params = s1.obj.params := rfl
  rw [hv]
  clear hv
  have hp1 : s1.obj.params = s0.obj.params := by rw [ho1]; exact hp0
  dsimp only
  rw [hp1]
  generalize hp : s0.obj.params = p at hp1
  refine sim_lift hs1 fun phr _ => ?_
  refine sim_newAssign FskSlot.phrPsdu hs1 fun s2 hs2 hl2 ho2 hc2 hn2 => ?_
  have hp2 : s2.obj.params = s0.obj.params := by rw [ho2, hp]; exact hp1
  have hx2 : s2.obj.PHR_PSDU = some s1.mem.next := by rw [ho2]; rfl
  rw [← hp]
  cases hf : p.fecEnabled <;> cases hi : p.interleaving <;> cases hsc : p.scramble <;>
    simp only [if_true, if_false, Bool.false_eq_true, pure_bind, bind_assoc, hf, hi, hsc, hp]
  · rw [← hp]; exact fsk_tail hs2 hx2 hp2
  · rw [← hp]; exact fsk_scramble hs2 hx2 hp2
  · rw [← hp]; exact fsk_tail hs2 hx2 hp2
  · rw [← hp]; exact fsk_scramble hs2 hx2 hp2
  all_goals rw [← hp]
  all_goals
    refine sim_slot FskSlot.phrPsdu hx2 (sim_read ?_)
    refine sim_newAssign FskSlot.encoded hs2 fun s3 hs3 hl3 ho3 hc3 hn3 => ?_
    have hp3 : s3.obj.params = s0.obj.params := by rw [ho3]; exact hp2
    have hx3 : s3.obj.PHR_PSDU_encoded = some s2.mem.next := by rw [ho3]; rfl
    refine sim_slot FskSlot.encoded hx3 ?_
  · refine sim_alias FskSlot.phrPsdu hs3 rfl hn3 hs2.next fun s4 hs4 hl4 ho4 _ => ?_
    exact fsk_tail (x := s2.mem.next) hs4 (by rw [ho4]; rfl) (by rw [ho4]; exact hp3)
  · refine sim_alias FskSlot.phrPsdu hs3 rfl hn3 hs2.next fun s4 hs4 hl4 ho4 _ => ?_
    exact fsk_scramble (x := s2.mem.next) hs4 (by rw [ho4]; rfl) (by rw [ho4]; exact hp3)
  all_goals
    refine sim_fskInterleaver hs3 fun r s4 hs4 hl4 ho4 hc4 hn4 => ?_
    refine sim_alias FskSlot.interleaved hs4 hc4 hn4 hs3.next fun s5 hs5 hl5 ho5 hm5 => ?_
    refine sim_slot FskSlot.interleaved (x := s3.mem.next) (by rw [ho5]; rfl) ?_
    refine sim_alias FskSlot.phrPsdu hs5 rfl (by rw [hm5]; exact hn4) hs3.next fun s6 hs6 hl6 ho6 hm6 => ?_
  · exact fsk_tail (x := s3.mem.next) hs6 (by rw [ho6]; rfl) (by rw [ho6]; show s5.obj.params = _; rw [ho5]; show s4.obj.params = _; rw [ho4]; exact hp3)
  · exact fsk_scramble (x := s3.mem.next) hs6 (by rw [ho6]; rfl) (by rw [ho6]; show s5.obj.params = _; rw [ho5]; show s4.obj.params = _; rw [ho4]; exact hp3)

theorem fsk_bits_sim (rn : Rat → Rat) (hs : Kept s0 s) (hp0 : s.obj.params = s0.obj.params) (a : Nat) :
    Sim s0 (fskBitsToIQH rn a) (fskBitsToIQ rn (s.mem.msg a)) s (Signal s0) := by
  unfold fskBitsToIQH fskBitsToIQ
  refine sim_bind (fsk_binary_sim hs hp0 a) fun s' x y hs' hq => ?_
  refine sim_read ?_
  rw [hq.1]
  refine sim_get ?_
  exact sim_signal hs'

theorem fsk_bytes_sim (rn : Rat → Rat) (hs : Kept s0 s) (hp0 : s.obj.params = s0.obj.params) (a : Nat) :
    Sim s0 (fskBytesToIQH rn a) (fskBytesToIQ rn (s.mem.msg a)) s (Signal s0) := by
  unfold fskBytesToIQH fskBytesToIQ
  refine sim_toBinary hs fun b s' hs' ho hm => ?_
  rw [← hm]
  exact fsk_bits_sim rn hs' (by rw [ho]; exact hp0) _

end
end SunPhy
