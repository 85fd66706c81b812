import Verif.Proofs.MemoryOqpsk
/-
The MR-OFDM modulator with memory does the same as the one with values.
-/
namespace SunPhy
open PyM Referring

noncomputable instance : Referring OfdmRefs OfdmObj where
  refs o := attrRefs [o.PHY_header, o.PHY_header_encoded, o.PHY_header_interleaved, o.payload_pad, o.payload_scrambled, o.payload_encoded, o.payload_interleaved, o.ij, o.phr_subcarriers, o.mod_phy.bind (·.subcarriers)]
  value m o := { params := o.params, ij := o.ij.map m.nats, N_PAD := o.N_PAD, PHY_header := o.PHY_header.map m.bits, PHY_header_encoded := o.PHY_header_encoded.map m.bits, PHY_header_interleaved := o.PHY_header_interleaved.map m.bits, payload_pad := o.payload_pad.map m.bits, payload_scrambled := o.payload_scrambled.map m.bits, payload_encoded := o.payload_encoded.map m.bits, payload_interleaved := o.payload_interleaved.map m.bits, mod_phy := o.mod_phy.map (·.state) }
  congr m m' o h := by
    have h' : ∀ x ∈ [o.PHY_header, o.PHY_header_encoded, o.PHY_header_interleaved, o.payload_pad, o.payload_scrambled, o.payload_encoded, o.payload_interleaved], x.map m.bits = x.map m'.bits := by
      intro x hx
      refine map_agree fun a ha => bits_agree (h a (mem_attrRefs.2 ?_))
      rw [← ha]
      simp only [List.mem_cons, List.not_mem_nil, or_false] at hx ⊢
      tauto
    have hij : o.ij.map m.nats = o.ij.map m'.nats := map_agree fun a ha => nats_agree (h a (mem_attrRefs.2 (by rw [← ha]; simp)))
    simp only [List.mem_cons, List.not_mem_nil, or_false, forall_eq_or_imp, forall_eq] at h'
    simp only [h', hij]

theorem ofdm_refs (o : OfdmRefs) (a : Nat) : a ∈ refs o ↔ o.PHY_header = some a ∨ o.PHY_header_encoded = some a ∨ o.PHY_header_interleaved = some a ∨ o.payload_pad = some a ∨ o.payload_scrambled = some a ∨ o.payload_encoded = some a ∨ o.payload_interleaved = some a ∨ o.ij = some a ∨ o.phr_subcarriers = some a ∨
    o.mod_phy.bind (·.subcarriers) = some a := by
  show a ∈ attrRefs _ ↔ _
  rw [mem_attrRefs]
  simp only [List.mem_cons, List.not_mem_nil, or_false, eq_comm]

namespace OfdmSlot
noncomputable def PHY_header : Slot OfdmRefs OfdmObj where
  set a o := { o with PHY_header := some a }
  get o := o.PHY_header
  vset b o := { o with PHY_header := some b }
  vget o := o.PHY_header
  value_set _ _ _ := rfl
  refs_set := by slotRefs ofdm_refs
  get_set _ _ := rfl
  vget_value _ _ := rfl
  vset_vset _ _ _ := rfl
noncomputable def PHY_header_encoded : Slot OfdmRefs OfdmObj where
  set a o := { o with PHY_header_encoded := some a }
  get o := o.PHY_header_encoded
  vset b o := { o with PHY_header_encoded := some b }
  vget o := o.PHY_header_encoded
  value_set _ _ _ := rfl
  refs_set := by slotRefs ofdm_refs
  get_set _ _ := rfl
  vget_value _ _ := rfl
  vset_vset _ _ _ := rfl
noncomputable def PHY_header_interleaved : Slot OfdmRefs OfdmObj where
  set a o := { o with PHY_header_interleaved := some a }
  get o := o.PHY_header_interleaved
  vset b o := { o with PHY_header_interleaved := some b }
  vget o := o.PHY_header_interleaved
  value_set _ _ _ := rfl
  refs_set := by slotRefs ofdm_refs
  get_set _ _ := rfl
  vget_value _ _ := rfl
  vset_vset _ _ _ := rfl
noncomputable def payload_pad : Slot OfdmRefs OfdmObj where
  set a o := { o with payload_pad := some a }
  get o := o.payload_pad
  vset b o := { o with payload_pad := some b }
  vget o := o.payload_pad
  value_set _ _ _ := rfl
  refs_set := by slotRefs ofdm_refs
  get_set _ _ := rfl
  vget_value _ _ := rfl
  vset_vset _ _ _ := rfl
noncomputable def payload_scrambled : Slot OfdmRefs OfdmObj where
  set a o := { o with payload_scrambled := some a }
  get o := o.payload_scrambled
  vset b o := { o with payload_scrambled := some b }
  vget o := o.payload_scrambled
  value_set _ _ _ := rfl
  refs_set := by slotRefs ofdm_refs
  get_set _ _ := rfl
  vget_value _ _ := rfl
  vset_vset _ _ _ := rfl
noncomputable def payload_encoded : Slot OfdmRefs OfdmObj where
  set a o := { o with payload_encoded := some a }
  get o := o.payload_encoded
  vset b o := { o with payload_encoded := some b }
  vget o := o.payload_encoded
  value_set _ _ _ := rfl
  refs_set := by slotRefs ofdm_refs
  get_set _ _ := rfl
  vget_value _ _ := rfl
  vset_vset _ _ _ := rfl
noncomputable def payload_interleaved : Slot OfdmRefs OfdmObj where
  set a o := { o with payload_interleaved := some a }
  get o := o.payload_interleaved
  vset b o := { o with payload_interleaved := some b }
  vget o := o.payload_interleaved
  value_set _ _ _ := rfl
  refs_set := by slotRefs ofdm_refs
  get_set _ _ := rfl
  vget_value _ _ := rfl
  vset_vset _ _ _ := rfl
end OfdmSlot

theorem lift_bind {σ α β : Type} (r : Res α) (f : α → Res β) : (PyM.lift (r >>= f) : PyM σ β) = PyM.lift r >>= fun v => PyM.lift (f v) := by
  cases r <;> rfl

theorem lift_pure {σ α : Type} (v : α) : (PyM.lift (pure v) : PyM σ α) = pure v := rfl

/-- The tables of the modules have their contents. -/
def Tables (m : Mem) : Prop := 12 ≤ m.next ∧ ∀ a < 12, m.cell a = Mem.imported.cell a

section
variable {s0 s : HS OfdmRefs}

theorem Tables.kept (ht : Tables s0.mem) (hs : Kept s0 s) : Tables s.mem :=
  ⟨ht.1.trans hs.next, fun a ha => (hs.frame a (lt_of_lt_of_le ha ht.1)).trans (ht.2 a ha)⟩

theorem table_sets {m : Mem} (ht : Tables m) {n : Nat} (h1 : 1 ≤ n) (h4 : n ≤ 4) : m.sets (pilotsAddr n) = pilotsIndices n := by
  unfold Mem.sets pilotsAddr
  rw [ht.2 _ (by omega)]
  show (match (if n - 1 < 4 then _ else _ : Cell) with | .sets b => b | _ => []) = _
  rw [if_pos (by omega)]
  show pilotsIndices (n - 1 + 1) = _
  congr 1
  omega

theorem table_stf {m : Mem} (ht : Tables m) {n : Nat} (h1 : 1 ≤ n) (h4 : n ≤ 4) : m.samples (stfAddr n) = stfTable n := by
  unfold Mem.samples stfAddr
  rw [ht.2 _ (by omega)]
  show (match (if 4 + (n - 1) < 4 then _ else if 4 + (n - 1) < 8 then _ else _ : Cell) with | .samples b => b | _ => []) = _
  rw [if_neg (by omega), if_pos (by omega)]
  show stfTable (4 + (n - 1) - 3) = _
  congr 1
  omega

theorem table_ltf {m : Mem} (ht : Tables m) {n : Nat} (h1 : 1 ≤ n) (h4 : n ≤ 4) : m.samples (ltfAddr n) = (ltfTable n).map fun (v : Int) => ((v : Int) : ℂ) := by
  unfold Mem.samples ltfAddr
  rw [ht.2 _ (by omega)]
  show (match (if 8 + (n - 1) < 4 then _ else if 8 + (n - 1) < 8 then _ else if 8 + (n - 1) < 12 then _ else _ : Cell) with | .samples b => b | _ => []) = _
  rw [if_neg (by omega), if_neg (by omega), if_pos (by omega)]
  show (ltfTable (8 + (n - 1) - 7)).map _ = _
  congr 2
  omega

theorem sim_stf {α β : Type} {p : OfdmParams} {k : Nat → HM OfdmRefs α} {k' : List ℂ → PyM OfdmObj β} {Q : HS OfdmRefs → α → β → Prop} (hs : Kept s0 s) (ht : Tables s.mem)
    (h1 : 1 ≤ p.option) (h4 : p.option ≤ 4)
    (h : ∀ y s', Kept s0 s' → Later s s' → s'.obj = s.obj → s'.mem.cell s.mem.next = .samples y → s.mem.next < s'.mem.next → Sim s0 (k s.mem.next) (k' y) s' Q) :
    Sim s0 (ofdmStfH p >>= k) (lift p.stf >>= k') s Q := by
  unfold ofdmStfH OfdmParams.stf
  simp only [bind_assoc, lift_bind, lift_pure, pure_bind]
  refine sim_read ?_
  rw [table_stf ht h1 h4]
  refine sim_lift hs fun s _ => sim_lift hs fun fourth _ => ?_
  exact sim_newArray hs fun s' => h _ s'

theorem sim_ltf {α β : Type} {p : OfdmParams} {k : Nat → HM OfdmRefs α} {k' : List ℂ → PyM OfdmObj β} {Q : HS OfdmRefs → α → β → Prop} (hs : Kept s0 s) (ht : Tables s.mem)
    (h1 : 1 ≤ p.option) (h4 : p.option ≤ 4)
    (h : ∀ y s', Kept s0 s' → Later s s' → s'.obj = s.obj → s'.mem.cell s.mem.next = .samples y → s.mem.next < s'.mem.next → Sim s0 (k s.mem.next) (k' y) s' Q) :
    Sim s0 (ofdmLtfH p >>= k) (lift p.ltf >>= k') s Q := by
  unfold ofdmLtfH OfdmParams.ltf
  simp only [bind_assoc, lift_bind, lift_pure, pure_bind]
  refine sim_read ?_
  rw [table_ltf ht h1 h4]
  refine sim_lift hs fun s _ => ?_
  exact sim_newArray hs fun s' => h _ s'

/-- Interleaver and the attribute that takes its result. -/
theorem sim_ofdmInterleaver {α β : Type} (S : Slot OfdmRefs OfdmObj) {a MCS : Nat} {k : Nat → Unit → HM OfdmRefs α} {k' : PUnit → PyM OfdmObj β} {Q : HS OfdmRefs → α → β → Prop}
    (hs : Kept s0 s)
    (h : ∀ s' x ij, Kept s0 s' → Later s s' → s'.obj = S.set x { s.obj with ij := some ij } → x < s'.mem.next → s0.mem.next ≤ x → Sim s0 (k x ()) (k' ⟨⟩) s' Q) :
    Sim s0 (ofdmInterleaverH a MCS >>= fun x => assign (S.set x) >>= k x) (ofdmInterleaverM (s.mem.bits a) MCS >>= fun v => modify (S.vset v) >>= k') s Q := by
  unfold ofdmInterleaverH ofdmInterleaverM
  simp only [bind_assoc]
  refine sim_get (sim_read ?_)
  refine sim_newArray hs fun s1 hs1 hl1 ho1 hc1 hn1 => ?_
  have hnat : s1.mem.nats s.mem.next = s.obj.params.intlIJ MCS := by unfold Mem.nats; rw [hc1]
  refine sim_assign hs1 ?_ ?_ fun hs2 => ?_
  · show value s1.mem { s1.obj with ij := some s.mem.next } = { value s1.mem s1.obj with ij := some (s.obj.params.intlIJ MCS) }
    rw [← hnat]
    rfl
  · intro b hb
    rw [ofdm_refs] at hb ⊢
    simp only [Option.some.injEq] at hb
    have := hs.next
    grind
  refine sim_newWrite hs2 fun s3 hs3 hl3 ho3 hc3 hn3 => ?_
  simp only [pure_bind]
  refine sim_alias S hs3 (bits_of hc3) hn3 hs1.next fun s4 hs4 hl4 ho4 hm4 => ?_
  refine h s4 s1.mem.next s.mem.next hs4 ?_ ?_ (by rw [hm4]; exact hn3) hs1.next
  · exact hl1.trans (Later.trans ⟨hl3.next, hl3.frame⟩ hl4)
  · rw [ho4, ho3, ho1]

theorem sim_ofdmModulator {α β : Type} {MCS n : Nat} {st : OfdmState} {i : Bits} {k : Nat × OfdmModRefs → HM OfdmRefs α} {k' : List ℂ × OfdmState → PyM OfdmObj β}
    {Q : HS OfdmRefs → α → β → Prop} (hs : Kept s0 s) (ht : Tables s.mem) (hn : s.obj.params.option = n) (h1 : 1 ≤ n) (h4 : n ≤ 4)
    (h : ∀ s' x sub st' y, Kept s0 s' → Later s s' → s'.obj = s.obj → s'.mem.cell x = .samples y → x < s'.mem.next → s0.mem.next ≤ x → x ∉ refs s.obj →
      sub < s'.mem.next → s0.mem.next ≤ sub → sub ≠ x → Sim s0 (k (x, ⟨st', pilotsAddr n, some sub⟩)) (k' (y, st')) s' Q) :
    Sim s0 (ofdmModulatorH MCS (pilotsAddr n) st i >>= k)
      (lift ((ofdmBitsToIQ (s.obj.params.ofdmCfg MCS ℂ) (kMod (mcsModulation MCS)) (1 / 4) i).call st).1 >>= fun v =>
        k' (v, ((ofdmBitsToIQ (s.obj.params.ofdmCfg MCS ℂ) (kMod (mcsModulation MCS)) (1 / 4) i).call st).2)) s Q := by
  unfold ofdmModulatorH
  simp only [bind_assoc]
  refine sim_getL (sim_read ?_)
  rw [table_sets ht h1 h4]
  have hcfg : ({ s.obj.params.ofdmCfg MCS ℂ with pilots := some { sets := pilotsIndices n, nPilots := (((pilotsIndices n)[0]?).getD []).length, values := .pn9 } } : OfdmCfg ℂ) =
      s.obj.params.ofdmCfg MCS ℂ := by rw [← hn]; rfl
  rw [hcfg]
  generalize s.obj.params.ofdmCfg MCS ℂ = c
  have hr : (ofdmBitsToIQ c (kMod (mcsModulation MCS)) (1 / 4) i).call st = ((fun cols : List (List ℂ) => cols.flatMap fun col => cyclicPrefix (1 / 4) (ofdmIfft col)) <$>
      ((ofdmSubcarriers c (complexNumbers (kMod (mcsModulation MCS))) i).call st).1, ((ofdmSubcarriers c (complexNumbers (kMod (mcsModulation MCS))) i).call st).2) := by
    unfold ofdmBitsToIQ
    rw [call_bind]
    generalize (ofdmSubcarriers c (complexNumbers (kMod (mcsModulation MCS))) i).call st = r
    obtain ⟨r, st'⟩ := r
    cases r <;> rfl
  rw [hr]
  generalize (ofdmSubcarriers c (complexNumbers (kMod (mcsModulation MCS))) i).call st = r
  obtain ⟨r, st'⟩ := r
  dsimp only
  rw [map_eq_pure_bind, lift_bind, bind_assoc]
  refine sim_lift hs fun cols _ => ?_
  simp only [lift_pure, pure_bind]
  refine sim_newArray hs fun s1 hs1 hl1 ho1 hc1 hn1 => ?_
  refine sim_newArray hs1 fun s2 hs2 hl2 ho2 hc2 hn2 => ?_
  refine h s2 s1.mem.next s.mem.next st' _ hs2 (hl1.trans hl2) (by rw [ho2, ho1]) hc2 hn2 hs1.next ?_ (lt_of_lt_of_le hn1 hl2.next) hs.next (by omega)
  intro hm
  have := (hs.refs _ hm).1
  have := hl1.next
  omega

/-- Writing into the array that the attribute names, and no other attribute. -/
theorem sim_writeSlot {α β : Type} (S : Slot OfdmRefs OfdmObj) {x : Nat} {o : OfdmRefs} {c : Bits} {k : Unit → HM OfdmRefs α} {k' : PUnit → PyM OfdmObj β} {Q : HS OfdmRefs → α → β → Prop}
    (hs : Kept s0 s) (ho : s.obj = S.set x o) (hx : x ∉ refs o) (h0 : s0.mem.next ≤ x)
    (h : ∀ s', Kept s0 s' → s'.mem.next = s.mem.next → (∀ a ≠ x, s'.mem.cell a = s.mem.cell a) → s'.obj = s.obj → s'.mem.cell x = .bits c → Sim s0 (k ()) (k' ⟨⟩) s' Q) :
    Sim s0 (writeArray x (.bits c) >>= k) (modify (S.vset c) >>= k') s Q := by
  have hc' : (s.mem.put x (.bits c)).cell x = .bits c := by rw [put_cell, if_pos rfl]
  refine sim_write_modify hs h0 ?_ fun hs'' => ?_
  · rw [ho, S.value_set, S.value_set, S.vset_vset, bits_of hc']
    congr 1
    apply Referring.congr
    intro a ha
    have hne : a ≠ x := by intro e; subst e; exact hx ha
    rw [put_cell, if_neg hne]
  · exact h _ hs'' rfl (fun a ha => by show (Mem.put _ _ _).cell a = _; rw [put_cell, if_neg ha]) rfl hc'

theorem ofdm_phr_sim {n : Nat} (hs : Kept s0 s) (ht0 : Tables s0.mem) (hp : s.obj.params = s0.obj.params) (h1 : 1 ≤ s0.obj.params.option) (h4 : s0.obj.params.option ≤ 4) :
    Sim s0 (ofdmPhrH n) (ofdmPhrM n) s fun s' x y => Later s s' ∧ s'.obj.params = s0.obj.params ∧ s'.mem.cell x.1 = .samples y.1 ∧ x.2.state = y.2 ∧ x.1 < s'.mem.next ∧
      ∀ a, x.2.subcarriers = some a → a < s'.mem.next ∧ s0.mem.next ≤ a := by
  unfold ofdmPhrH ofdmPhrM
  refine sim_get ?_
  show Sim s0 _ _ s _
  have hv : (value s.mem s.obj).params = s0.obj.params := hp
  rw [hv]
  clear hv
  dsimp only
  rw [hp]
  refine sim_lift hs fun h _ => ?_
  refine sim_newAssign OfdmSlot.PHY_header hs fun s1 hs1 hl1 ho1 hc1 hn1 => ?_
  refine sim_slot OfdmSlot.PHY_header (x := s.mem.next) (by rw [ho1]; rfl) (sim_read ?_)
  refine sim_lift hs1 fun e _ => ?_
  refine sim_newAssign OfdmSlot.PHY_header_encoded hs1 fun s2 hs2 hl2 ho2 hc2 hn2 => ?_
  refine sim_slot OfdmSlot.PHY_header_encoded (x := s1.mem.next) (by rw [ho2]; rfl) ?_
  refine sim_ofdmInterleaver OfdmSlot.PHY_header_interleaved hs2 fun s3 x3 ij hs3 hl3 ho3 hx3 hx30 => ?_
  refine sim_slot OfdmSlot.PHY_header_interleaved (x := x3) (by rw [ho3]; rfl) (sim_read ?_)
  have hp3 : s3.obj.params = s0.obj.params := by rw [ho3]; show s2.obj.params = _; rw [ho2]; show s1.obj.params = _; rw [ho1]; exact hp
  have hm := sim_ofdmModulator (s0 := s0) (s := s3) (MCS := lowestMcs s0.obj.params.option) (n := s0.obj.params.option) (st := OfdmState.init) (i := s3.mem.bits x3)
    (k := fun v => do assign fun o => { o with phr_subcarriers := v.2.subcarriers }; return (v.1, v.2)) (k' := fun v => pure v)
    (Q := fun s' x y => Later s s' ∧ s'.obj.params = s0.obj.params ∧ s'.mem.cell x.1 = .samples y.1 ∧ x.2.state = y.2 ∧ x.1 < s'.mem.next ∧
      ∀ a, x.2.subcarriers = some a → a < s'.mem.next ∧ s0.mem.next ≤ a) hs3 (ht0.kept hs3) (by rw [hp3]) h1 h4 ?_
  · rw [hp3] at hm
    exact hm
  · intro s4 x sub st' y hs4 hl4 ho4 hc4 hx4 hx40 hxr hsub hsub0 hne
    refine sim_assignL hs4 rfl ?_ fun hs5 => ?_
    · intro b hb
      rw [ofdm_refs] at hb ⊢
      simp only [Option.some.injEq] at hb
      grind
    · refine sim_pure hs5 ⟨?_, ?_, hc4, rfl, hx4, ?_⟩
      · exact hl1.trans (hl2.trans (hl3.trans (hl4.trans ⟨le_refl _, fun _ _ => rfl⟩)))
      · show s4.obj.params = _
        rw [ho4, hp3]
      · intro a ha
        have ha' : sub = a := Option.some.inj ha
        subst ha'
        exact ⟨hsub, hsub0⟩

theorem ofdm_payload_sim {b : Bits} {msg : Nat} {m : OfdmModRefs} {st : OfdmState} (hst : m.state = st) (hs : Kept s0 s) (ht0 : Tables s0.mem) (hp : s.obj.params = s0.obj.params)
    (h1 : 1 ≤ s0.obj.params.option) (h4 : s0.obj.params.option ≤ 4) (hb : s.mem.cell msg = .bits b) :
    Sim s0 (ofdmPayloadH msg m) (ofdmPayloadM b st) s fun s' x y => Later s s' ∧ s'.mem.cell x = .samples y := by
  subst hst
  unfold ofdmPayloadH ofdmPayloadM ofdmPaddingM
  simp only [bind_assoc]
  refine sim_get ?_
  show Sim s0 _ _ s _
  have hv : (value s.mem s.obj).params = s0.obj.params := hp
  rw [hv]
  clear hv
  rw [hp]
  refine sim_read ?_
  rw [bits_of hb]
  refine sim_getR ?_
  have hv : (value s.mem s.obj).params = s0.obj.params := hp
  rw [hv]
  clear hv
  refine sim_assign hs rfl (fun a ha => Or.inl ha) fun hs1 => ?_
  rw [pure_bind]
  refine sim_newAssign OfdmSlot.payload_pad hs1 fun s2 hs2 hl2 ho2 hc2 hn2 => ?_
  refine sim_slot OfdmSlot.payload_pad (x := s.mem.next) (by rw [ho2]; rfl) (sim_read ?_)
  refine sim_newAssign OfdmSlot.payload_scrambled hs2 fun s3 hs3 hl3 ho3 hc3 hn3 => ?_
  refine sim_attr (v := (s0.obj.params.padding b).2) (w := (s0.obj.params.padding b).2) (by rw [ho3, ho2]; rfl) (by rw [ho3, ho2]; rfl) ?_
  refine sim_slot OfdmSlot.payload_scrambled (x := s2.mem.next) (by rw [ho3]; rfl) (sim_read ?_)
  refine sim_writeSlot OfdmSlot.payload_scrambled hs3 ho3 (fun hm => absurd (hs2.refs _ hm).1 (lt_irrefl _)) hs2.next fun s4 hs4 hn4 hf4 ho4 hc4 => ?_
  have hl4 : Later s2 s4 := ⟨by rw [hn4]; exact hl3.next, fun a ha => by rw [hf4 a (by omega), hl3.frame a ha]⟩
  refine sim_slot OfdmSlot.payload_scrambled (x := s2.mem.next) (by rw [ho4, ho3]; rfl) (sim_read ?_)
  refine sim_lift hs4 fun e _ => ?_
  refine sim_newAssign OfdmSlot.payload_encoded hs4 fun s5 hs5 hl5 ho5 hc5 hn5 => ?_
  refine sim_slot OfdmSlot.payload_encoded (x := s4.mem.next) (by rw [ho5]; rfl) ?_
  refine sim_ofdmInterleaver OfdmSlot.payload_interleaved hs5 fun s6 x6 ij hs6 hl6 ho6 hx6 hx60 => ?_
  refine sim_slot OfdmSlot.payload_interleaved (x := x6) (by rw [ho6]; rfl) (sim_read ?_)
  have hp6 : s6.obj.params = s0.obj.params := by
    rw [ho6]; show s5.obj.params = _
    rw [ho5]; show s4.obj.params = _
    rw [ho4, ho3]; show s2.obj.params = _
    rw [ho2]; exact hp
  have hm := sim_ofdmModulator (s0 := s0) (s := s6) (MCS := s0.obj.params.mcs) (n := s0.obj.params.option)
    (st := OfdmState.init m.state.getPilotSetIndex m.state.getPn9Value) (i := s6.mem.bits x6)
    (k := fun v => pure v.1) (k' := fun v => pure v.1)
    (Q := fun s' x y => Later s s' ∧ s'.mem.cell x = .samples y) hs6 (ht0.kept hs6) (by rw [hp6]) h1 h4 ?_
  · rw [hp6] at hm
    rw [bind_pure] at hm
    exact hm
  · intro s7 x sub st' y hs7 hl7 ho7 hc7 hx7 hx70 hxr hsub hsub0 hne
    refine sim_pure hs7 ⟨?_, hc7⟩
    have hl2' : Later s s2 := ⟨hl2.next, hl2.frame⟩
    exact hl2'.trans (hl4.trans (hl5.trans (hl6.trans hl7)))

theorem ofdm_bits_sim (hs : Kept s0 s) (ht0 : Tables s0.mem) (hp : s.obj.params = s0.obj.params) (h1 : 1 ≤ s0.obj.params.option) (h4 : s0.obj.params.option ≤ 4) (a : Nat) :
    Sim s0 (ofdmBitsToIQH a) (ofdmModBitsToIQ (s.mem.msg a)) s (Signal s0) := by
  unfold ofdmBitsToIQH ofdmModBitsToIQ
  refine sim_check hs fun b s1 hs1 hl1 ho1 hc1 hn1 => ?_
  have hp1 : s1.obj.params = s0.obj.params := by rw [ho1]; exact hp
  refine sim_get ?_
  show Sim s0 _ _ s1 _
  have hv : (value s1.mem s1.obj).params = s0.obj.params := hp1
  rw [hv]
  clear hv
  dsimp only
  rw [hp1]
  refine sim_stf hs1 (ht0.kept hs1) h1 h4 fun stf s2 hs2 hl2 ho2 hc2 hn2 => ?_
  refine sim_ltf hs2 (ht0.kept hs2) h1 h4 fun ltf s3 hs3 hl3 ho3 hc3 hn3 => ?_
  refine sim_read ?_
  rw [bits_of (((hl2.trans hl3).frame _ hn1).trans hc1)]
  refine sim_bind (ofdm_phr_sim hs3 ht0 (by rw [ho3, ho2]; exact hp1) h1 h4) fun s4 x y hs4 hq => ?_
  obtain ⟨hl4, hp4, hc4, hst4, hx4, hsub4⟩ := hq
  obtain ⟨x1, x2⟩ := x
  obtain ⟨y1, y2⟩ := y
  dsimp only at hc4 hst4 hx4 hsub4 ⊢
  refine sim_assign hs4 ?_ ?_ fun hs5 => ?_
  · show value s4.mem { s4.obj with mod_phy := some x2 } = { value s4.mem s4.obj with mod_phy := some y2 }
    rw [← hst4]
    rfl
  · intro c hc
    rw [ofdm_refs] at hc ⊢
    simp only [Option.bind_some] at hc
    have := hsub4 c
    grind
  have hl14 : Later s1 s4 := hl2.trans (hl3.trans hl4)
  refine sim_attr (v := x2) (w := y2) rfl (by show some x2.state = some y2; rw [hst4]) ?_
  refine sim_bind (ofdm_payload_sim hst4 hs5 ht0 hp4 h1 h4 ((hl14.frame _ hn1).trans hc1)) fun s6 z w hs6 hq => ?_
  obtain ⟨hl6, hc6⟩ := hq
  have hl46 : Later s4 s6 := ⟨hl6.next, hl6.frame⟩
  refine sim_read (sim_read (sim_read (sim_read ?_)))
  rw [samples_of (((hl3.trans (hl4.trans hl46)).frame _ hn2).trans hc2), samples_of (((hl4.trans hl46).frame _ hn3).trans hc3), samples_of ((hl46.frame _ hx4).trans hc4),
    samples_of hc6]
  refine sim_newArray hs6 fun s7 hs7 hl7 ho7 hc7 hn7 => ?_
  refine sim_pure hs7 ⟨hc7, rfl, hs6.next, hn7, fun hm => ?_⟩
  rw [ho7] at hm
  exact absurd (hs6.refs _ hm).1 (lt_irrefl _)

theorem ofdm_bytes_sim (hs : Kept s0 s) (ht0 : Tables s0.mem) (hp : s.obj.params = s0.obj.params) (h1 : 1 ≤ s0.obj.params.option) (h4 : s0.obj.params.option ≤ 4) (a : Nat) :
    Sim s0 (ofdmBytesToIQH a) (ofdmModBytesToIQ (s.mem.msg a)) s (Signal s0) := by
  unfold ofdmBytesToIQH ofdmModBytesToIQ
  refine sim_toBinary hs fun b s' hs' ho hm => ?_
  rw [← hm]
  exact ofdm_bits_sim hs' ht0 (by rw [ho]; exact hp) h1 h4 _

end
end SunPhy
