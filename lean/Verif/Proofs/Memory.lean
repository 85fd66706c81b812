import Verif.Model.Memory
import Verif.Proofs.PyMLemmas
/-
A relational logic for the programs with memory (`Model/Memory.lean`) and the programs with values.
-/
namespace SunPhy
open PyM

/-- Objects whose attributes are references, and the object with the contents instead. -/
class Referring (σ : Type) (τ : outParam Type) where
  refs : σ → List Nat
  value : Mem → σ → τ
  congr : ∀ m m' o, (∀ a ∈ refs o, m.cell a = m'.cell a) → value m o = value m' o

section
variable {σ τ : Type} [R : Referring σ τ] {α β γ δ : Type}
open Referring

theorem call_newArray (c : Cell) (s : HS σ) : (newArray c : HM σ Addr).call s = (.ok s.mem.next, ⟨s.mem.push c, s.obj⟩) := rfl
theorem call_writeArray (a : Addr) (c : Cell) (s : HS σ) : (writeArray a c : HM σ Unit).call s = (.ok (), ⟨s.mem.put a c, s.obj⟩) := rfl
theorem call_readArray (f : Mem → α) (s : HS σ) : (readArray f : HM σ α).call s = (.ok (f s.mem), s) := rfl
theorem call_refAttr (f : σ → Option α) (s : HS σ) : (refAttr f : HM σ α).call s =
    (match f s.obj with | some v => .ok v | none => .error .AttributeError, s) := call_attr _ _
theorem call_assign (f : σ → σ) (s : HS σ) : (assign f : HM σ Unit).call s = (.ok (), ⟨s.mem, f s.obj⟩) := rfl

/-- What a method body keeps: nothing that existed at the start has changed; every attribute is an existing array, and one that was not referenced at the start is new. -/
structure Kept (s0 s : HS σ) : Prop where
  next : s0.mem.next ≤ s.mem.next
  frame : ∀ a < s0.mem.next, s.mem.cell a = s0.mem.cell a
  refs : ∀ a ∈ refs s.obj, a < s.mem.next ∧ (a ∈ refs s0.obj ∨ s0.mem.next ≤ a)

/-- The body with memory does the same as the body with values. -/
def Sim (s0 : HS σ) (h : HM σ α) (p : PyM τ β) (s : HS σ) (Q : HS σ → α → β → Prop) : Prop :=
  Kept s0 (h.call s).2 ∧ (p.call (value s.mem s.obj)).2 = value (h.call s).2.mem (h.call s).2.obj ∧
    match (h.call s).1, (p.call (value s.mem s.obj)).1 with
    | .ok x, .ok y => Q (h.call s).2 x y
    | .error e, .error e' => e = e'
    | _, _ => False

variable {s0 s : HS σ}

theorem sim_lift {r : Res γ} {k : γ → HM σ α} {k' : γ → PyM τ β} {Q : HS σ → α → β → Prop} (hs : Kept s0 s) (h : ∀ v, r = .ok v → Sim s0 (k v) (k' v) s Q) :
    Sim s0 (lift r >>= k) (lift r >>= k') s Q := by
  unfold Sim
  rw [call_bind, call_bind, call_lift, call_lift]
  cases hr : r with
  | ok v => rw [seqR_ok, seqR_ok]; exact h v hr
  | error e => rw [seqR_error, seqR_error]; exact ⟨hs, rfl, rfl⟩

theorem sim_read {f : Mem → γ} {k : γ → HM σ α} {p : PyM τ β} {Q : HS σ → α → β → Prop} (h : Sim s0 (k (f s.mem)) p s Q) : Sim s0 (readArray f >>= k) p s Q := by
  unfold Sim
  rw [call_bind, call_readArray, seqR_ok]
  exact h

theorem sim_get {k : HS σ → HM σ α} {k' : τ → PyM τ β} {Q : HS σ → α → β → Prop} (h : Sim s0 (k s) (k' (value s.mem s.obj)) s Q) :
    Sim s0 (get >>= k) (get >>= k') s Q := by
  unfold Sim
  rw [call_bind, call_bind, call_get, seqR_ok, call_get, seqR_ok]
  exact h

theorem sim_getL {k : HS σ → HM σ α} {p : PyM τ β} {Q : HS σ → α → β → Prop} (h : Sim s0 (k s) p s Q) : Sim s0 (get >>= k) p s Q := by
  unfold Sim
  rw [call_bind, call_get, seqR_ok]
  exact h

theorem sim_getR {h : HM σ α} {k' : τ → PyM τ β} {Q : HS σ → α → β → Prop} (hh : Sim s0 h (k' (value s.mem s.obj)) s Q) : Sim s0 h (get >>= k') s Q := by
  unfold Sim
  rw [call_bind, call_get, seqR_ok]
  exact hh

theorem kept_push (hs : Kept s0 s) (c : Cell) : Kept s0 ⟨s.mem.push c, s.obj⟩ := by
  refine ⟨Nat.le_succ_of_le hs.next, fun a ha => ?_, fun a ha => ?_⟩
  · have := hs.next
    show (if a = s.mem.next then c else s.mem.cell a) = _
    rw [if_neg (by omega), hs.frame a ha]
  · have := hs.refs a ha
    exact ⟨Nat.lt_succ_of_lt this.1, this.2⟩

theorem value_push (hs : Kept s0 s) (c : Cell) : value (s.mem.push c) s.obj = value s.mem s.obj := by
  apply R.congr
  intro a ha
  have := (hs.refs a ha).1
  exact if_neg (by omega)

theorem sim_new {c : Cell} {k : Nat → HM σ α} {p : PyM τ β} {Q : HS σ → α → β → Prop} (hs : Kept s0 s)
    (h : Kept s0 ⟨s.mem.push c, s.obj⟩ → Sim s0 (k s.mem.next) p ⟨s.mem.push c, s.obj⟩ Q) : Sim s0 (newArray c >>= k) p s Q := by
  have := h (kept_push hs c)
  unfold Sim at this ⊢
  simp only [value_push hs] at this
  rw [call_bind, call_newArray, seqR_ok]
  exact this

/-- Writing into a new array that no attribute names. -/
theorem sim_write {a : Nat} {c : Cell} {k : Unit → HM σ α} {p : PyM τ β} {Q : HS σ → α → β → Prop} (hs : Kept s0 s) (ha : s0.mem.next ≤ a) (hr : a ∉ refs s.obj)
    (h : Kept s0 ⟨s.mem.put a c, s.obj⟩ → Sim s0 (k ()) p ⟨s.mem.put a c, s.obj⟩ Q) : Sim s0 (writeArray a c >>= k) p s Q := by
  have hv : value (s.mem.put a c) s.obj = value s.mem s.obj := by
    apply R.congr
    intro b hb
    have hne : b ≠ a := by intro e; subst e; exact hr hb
    exact if_neg hne
  have := h ⟨hs.next, fun b hb => by
    show (if b = a then c else s.mem.cell b) = _
    rw [if_neg (by omega), hs.frame b hb], hs.refs⟩
  unfold Sim at this ⊢
  simp only [hv] at this
  rw [call_bind, call_writeArray, seqR_ok]
  exact this

/-- Writing into a new array named by an attribute. -/
theorem sim_write_modify {a : Nat} {c : Cell} {g : τ → τ} {k : Unit → HM σ α} {k' : PUnit → PyM τ β} {Q : HS σ → α → β → Prop} (hs : Kept s0 s) (ha : s0.mem.next ≤ a)
    (hv : value (s.mem.put a c) s.obj = g (value s.mem s.obj)) (h : Kept s0 ⟨s.mem.put a c, s.obj⟩ → Sim s0 (k ()) (k' ⟨⟩) ⟨s.mem.put a c, s.obj⟩ Q) :
    Sim s0 (writeArray a c >>= k) (modify g >>= k') s Q := by
  have := h ⟨hs.next, fun b hb => by
    show (if b = a then c else s.mem.cell b) = _
    rw [if_neg (by omega), hs.frame b hb], hs.refs⟩
  unfold Sim at this ⊢
  simp only [hv] at this
  rw [call_bind, call_writeArray, seqR_ok, call_bind, call_modify, seqR_ok]
  exact this

theorem sim_assign {f : σ → σ} {g : τ → τ} {k : Unit → HM σ α} {k' : PUnit → PyM τ β} {Q : HS σ → α → β → Prop} (hs : Kept s0 s)
    (hv : value s.mem (f s.obj) = g (value s.mem s.obj)) (hr : ∀ a ∈ refs (f s.obj), a ∈ refs s.obj ∨ a < s.mem.next ∧ s0.mem.next ≤ a)
    (h : Kept s0 ⟨s.mem, f s.obj⟩ → Sim s0 (k ()) (k' ⟨⟩) ⟨s.mem, f s.obj⟩ Q) :
    Sim s0 (assign f >>= k) (modify g >>= k') s Q := by
  have := h ⟨hs.next, hs.frame, fun a ha => by
    rcases hr a ha with h | h
    · exact hs.refs a h
    · exact ⟨h.1, Or.inr h.2⟩⟩
  unfold Sim at this ⊢
  simp only [hv] at this
  rw [call_bind, call_assign, seqR_ok, call_bind, call_modify, seqR_ok]
  exact this

/-- An attribute that the values do not have. -/
theorem sim_assignL {f : σ → σ} {k : Unit → HM σ α} {p : PyM τ β} {Q : HS σ → α → β → Prop} (hs : Kept s0 s)
    (hv : value s.mem (f s.obj) = value s.mem s.obj) (hr : ∀ a ∈ refs (f s.obj), a ∈ refs s.obj ∨ a < s.mem.next ∧ s0.mem.next ≤ a)
    (h : Kept s0 ⟨s.mem, f s.obj⟩ → Sim s0 (k ()) p ⟨s.mem, f s.obj⟩ Q) :
    Sim s0 (assign f >>= k) p s Q := by
  have := h ⟨hs.next, hs.frame, fun a ha => by
    rcases hr a ha with h | h
    · exact hs.refs a h
    · exact ⟨h.1, Or.inr h.2⟩⟩
  unfold Sim at this ⊢
  simp only [hv] at this
  rw [call_bind, call_assign, seqR_ok]
  exact this

theorem sim_attr {f : σ → Option γ} {f' : τ → Option δ} {k : γ → HM σ α} {k' : δ → PyM τ β} {Q : HS σ → α → β → Prop} {v : γ} {w : δ}
    (hv : f s.obj = some v) (hw : f' (value s.mem s.obj) = some w) (h : Sim s0 (k v) (k' w) s Q) :
    Sim s0 (refAttr f >>= k) (attr f' >>= k') s Q := by
  unfold Sim at h ⊢
  rw [call_bind, call_refAttr, hv, seqR_ok, call_bind, call_attr, hw, seqR_ok]
  exact h

theorem sim_attrL {f : σ → Option γ} {k : γ → HM σ α} {p : PyM τ β} {Q : HS σ → α → β → Prop} {v : γ} (hv : f s.obj = some v) (h : Sim s0 (k v) p s Q) :
    Sim s0 (refAttr f >>= k) p s Q := by
  unfold Sim at h ⊢
  rw [call_bind, call_refAttr, hv, seqR_ok]
  exact h

theorem sim_attrR {f' : τ → Option δ} {h : HM σ α} {k' : δ → PyM τ β} {Q : HS σ → α → β → Prop} {w : δ}
    (hw : f' (value s.mem s.obj) = some w) (hh : Sim s0 h (k' w) s Q) : Sim s0 h (attr f' >>= k') s Q := by
  unfold Sim at hh ⊢
  rw [call_bind, call_attr, hw, seqR_ok]
  exact hh

theorem sim_attr_end {f : σ → Option γ} {f' : τ → Option δ} {Q : HS σ → γ → δ → Prop} {v : γ} {w : δ} (hs : Kept s0 s)
    (hv : f s.obj = some v) (hw : f' (value s.mem s.obj) = some w) (h : Q s v w) : Sim s0 (refAttr f) (attr f') s Q := by
  unfold Sim
  rw [call_refAttr, hv, call_attr, hw]
  exact ⟨hs, rfl, h⟩

theorem sim_pure {x : α} {y : β} {Q : HS σ → α → β → Prop} (hs : Kept s0 s) (h : Q s x y) : Sim s0 (pure x) (pure y) s Q := ⟨hs, rfl, h⟩

theorem sim_bind {h : HM σ γ} {p : PyM τ δ} {k : γ → HM σ α} {k' : δ → PyM τ β} {P : HS σ → γ → δ → Prop} {Q : HS σ → α → β → Prop}
    (h1 : Sim s0 h p s P) (h2 : ∀ s' x y, Kept s0 s' → P s' x y → Sim s0 (k x) (k' y) s' Q) : Sim s0 (h >>= k) (p >>= k') s Q := by
  obtain ⟨hk, hv, hm⟩ := h1
  unfold Sim
  rw [call_bind, call_bind]
  generalize h.call s = r at *
  generalize p.call (value s.mem s.obj) = q at *
  obtain ⟨r1, r2⟩ := r
  obtain ⟨q1, q2⟩ := q
  simp only at hk hv hm
  subst hv
  cases r1 with
  | ok x =>
    cases q1 with
    | ok y => rw [seqR_ok, seqR_ok]; exact h2 r2 x y hk hm
    | error e => exact hm.elim
  | error e =>
    cases q1 with
    | ok y => exact hm.elim
    | error e' => rw [seqR_error, seqR_error]; exact ⟨hk, rfl, hm⟩


theorem push_next (m : Mem) (c : Cell) : (m.push c).next = m.next + 1 := rfl
theorem put_next (m : Mem) (a : Nat) (c : Cell) : (m.put a c).next = m.next := rfl
theorem push_cell (m : Mem) (c : Cell) (a : Nat) : (m.push c).cell a = if a = m.next then c else m.cell a := rfl
theorem put_cell (m : Mem) (c : Cell) (a' a : Nat) : (m.put a' c).cell a = if a = a' then c else m.cell a := rfl
theorem bits_agree {m m' : Mem} {a : Nat} (h : m.cell a = m'.cell a) : m.bits a = m'.bits a := by unfold Mem.bits; rw [h]
theorem nats_agree {m m' : Mem} {a : Nat} (h : m.cell a = m'.cell a) : m.nats a = m'.nats a := by unfold Mem.nats; rw [h]
theorem samples_agree {m m' : Mem} {a : Nat} (h : m.cell a = m'.cell a) : m.samples a = m'.samples a := by unfold Mem.samples; rw [h]
theorem bits_of {m : Mem} {a : Nat} {b : Bits} (h : m.cell a = .bits b) : m.bits a = b := by unfold Mem.bits; rw [h]
theorem samples_of {m : Mem} {a : Nat} {b : List ℂ} (h : m.cell a = .samples b) : m.samples a = b := by unfold Mem.samples; rw [h]

/-- Addresses of a list of attributes. -/
def attrRefs (l : List (Option Nat)) : List Nat := l.filterMap id

theorem mem_attrRefs {l : List (Option Nat)} {a : Nat} : a ∈ attrRefs l ↔ some a ∈ l := by
  simp [attrRefs]

theorem map_agree {γ : Type} {f g : Nat → γ} {x : Option Nat} (h : ∀ a, x = some a → f a = g a) : x.map f = x.map g := by
  cases x with
  | none => rfl
  | some a => exact congrArg some (h a rfl)

/-- An attribute that names an array of bits. -/
structure Slot (σ τ : Type) [Referring σ τ] where
  set : Nat → σ → σ
  get : σ → Option Nat
  vset : Bits → τ → τ
  vget : τ → Option Bits
  value_set : ∀ m a o, value m (set a o) = vset (m.bits a) (value m o)
  refs_set : ∀ a o b, b ∈ refs (set a o) → b = a ∨ b ∈ refs o
  get_set : ∀ a o, get (set a o) = some a
  vget_value : ∀ m o, vget (value m o) = (get o).map m.bits
  vset_vset : ∀ b c v, vset c (vset b v) = vset c v

theorem Kept.lt {s0 s : HS σ} (hs : Kept s0 s) {a : Nat} (h : a ∈ Referring.refs s.obj) : a < s.mem.next := (hs.refs a h).1

/-- Later state: arrays are kept. -/
structure Later (s s' : HS σ) : Prop where
  next : s.mem.next ≤ s'.mem.next
  frame : ∀ a < s.mem.next, s'.mem.cell a = s.mem.cell a

theorem Later.refl (s : HS σ) : Later s s := ⟨le_refl _, fun _ _ => rfl⟩
theorem Later.trans {s s' s'' : HS σ} (h : Later s s') (h' : Later s' s'') : Later s s'' :=
  ⟨h.next.trans h'.next, fun a ha => (h'.frame a (lt_of_lt_of_le ha h.next)).trans (h.frame a ha)⟩

/-- `self._a = <new array>`. -/
theorem sim_newAssign (S : Slot σ τ) {b : Bits} {k : Nat → Unit → HM σ α} {k' : PUnit → PyM τ β} {Q : HS σ → α → β → Prop} (hs : Kept s0 s)
    (h : ∀ s', Kept s0 s' → Later s s' → s'.obj = S.set s.mem.next s.obj → s'.mem.cell s.mem.next = .bits b → s.mem.next < s'.mem.next →
      Sim s0 (k s.mem.next ()) (k' ⟨⟩) s' Q) :
    Sim s0 (newArray (.bits b) >>= fun x => assign (S.set x) >>= k x) (modify (S.vset b) >>= k') s Q := by
  refine sim_new hs fun hs' => ?_
  have hc : (s.mem.push (.bits b)).cell s.mem.next = .bits b := by rw [push_cell, if_pos rfl]
  refine sim_assign hs' ?_ ?_ fun hs'' => ?_
  · show value (s.mem.push (.bits b)) (S.set s.mem.next s.obj) = S.vset b (value (s.mem.push (.bits b)) s.obj)
    rw [S.value_set, bits_of hc]
  · intro a ha
    rcases S.refs_set _ _ _ ha with rfl | h'
    · exact Or.inr ⟨Nat.lt_succ_self _, hs.next⟩
    · exact Or.inl h'
  · refine h _ hs'' ⟨Nat.le_succ _, fun a ha => ?_⟩ rfl hc (Nat.lt_succ_self _)
    show (s.mem.push (.bits b)).cell a = _
    rw [push_cell, if_neg (by omega)]

/-- `self._a = x` for an array that is already there and new in this call. -/
theorem sim_alias (S : Slot σ τ) {x : Nat} {b : Bits} {k : Unit → HM σ α} {k' : PUnit → PyM τ β} {Q : HS σ → α → β → Prop} (hs : Kept s0 s)
    (hx : s.mem.bits x = b) (hl : x < s.mem.next) (hn : s0.mem.next ≤ x)
    (h : ∀ s', Kept s0 s' → Later s s' → s'.obj = S.set x s.obj → s'.mem = s.mem → Sim s0 (k ()) (k' ⟨⟩) s' Q) :
    Sim s0 (assign (S.set x) >>= k) (modify (S.vset b) >>= k') s Q := by
  subst hx
  refine sim_assign hs (S.value_set _ _ _) ?_ fun hs' => h _ hs' ⟨le_refl _, fun _ _ => rfl⟩ rfl rfl
  intro a ha
  rcases S.refs_set _ _ _ ha with rfl | h'
  · exact Or.inr ⟨hl, hn⟩
  · exact Or.inl h'

/-- Read an attribute. -/
theorem sim_slot (S : Slot σ τ) {k : Nat → HM σ α} {k' : Bits → PyM τ β} {Q : HS σ → α → β → Prop} {x : Nat} (hx : S.get s.obj = some x)
    (h : Sim s0 (k x) (k' (s.mem.bits x)) s Q) : Sim s0 (refAttr S.get >>= k) (attr S.vget >>= k') s Q :=
  sim_attr hx (by rw [S.vget_value, hx]; rfl) h

theorem sim_slot_end (S : Slot σ τ) {Q : HS σ → Nat → Bits → Prop} {x : Nat} (hs : Kept s0 s) (hx : S.get s.obj = some x)
    (h : Q s x (s.mem.bits x)) : Sim s0 (refAttr S.get) (attr S.vget) s Q :=
  sim_attr_end hs hx (by rw [S.vget_value, hx]; rfl) h

/-- `self._a = <new array>; self._a[…] = …`. -/
theorem sim_newAssignWrite (S : Slot σ τ) {b : Bits} {F : Bits → Bits} {k : Unit → HM σ α} {k' : PUnit → PyM τ β} {Q : HS σ → α → β → Prop} (hs : Kept s0 s)
    (h : ∀ s', Kept s0 s' → Later s s' → s'.obj = S.set s.mem.next s.obj → s'.mem.cell s.mem.next = .bits (F b) → s.mem.next < s'.mem.next →
      Sim s0 (k ()) (k' ⟨⟩) s' Q) :
    Sim s0 (newArray (.bits b) >>= fun x => assign (S.set x) >>= fun _ => refAttr S.get >>= fun x => readArray (·.bits x) >>= fun v => writeArray x (.bits (F v)) >>= k)
      (modify (S.vset b) >>= fun _ => attr S.vget >>= fun v => modify (S.vset (F v)) >>= k') s Q := by
  refine sim_newAssign S hs fun s' hs' hl ho hc hn => ?_
  refine sim_slot S (x := s.mem.next) (by rw [ho, S.get_set]) ?_
  refine sim_read ?_
  have hc' : (s'.mem.put s.mem.next (.bits (F b))).cell s.mem.next = .bits (F b) := by rw [put_cell, if_pos rfl]
  rw [bits_of hc]
  refine sim_write_modify hs' hs.next ?_ fun hs'' => ?_
  · rw [ho, S.value_set, S.value_set, S.vset_vset, bits_of hc']
    congr 1
    apply R.congr
    intro a ha
    have hne : a ≠ s.mem.next := by intro e; subst e; exact absurd (hs.refs _ ha).1 (lt_irrefl _)
    rw [put_cell, if_neg hne]
  · refine h _ hs'' ⟨hl.next, fun a ha => ?_⟩ ho hc' hn
    show (s'.mem.put s.mem.next (.bits (F b))).cell a = _
    rw [put_cell, if_neg (by omega), hl.frame a ha]

/-- `x = np.zeros(…); x[…] = …`. -/
theorem sim_newWrite {c d : Cell} {k : Nat → Unit → HM σ α} {p : PyM τ β} {Q : HS σ → α → β → Prop} (hs : Kept s0 s)
    (h : ∀ s', Kept s0 s' → Later s s' → s'.obj = s.obj → s'.mem.cell s.mem.next = d → s.mem.next < s'.mem.next → Sim s0 (k s.mem.next ()) p s' Q) :
    Sim s0 (newArray c >>= fun x => writeArray x d >>= k x) p s Q := by
  refine sim_new hs fun hs' => ?_
  refine sim_write hs' hs.next (fun hm => absurd (hs.refs _ hm).1 (lt_irrefl _)) fun hs'' => ?_
  refine h _ hs'' ⟨Nat.le_succ _, fun a ha => ?_⟩ rfl (by show (Mem.put _ _ _).cell _ = _; rw [put_cell, if_pos rfl]) (Nat.lt_succ_self _)
  show ((s.mem.push c).put s.mem.next d).cell a = _
  rw [put_cell, if_neg (by omega), push_cell, if_neg (by omega)]

/-- A new array. -/
theorem sim_newArray {c : Cell} {k : Nat → HM σ α} {p : PyM τ β} {Q : HS σ → α → β → Prop} (hs : Kept s0 s)
    (h : ∀ s', Kept s0 s' → Later s s' → s'.obj = s.obj → s'.mem.cell s.mem.next = c → s.mem.next < s'.mem.next → Sim s0 (k s.mem.next) p s' Q) :
    Sim s0 (newArray c >>= k) p s Q := by
  refine sim_new hs fun hs' => h _ hs' ⟨Nat.le_succ _, fun a ha => ?_⟩ rfl (by show (Mem.push _ _).cell _ = _; rw [push_cell, if_pos rfl]) (Nat.lt_succ_self _)
  show (s.mem.push c).cell a = _
  rw [push_cell, if_neg (by omega)]

theorem sim_check {a : Nat} {k : Nat → HM σ α} {k' : Bits → PyM τ β} {Q : HS σ → α → β → Prop} (hs : Kept s0 s)
    (h : ∀ b s', Kept s0 s' → Later s s' → s'.obj = s.obj → s'.mem.cell s.mem.next = .bits b → s.mem.next < s'.mem.next → Sim s0 (k s.mem.next) (k' b) s' Q) :
    Sim s0 (checkBinaryArrayH a >>= k) (lift (checkBinaryArray (s.mem.msg a)) >>= k') s Q := by
  unfold checkBinaryArrayH
  simp only [bind_assoc]
  exact sim_read (sim_lift hs fun v hv => sim_newArray hs fun s' => h v s')

theorem Kept.start (h0 : ∀ a ∈ Referring.refs s0.obj, a < s0.mem.next) : Kept s0 s0 := ⟨le_refl _, fun _ _ => rfl, fun a ha => ⟨h0 a ha, Or.inl ha⟩⟩

end

section
open Referring
/-- What a caller sees of a returned signal: the same samples and frequency, in a new array that no attribute names. -/
def Signal {σ τ : Type} [Referring σ τ] (s0 : HS σ) (s : HS σ) (x : Nat × ℚ) (y : List ℂ × ℚ) : Prop :=
  s.mem.cell x.1 = .samples y.1 ∧ x.2 = y.2 ∧ s0.mem.next ≤ x.1 ∧ x.1 < s.mem.next ∧ x.1 ∉ refs s.obj

theorem sim_signal {σ τ : Type} [Referring σ τ] {s0 s : HS σ} {r : Res (List ℂ × ℚ)} (hs : Kept s0 s) :
    Sim s0 (do
      let (iq, fs) ← PyM.lift r
      let out ← newArray (.samples iq)
      return (out, fs)) (PyM.lift r) s (Signal s0) := by
  rw [show (PyM.lift r : PyM τ (List ℂ × ℚ)) = PyM.lift r >>= pure from (bind_pure _).symm]
  refine sim_lift hs fun v _ => ?_
  obtain ⟨iq, fs⟩ := v
  refine sim_newArray hs fun s' hs' hl ho hc hn => ?_
  refine sim_pure hs' ⟨hc, rfl, hs.next, hn, fun hm => ?_⟩
  rw [ho] at hm
  exact absurd (hs.refs _ hm).1 (lt_irrefl _)

theorem sim_toBinary {σ τ : Type} [Referring σ τ] {α β : Type} {s0 s : HS σ} {a : Nat} {k : Nat → HM σ α} {k' : Bits → PyM τ β} {Q : HS σ → α → β → Prop} (hs : Kept s0 s)
    (h : ∀ b s', Kept s0 s' → s'.obj = s.obj → s'.mem.msg s.mem.next = bitsArg b → Sim s0 (k s.mem.next) (k' b) s' Q) :
    Sim s0 (toBinaryArrayH a >>= k) (lift (toBinaryArray (s.mem.msg a)) >>= k') s Q := by
  unfold toBinaryArrayH
  simp only [bind_assoc]
  refine sim_read (sim_lift hs fun v hv => sim_newArray hs fun s' hs' hl ho hc hn => h v s' hs' ho ?_)
  unfold Mem.msg
  rw [hc]

end
end SunPhy
