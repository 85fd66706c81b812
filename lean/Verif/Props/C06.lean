import Verif.Props.C05
/-
C06 — PN9 bookkeeping: chunked reads, reset and current value, over every sequence of calls on one generator.
-/
namespace SunPhy.C06
open SunPhy

/-- The calls a client can make on a `Pn9` object. -/
inductive Op
  | next
  | nextN (n : Nat)
  | reset (seed : Option Nat)   -- `reset()` is `reset none`
  | getCurrentValue

/-- Effect and returned bits of one call on the modelled object (`get_current_value` returns a register, see below). -/
def exec (p : Pn9) : Op → List Nat × Pn9
  | .next => let (b, q) := p.next; ([b], q)
  | .nextN n => p.nextN n
  | .reset s => ([], p.reset s)
  | .getCurrentValue => ([], p)

/-- A history of calls: all bits returned, in order, and the object afterwards. -/
def run (p : Pn9) : List Op → List Nat × Pn9
  | [] => ([], p)
  | o :: os => let (b, q) := exec p o; let (bs, r) := run q os; (b ++ bs, r)

/-- Specification: a tape `start` (the sequence of a fresh `Pn9(start)`) and a position on it.  Reads advance the
position; `reset(s)` mounts tape `s`, `reset()` mounts the tape of the construction seed. -/
structure Tape where
  start : Nat
  pos : Nat

def Tape.step (origin : Nat) (t : Tape) : Op → Tape
  | .next => { t with pos := t.pos + 1 }
  | .nextN n => { t with pos := t.pos + n }
  | .reset none => ⟨origin, 0⟩
  | .reset (some s) => ⟨s, 0⟩
  | .getCurrentValue => t

/-- Number of bits an operation returns. -/
def Op.reads : Op → Nat
  | .next => 1
  | .nextN n => n
  | _ => 0

/-- Bits the specification returns: the tape entries under the head. -/
def Tape.read (t : Tape) (n : Nat) : List (Option Nat) := (List.range n).map fun k => C05.output t.start (t.pos + k)

def Tape.run (origin : Nat) (t : Tape) : List Op → List (Option Nat) × Tape
  | [] => ([], t)
  | o :: os =>
    let (bs, r) := Tape.run origin (t.step origin o) os
    (t.read o.reads ++ bs, r)

/-- The object is at this position of this tape. -/
def At (origin : Nat) (p : Pn9) (t : Tape) : Prop := p.seed = origin ∧ p.value = pn9Step^[t.pos] t.start

theorem nextN_read {origin : Nat} {p : Pn9} {t : Tape} (h : At origin p t) (n : Nat) :
    (p.nextN n).1.map some = t.read n := by
  rw [Pn9.nextN_fst, List.map_map]
  unfold Tape.read
  apply List.map_congr_left
  intro k _
  simp only [Function.comp]
  rw [C05.output_eq, h.2, ← Function.iterate_add_apply]
  congr 3; omega

theorem next_eq_nextN (p : Pn9) : exec p .next = p.nextN 1 := rfl

theorem exec_step {origin : Nat} {p : Pn9} {t : Tape} (h : At origin p t) (o : Op) :
    (exec p o).1.map some = t.read o.reads ∧ At origin (exec p o).2 (t.step origin o) := by
  cases o with
  | next =>
    rw [next_eq_nextN]
    refine ⟨nextN_read h 1, ?_⟩
    rw [Pn9.nextN_snd]
    exact ⟨h.1, by simp only [Tape.step]; rw [h.2, ← Function.iterate_add_apply, Nat.add_comm]⟩
  | nextN n =>
    refine ⟨nextN_read h n, ?_⟩
    simp only [exec]
    rw [Pn9.nextN_snd]
    exact ⟨h.1, by simp only [Tape.step]; rw [h.2, ← Function.iterate_add_apply, Nat.add_comm]⟩
  | reset s =>
    cases s with
    | none => exact ⟨rfl, h.1, h.1⟩
    | some s => exact ⟨rfl, h.1, rfl⟩
  | getCurrentValue => exact ⟨rfl, h⟩

theorem run_refines {origin : Nat} (os : List Op) : ∀ {p : Pn9} {t : Tape}, At origin p t →
    (run p os).1.map some = (Tape.run origin t os).1 ∧ At origin (run p os).2 (Tape.run origin t os).2 := by
  induction os with
  | nil => intro p t h; exact ⟨rfl, h⟩
  | cons o os ih =>
    intro p t h
    obtain ⟨h1, h2⟩ := exec_step h o
    obtain ⟨h3, h4⟩ := ih h2
    refine ⟨?_, h4⟩
    simp only [run, Tape.run, List.map_append, h1, h3]

/-- **C06 (refinement).**  Whatever sequence of `next` / `nextN` / `reset` / `get_current_value` calls is made on
`Pn9(seed)`, the bits returned are those of the tape specification. -/
theorem C06_refines_tape (seed : Nat) (os : List Op) :
    (run (Pn9.new seed) os).1.map some = (Tape.run seed ⟨seed, 0⟩ os).1 :=
  (run_refines os (origin := seed) (t := ⟨seed, 0⟩) ⟨rfl, rfl⟩).1

/-- **C06 (chunking).**  `nextN(a)` then `nextN(b)` returns what `nextN(a+b)` returns and leaves the same object, on a
generator in any state. -/
theorem C06_chunking (p : Pn9) (a b : Nat) :
    p.nextN (a + b) = ((p.nextN a).1 ++ ((p.nextN a).2.nextN b).1, ((p.nextN a).2.nextN b).2) := by
  induction a generalizing p with
  | zero => simp [Pn9.nextN]
  | succ a ih => rw [Nat.add_right_comm]; simp only [Pn9.nextN, ih]; rfl

/-- **C06 (reset).**  After any history, `reset()` makes the object equal to a freshly constructed `Pn9(seed)`; so does `reset(None)`; and `Pn9()` is `Pn9(0x1FF)`. -/
theorem C06_reset (seed : Nat) (os : List Op) : ((run (Pn9.new seed) os).2).reset = Pn9.new seed ∧ ((run (Pn9.new seed) os).2).reset none = Pn9.new seed ∧
    Pn9.new = Pn9.new 0x1FF := by
  have h := (run_refines os (origin := seed) (p := Pn9.new seed) (t := ⟨seed, 0⟩) ⟨rfl, rfl⟩).2.1
  refine ⟨?_, ?_, rfl⟩ <;>
  · simp only [Pn9.reset]
    rw [h]; rfl

/-- No `reset()` (without a seed) in the list: such a call returns to the construction seed. -/
def NoPlainReset (os : List Op) : Prop := ∀ o ∈ os, ∀ s, o = .reset s → s ≠ none

theorem run_value_only (os : List Op) (hos : NoPlainReset os) : ∀ {p q : Pn9}, p.value = q.value →
    (run p os).1 = (run q os).1 ∧ (run p os).2.value = (run q os).2.value := by
  induction os with
  | nil => intro p q h; exact ⟨rfl, h⟩
  | cons o os ih =>
    intro p q h
    have hos' : NoPlainReset os := fun x hx => hos x (by simp [hx])
    have key : (exec p o).1 = (exec q o).1 ∧ (exec p o).2.value = (exec q o).2.value := by
      cases o with
      | next => simp [exec, Pn9.next, h]
      | nextN n => simp [exec, Pn9.nextN_fst, Pn9.nextN_snd, h]
      | reset s =>
        cases s with
        | none => exact (hos (.reset none) (by simp) none rfl rfl).elim
        | some s => simp [exec, Pn9.reset]
      | getCurrentValue => simpa [exec] using h
    obtain ⟨h1, h2⟩ := ih hos' key.2
    simp only [run, key.1, h1, h2, and_self]

/-- **C06 (reset to a seed).**  After any history, `reset(s)` makes every further sequence of reads (and resets to explicit
seeds) return what a fresh `Pn9(s)` returns. -/
theorem C06_reset_seed (seed s : Nat) (os more : List Op) (h : NoPlainReset more) :
    (run (((run (Pn9.new seed) os).2).reset (some s)) more).1 = (run (Pn9.new s) more).1 := by
  refine (run_value_only more h ?_).1
  rfl

/-- **C06 (current value).**  After any history, a new generator seeded with `get_current_value()` continues the sequence
of the original. -/
theorem C06_current_value (seed : Nat) (os more : List Op) (h : NoPlainReset more) :
    (run (run (Pn9.new seed) os).2 more).1 = (run (Pn9.new ((run (Pn9.new seed) os).2.getCurrentValue)) more).1 := by
  refine (run_value_only more h ?_).1
  rfl

example : NoPlainReset [.next, .nextN 7, .reset (some 5), .getCurrentValue] := by
  intro o ho s hs; subst hs; simp at ho; simp [ho]
example : (run (Pn9.new 511) [.nextN 5, .reset none, .nextN 3]).1 = [0, 0, 0, 0, 1, 0, 0, 0] := by decide

end SunPhy.C06
