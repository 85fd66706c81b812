import Verif.Model.ConsoleOfdm
import Verif.Proofs.PyMLemmas
/-
Methods with and without their printing.
-/
namespace SunPhy
open PyM
variable {σ α β : Type}

theorem PyM.ext {m m' : PyM σ α} (h : ∀ s, m.call s = m'.call s) : m = m' := funext h

theorem call_quietly (m : PyM σ α) (c : Console σ) : (quietly m).call c = ((m.call c.obj).1, ⟨(m.call c.obj).2, c.out⟩) := rfl
theorem call_printLine (s : String) (c : Console σ) : (printLine s).call c = (.ok (), ⟨c.obj, c.out ++ [s]⟩) := rfl
theorem say_false (s : String) : (say false s : PyM (Console σ) Unit) = pure () := rfl
theorem say_true (s : String) : (say true s : PyM (Console σ) Unit) = printLine s := rfl

theorem quietly_bind (m : PyM σ α) (f : α → PyM σ β) : quietly (m >>= f) = quietly m >>= fun x => quietly (f x) := by
  apply PyM.ext
  intro c
  rw [call_quietly, call_bind, call_bind, call_quietly]
  rcases m.call c.obj with ⟨r, s⟩
  cases r <;> rfl

theorem quietly_pure (a : α) : quietly (pure a : PyM σ α) = pure a := rfl
theorem quietly_lift (r : Res α) : quietly (PyM.lift r : PyM σ α) = PyM.lift r := rfl
theorem quietly_throw (e : PyErr) : quietly (throw e : PyM σ α) = throw e := rfl
theorem quietly_ite (p : Prop) [Decidable p] (a b : PyM σ α) : quietly (if p then a else b) = if p then quietly a else quietly b := by
  split <;> rfl

/-- The printing method does what the plain one does, and adds lines that depend on the object only. -/
def Shadows (m' : PyM (Console σ) α) (m : PyM σ α) : Prop :=
  ∃ lines : σ → List String, ∀ c, m'.call c = ((m.call c.obj).1, ⟨(m.call c.obj).2, c.out ++ lines c.obj⟩)

namespace Shadows

theorem quiet (m : PyM σ α) : Shadows (quietly m) m := ⟨fun _ => [], fun c => by rw [call_quietly, List.append_nil]⟩

theorem pure (a : α) : Shadows (pure a : PyM (Console σ) α) (pure a : PyM σ α) := quiet (Pure.pure a)
theorem lift (r : Res α) : Shadows (PyM.lift r : PyM (Console σ) α) (PyM.lift r : PyM σ α) := quiet (PyM.lift r)
theorem throw (e : PyErr) : Shadows (MonadExcept.throw e : PyM (Console σ) α) (MonadExcept.throw e : PyM σ α) := quiet (MonadExcept.throw e)

theorem printLine (s : String) : Shadows (printLine s : PyM (Console σ) Unit) (Pure.pure ()) := ⟨fun _ => [s], fun c => rfl⟩

theorem say (v : Bool) (s : String) : Shadows (say v s : PyM (Console σ) Unit) (Pure.pure ()) := by
  cases v
  · exact pure ()
  · exact printLine s

theorem bind {m' : PyM (Console σ) α} {m : PyM σ α} {f' : α → PyM (Console σ) β} {f : α → PyM σ β} (h : Shadows m' m) (hf : ∀ a, Shadows (f' a) (f a)) :
    Shadows (m' >>= f') (m >>= f) := by
  obtain ⟨l, hl⟩ := h
  choose g hg using hf
  refine ⟨fun s => l s ++ (match (m.call s).1 with | .ok a => g a (m.call s).2 | .error _ => []), fun c => ?_⟩
  rw [call_bind, call_bind, hl c]
  beta_reduce
  rcases hm : m.call c.obj with ⟨r, s⟩
  cases r with
  | ok a =>
    rw [seqR_ok, seqR_ok, hg a]
    simp
  | error e => simp [seqR_error]

/-- A step that returns nothing and changes nothing. -/
theorem step {m' : PyM (Console σ) Unit} {f' : Unit → PyM (Console σ) β} {m : PyM σ β} (h : Shadows m' (Pure.pure ())) (hf : Shadows (f' ()) m) : Shadows (m' >>= f') m :=
  bind (f := fun _ => m) h (fun _ => hf)

theorem ite {p : Prop} [Decidable p] {a' b' : PyM (Console σ) α} {a b : PyM σ α} (ha : Shadows a' a) (hb : Shadows b' b) :
    Shadows (if p then a' else b') (if p then a else b) := by
  split
  · exact ha
  · exact hb

theorem congr {m' : PyM (Console σ) α} {m n : PyM σ α} (h : Shadows m' m) (e : m = n) : Shadows m' n := e ▸ h

end Shadows

/-- Sequencing of successful steps. -/
theorem call_bind_ok {m : PyM σ α} {f : α → PyM σ β} {s s' : σ} {b : β} (h : (m >>= f).call s = (.ok b, s')) :
    ∃ a s1, m.call s = (.ok a, s1) ∧ (f a).call s1 = (.ok b, s') := by
  rw [call_bind] at h
  rcases hm : m.call s with ⟨r, s1⟩
  rw [hm] at h
  cases r with
  | ok a => exact ⟨a, s1, rfl, h⟩
  | error e => cases h

end SunPhy
