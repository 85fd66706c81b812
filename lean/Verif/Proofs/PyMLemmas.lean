import Verif.Model.Prelude
/-
Evaluation rules for method bodies.
-/
namespace SunPhy.PyM
variable {σ α β : Type}

/-- Sequencing: an exception stops the body and keeps the object. -/
def seqR (r : Res α × σ) (f : α → PyM σ β) : Res β × σ :=
  match r with
  | (.ok v, s) => (f v).call s
  | (.error e, s) => (.error e, s)

theorem call_bind (m : PyM σ α) (f : α → PyM σ β) (s : σ) : (m >>= f).call s = seqR (m.call s) f := by
  show ExceptT.run (m >>= f) s = _
  rw [ExceptT.run_bind]
  show StateT.bind _ _ s = _
  unfold StateT.bind PyM.call
  generalize ExceptT.run m s = r
  obtain ⟨r, s'⟩ := r
  cases r <;> rfl

theorem seqR_ok (v : α) (s : σ) (f : α → PyM σ β) : seqR (.ok v, s) f = (f v).call s := rfl
theorem seqR_error (e : PyErr) (s : σ) (f : α → PyM σ β) : seqR (.error e, s) f = (.error e, s) := rfl
theorem call_pure (v : α) (s : σ) : (pure v : PyM σ α).call s = (.ok v, s) := rfl
theorem call_lift (r : Res α) (s : σ) : (PyM.lift r : PyM σ α).call s = (r, s) := rfl
theorem call_get (s : σ) : (get : PyM σ σ).call s = (.ok s, s) := rfl
theorem call_modify (g : σ → σ) (s : σ) : (modify g : PyM σ PUnit).call s = (.ok ⟨⟩, g s) := rfl
theorem call_throw (e : PyErr) (s : σ) : (throw e : PyM σ α).call s = (.error e, s) := rfl
theorem call_attr (f : σ → Option α) (s : σ) : (PyM.attr f).call s =
    (match f s with | some v => .ok v | none => .error .AttributeError, s) := by
  unfold PyM.attr
  rw [call_bind, call_get, seqR_ok]
  cases f s <;> rfl

end SunPhy.PyM
