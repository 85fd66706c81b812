import Verif.Model.Concurrent
import Verif.Proofs.PyMLemmas
/-
Threads: uninterrupted runs agree with the sequential model; schedules.
-/
namespace SunPhy.Thr
variable {σ α β : Type}

theorem run_bind (t : Thr σ α) (g : α → Thr σ β) (s : σ) : (t.bind g).run s =
    match t.run s with
    | (.ok v, s') => (g v).run s'
    | (.error e, s') => (.error e, s') := by
  induction t generalizing s with
  | done r => cases r <;> rfl
  | read k ih => exact ih s s
  | write f k ih => exact ih (f s)

/-- The thread computes what the method computes. -/
def Sim (t : Thr σ α) (m : PyM σ α) : Prop := ∀ s, t.run s = m.call s

theorem Sim.bind {t : Thr σ α} {m : PyM σ α} {g : α → Thr σ β} {h : α → PyM σ β} (h1 : Sim t m) (h2 : ∀ v, Sim (g v) (h v)) : Sim (t >>= g) (m >>= h) := by
  intro s
  show (t.bind g).run s = _
  rw [run_bind, PyM.call_bind, h1 s]
  obtain ⟨r, s'⟩ := m.call s
  cases r with
  | ok v => exact h2 v s'
  | error e => rfl

theorem sim_pure (v : α) : Sim (pure v : Thr σ α) (pure v) := fun _ => rfl
theorem sim_lift (r : Res α) : Sim (lift r : Thr σ α) (PyM.lift r) := fun _ => rfl
theorem sim_get : Sim (get : Thr σ σ) (MonadState.get : PyM σ σ) := fun _ => rfl
theorem sim_modify (f : σ → σ) : Sim (modify f) (_root_.modify f : PyM σ PUnit) := fun _ => rfl
theorem sim_attr (f : σ → Option α) : Sim (attr f) (PyM.attr f) := by
  intro s
  rw [PyM.call_attr]
  unfold attr run
  simp only
  cases f s <;> rfl

theorem Sim.ite {p : Prop} [Decidable p] {t t' : Thr σ α} {m m' : PyM σ α} (h1 : p → Sim t m) (h2 : ¬ p → Sim t' m') : Sim (if p then t else t') (if p then m else m') := by
  by_cases h : p
  · rw [if_pos h, if_pos h]; exact h1 h
  · rw [if_neg h, if_neg h]; exact h2 h

theorem bind_assoc' {γ : Type} (t : Thr σ α) (f : α → Thr σ β) (g : β → Thr σ γ) : (t.bind f).bind g = t.bind fun v => (f v).bind g := by
  induction t with
  | done r => cases r <;> rfl
  | read k ih => show Thr.read _ = Thr.read _; congr 1; funext s; exact ih s
  | write f' k ih => show Thr.write _ _ = Thr.write _ _; congr 1

theorem Sim.assoc {γ : Type} {t : Thr σ α} {f : α → Thr σ β} {g : β → Thr σ γ} {m : PyM σ γ} (h : Sim (t >>= fun v => f v >>= g) m) : Sim ((t >>= f) >>= g) m := by
  have := bind_assoc' t f g
  show Sim ((t.bind f).bind g) m
  rw [this]; exact h

theorem Sim.iteBind {p : Prop} [Decidable p] {t t' : Thr σ α} {g : α → Thr σ β} {m m' : PyM σ β} (h1 : p → Sim (t >>= g) m) (h2 : ¬ p → Sim (t' >>= g) m') :
    Sim ((if p then t else t') >>= g) (if p then m else m') := by
  by_cases h : p
  · rw [if_pos h, if_pos h]; exact h1 h
  · rw [if_neg h, if_neg h]; exact h2 h

/-! ### Schedules -/

theorem next_run (t : Thr σ α) (s : σ) : ((t.next s).1).run (t.next s).2 = t.run s := by cases t <;> rfl

theorem next_done (r : Res α) (s : σ) : (Thr.done r : Thr σ α).next s = (.done r, s) := rfl

/-- Calls on different objects do not disturb each other. -/
theorem own_run {ι : Type} [DecidableEq ι] {σ α : ι → Type} (sched : List ι) (c : (i : ι) → Thr (σ i) (α i) × σ i) (i : ι) :
    ((sched.foldl stepOwn c i).1).run (sched.foldl stepOwn c i).2 = (c i).1.run (c i).2 := by
  induction sched generalizing c with
  | nil => rfl
  | cons j sched ih =>
    rw [List.foldl_cons, ih]
    unfold stepOwn
    by_cases h : i = j
    · subst h; rw [Function.update_self, next_run]
    · rw [Function.update_of_ne h]

theorem done_run {t : Thr σ α} {s : σ} {r : Res α} {s' : σ} (h : t = .done r) (h2 : t.run s = (r', s')) : r = r' ∧ s = s' := by
  subst h
  exact Prod.mk.inj h2

/-- Number of accesses left when nothing disturbs the call. -/
def length : Thr σ α → σ → Nat
  | .done _, _ => 0
  | .read k, s => (k s).length s + 1
  | .write f k, s => k.length (f s) + 1

theorem length_next (t : Thr σ α) (s : σ) : ((t.next s).1).length (t.next s).2 = t.length s - 1 := by
  cases t <;> simp [next, length]

theorem length_zero {t : Thr σ α} {s : σ} (h : t.length s = 0) : t = .done (t.run s).1 := by
  cases t with
  | done r => rfl
  | read k => simp [length] at h
  | write f k => simp [length] at h

theorem own_length {ι : Type} [DecidableEq ι] {σ α : ι → Type} (sched : List ι) (c : (i : ι) → Thr (σ i) (α i) × σ i) (i : ι) :
    ((sched.foldl stepOwn c i).1).length (sched.foldl stepOwn c i).2 = (c i).1.length (c i).2 - sched.count i := by
  induction sched generalizing c with
  | nil => rfl
  | cons j sched ih =>
    rw [List.foldl_cons, ih]
    unfold stepOwn
    by_cases h : i = j
    · subst h; rw [Function.update_self, length_next, List.count_cons_self]; omega
    · rw [Function.update_of_ne h, List.count_cons_of_ne (fun e => h e.symm)]

/-- One call runs on its own until it has finished. -/
theorem alone {ι : Type} [DecidableEq ι] (c : (ι → Thr σ α) × σ) (i : ι) (t : Thr σ α) (s : σ) (ht : c.1 i = t) (hs : c.2 = s) :
    ∃ n, (List.replicate n i).foldl stepShared c = (Function.update c.1 i (.done (t.run s).1), (t.run s).2) := by
  induction t generalizing c s with
  | done r =>
    refine ⟨0, ?_⟩
    have : Function.update c.1 i (Thr.done (run (.done r : Thr σ α) s).1) = c.1 := by
      funext j
      by_cases h : j = i
      · subst h; rw [Function.update_self, ht]; rfl
      · rw [Function.update_of_ne h]
    rw [this, ← hs]
    rfl
  | read k ih =>
    obtain ⟨n, hn⟩ := ih s (stepShared c i) s (by unfold stepShared; simp only [Function.update_self, ht, hs]; rfl) (by unfold stepShared; simp only [ht, hs]; rfl)
    refine ⟨n + 1, ?_⟩
    rw [List.replicate_succ, List.foldl_cons, hn]
    unfold stepShared
    rw [Function.update_idem]
    rfl
  | write f k ih =>
    obtain ⟨n, hn⟩ := ih (stepShared c i) (f s) (by unfold stepShared; simp only [Function.update_self, ht, hs]; rfl) (by unfold stepShared; simp only [ht, hs]; rfl)
    refine ⟨n + 1, ?_⟩
    rw [List.replicate_succ, List.foldl_cons, hn]
    unfold stepShared
    rw [Function.update_idem]
    rfl

/-- One call runs until the end of its first part. -/
theorem part {ι γ : Type} [DecidableEq ι] (c : (ι → Thr σ α) × σ) (i : ι) (t : Thr σ γ) (g : γ → Thr σ α) (s : σ) (v : γ) (s' : σ) (ht : c.1 i = t.bind g) (hs : c.2 = s)
    (hr : t.run s = (.ok v, s')) : ∃ n, (List.replicate n i).foldl stepShared c = (Function.update c.1 i (g v), s') := by
  induction t generalizing c s with
  | done r =>
    obtain ⟨h1, h2⟩ := Prod.mk.inj hr
    refine ⟨0, ?_⟩
    have : Function.update c.1 i (g v) = c.1 := by
      funext j
      by_cases h : j = i
      · subst h; rw [Function.update_self, ht, h1]; rfl
      · rw [Function.update_of_ne h]
    rw [this, ← h2, ← hs]
    rfl
  | read k ih =>
    obtain ⟨n, hn⟩ := ih s (stepShared c i) s (by unfold stepShared; simp only [Function.update_self, ht, hs]; rfl) (by unfold stepShared; simp only [ht, hs]; rfl) hr
    refine ⟨n + 1, ?_⟩
    rw [List.replicate_succ, List.foldl_cons, hn]
    unfold stepShared
    rw [Function.update_idem]
  | write f k ih =>
    obtain ⟨n, hn⟩ := ih (stepShared c i) (f s) (by unfold stepShared; simp only [Function.update_self, ht, hs]; rfl) (by unfold stepShared; simp only [ht, hs]; rfl) hr
    refine ⟨n + 1, ?_⟩
    rw [List.replicate_succ, List.foldl_cons, hn]
    unfold stepShared
    rw [Function.update_idem]

/-- A schedule that lets call `j` run between the first part of call `i` and the rest. -/
theorem interrupted {ι γ : Type} [DecidableEq ι] (c : (ι → Thr σ α) × σ) (i j : ι) (hij : i ≠ j) (t : Thr σ γ) (g : γ → Thr σ α) (v : γ) (s1 : σ) (ht : c.1 i = t.bind g)
    (hr : t.run c.2 = (.ok v, s1)) :
    ∃ sched : List ι, (sched.foldl stepShared c).1 i = .done ((g v).run ((c.1 j).run s1).2).1 ∧ (sched.foldl stepShared c).1 j = .done ((c.1 j).run s1).1 := by
  obtain ⟨n1, h1⟩ := part c i t g c.2 v s1 ht rfl hr
  obtain ⟨n2, h2⟩ := alone (Function.update c.1 i (g v), s1) j (c.1 j) s1 (by simp only; rw [Function.update_of_ne hij.symm]) rfl
  obtain ⟨n3, h3⟩ := alone (Function.update (Function.update c.1 i (g v)) j (.done ((c.1 j).run s1).1), ((c.1 j).run s1).2) i (g v) _
    (by simp only; rw [Function.update_of_ne hij, Function.update_self]) rfl
  refine ⟨List.replicate n1 i ++ List.replicate n2 j ++ List.replicate n3 i, ?_⟩
  rw [List.foldl_append, List.foldl_append, h1, h2, h3]
  refine ⟨by simp only [Function.update_self], by simp only; rw [Function.update_of_ne hij.symm, Function.update_self]⟩

/-- No access changes `π`. -/
def Keeps {γ : Type} (π : σ → γ) : Thr σ α → Prop
  | .done _ => True
  | .read k => ∀ s, (k s).Keeps π
  | .write f k => (∀ s, π (f s) = π s) ∧ k.Keeps π

theorem Keeps.next {γ : Type} {π : σ → γ} {t : Thr σ α} (h : t.Keeps π) (s : σ) : (t.next s).1.Keeps π ∧ π (t.next s).2 = π s := by
  cases t with
  | done r => exact ⟨trivial, rfl⟩
  | read k => exact ⟨h s, rfl⟩
  | write f k => exact ⟨h.2, h.1 s⟩

theorem Keeps.bind {γ : Type} {π : σ → γ} {t : Thr σ α} {g : α → Thr σ β} (h1 : t.Keeps π) (h2 : ∀ v, (g v).Keeps π) : (t >>= g).Keeps π := by
  show (t.bind g).Keeps π
  induction t with
  | done r => cases r with | ok v => exact h2 v | error e => trivial
  | read k ih => intro s; exact ih s (h1 s)
  | write f k ih => exact ⟨h1.1, ih h1.2⟩

theorem keeps_lift {γ : Type} {π : σ → γ} (r : Res α) : (lift r : Thr σ α).Keeps π := trivial
theorem keeps_pure {γ : Type} {π : σ → γ} (v : α) : (pure v : Thr σ α).Keeps π := trivial
theorem keeps_get {γ : Type} {π : σ → γ} : (get : Thr σ σ).Keeps π := fun _ => trivial
theorem keeps_attr {γ : Type} {π : σ → γ} (f : σ → Option α) : (attr f : Thr σ α).Keeps π := by
  intro s
  simp only
  cases f s <;> trivial
theorem keeps_modify {γ : Type} {π : σ → γ} {f : σ → σ} (h : ∀ s, π (f s) = π s) : (modify f).Keeps π := ⟨h, trivial⟩

theorem keeps_shared {ι γ : Type} [DecidableEq ι] {π : σ → γ} (sched : List ι) (c : (ι → Thr σ α) × σ) (h : ∀ i, (c.1 i).Keeps π) :
    π (sched.foldl stepShared c).2 = π c.2 := by
  induction sched generalizing c with
  | nil => rfl
  | cons j sched ih =>
    rw [List.foldl_cons, ih]
    · exact ((h j).next c.2).2
    · intro i
      unfold stepShared
      by_cases e : i = j
      · subst e; simp only [Function.update_self]; exact ((h i).next c.2).1
      · simp only; rw [Function.update_of_ne e]; exact h i

end SunPhy.Thr

namespace SunPhy
open Thr
variable {σ α β : Type}

macro "sim1" : tactic => `(tactic| first
  | with_reducible exact sim_pure _ | with_reducible exact sim_lift _ | with_reducible exact sim_get | with_reducible exact sim_modify _ | with_reducible exact sim_attr _
  | assumption
  | (with_reducible refine Sim.iteBind (fun _ => ?_) (fun _ => ?_))
  | (with_reducible refine Sim.ite (fun _ => ?_) (fun _ => ?_)) | (with_reducible refine Sim.assoc ?_) | (with_reducible refine Sim.bind ?_ (fun _ => ?_)))

theorem fskBinary_sim (a : Arg) : Sim (fskBinaryT a) (fskBinary a) := by
  unfold fskBinaryT fskBinary fskFillT
  dsimp only
  repeat' sim1

theorem fsk_sim (rn : Rat → Rat) (a : Arg) : Sim (fskBitsToIQT rn a) (fskBitsToIQ rn a) := by
  refine Sim.bind (fskBinary_sim a) fun _ => Sim.bind sim_get fun _ => sim_lift _

theorem oqpskChips_sim (a : Arg) : Sim (oqpskChipsT a) (oqpskChips a) := by
  unfold oqpskChipsT oqpskChips oqpskFillT
  repeat' sim1
  all_goals (split <;> repeat' sim1)

theorem oqpsk_sim (a : Arg) : Sim (oqpskBitsToIQT a) (oqpskBitsToIQ a) := by
  refine Sim.bind (oqpskChips_sim a) fun _ => Sim.bind sim_get fun _ => sim_lift _

theorem ofdmInterleaver_sim (x : Bits) (M : Nat) : Sim (ofdmInterleaverT x M) (ofdmInterleaverM x M) := by
  unfold ofdmInterleaverT ofdmInterleaverM
  repeat' sim1

theorem ofdmPadding_sim (x : Bits) : Sim (ofdmPaddingT x) (ofdmPaddingM x) := by
  unfold ofdmPaddingT ofdmPaddingM
  repeat' sim1

theorem ofdmPhr_sim (n : Nat) : Sim (ofdmPhrT n) (ofdmPhrM n) := by
  unfold ofdmPhrT ofdmPhrM
  dsimp only
  repeat' (first | with_reducible refine Sim.bind (ofdmInterleaver_sim _ _) (fun _ => ?_) | sim1)

theorem Sim.pureBind {v : α} {g : α → Thr σ β} {m : PyM σ β} (h : Sim (g v) m) : Sim ((pure v : Thr σ α) >>= g) m := h

theorem Sim.assocR {γ : Type} {t : Thr σ γ} {m : PyM σ α} {f : α → PyM σ β} {g : β → PyM σ γ} (h : Sim t (m >>= fun v => f v >>= g)) : Sim t ((m >>= f) >>= g) := by
  rw [bind_assoc]; exact h

theorem ofdm_sim (a : Arg) : Sim (ofdmModBitsToIQT a) (ofdmModBitsToIQ a) := by
  unfold ofdmModBitsToIQT ofdmModBitsToIQ ofdmFillT ofdmPayloadM ofdmPayloadFillT ofdmPayloadIQT
  dsimp only
  repeat' (first
    | with_reducible refine Sim.bind (ofdmInterleaver_sim _ _) (fun _ => ?_)
    | with_reducible refine Sim.bind (ofdmPadding_sim _) (fun _ => ?_)
    | with_reducible refine Sim.bind (ofdmPhr_sim _) (fun _ => ?_)
    | with_reducible refine Sim.pureBind ?_
    | with_reducible refine Sim.assocR ?_
    | sim1)

macro "keeps1" : tactic => `(tactic| first
  | trivial
  | (with_reducible refine Keeps.bind ?_ (fun _ => ?_))
  | (exact keeps_lift _) | (exact keeps_get) | (exact keeps_attr _) | (exact keeps_modify (fun _ => rfl)) | (exact keeps_pure _)
  | split)

theorem fsk_keeps (rn : Rat → Rat) (a : Arg) : (fskBitsToIQT rn a).Keeps FskObj.params := by
  unfold fskBitsToIQT fskBinaryT fskFillT
  dsimp only
  repeat' keeps1

theorem oqpsk_keeps (a : Arg) : (oqpskBitsToIQT a).Keeps OqpskObj.params := by
  unfold oqpskBitsToIQT oqpskChipsT oqpskFillT
  dsimp only
  repeat' keeps1

theorem ofdm_keeps (a : Arg) : (ofdmModBitsToIQT a).Keeps OfdmObj.params := by
  unfold ofdmModBitsToIQT ofdmFillT ofdmPayloadFillT ofdmPayloadIQT ofdmPaddingT ofdmPhrT ofdmInterleaverT
  dsimp only
  repeat' keeps1

end SunPhy
