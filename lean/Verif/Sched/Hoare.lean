import Verif.Sched.Model

/-!
# Hoare triples for the scheduler monad (proof technique only)
-/
namespace IPP.Sched

/-- `x` started in a state satisfying `P` ends in `Q` (with its value) or, if it raises, in `E`. -/
def Hoare (P : State → Prop) (x : M α) (Q : α → State → Prop) (E : State → Prop) : Prop :=
  ∀ s, P s → match x s with
    | (.ok a, s') => Q a s'
    | (.error _, s') => E s'

theorem Hoare.bind {P : State → Prop} {x : M α} {R : α → State → Prop} {f : α → M β} {Q : β → State → Prop} {E : State → Prop}
    (hx : Hoare P x R E) (hf : ∀ a, Hoare (R a) (f a) Q E) : Hoare P (x >>= f) Q E := by
  intro s hs
  have h := hx s hs
  show match (match x s with | (.ok a, s') => f a s' | (.error e, s') => (.error e, s')) with
    | (.ok a, s') => Q a s' | (.error _, s') => E s'
  rcases hxs : x s with ⟨r, s'⟩
  rw [hxs] at h
  cases r with
  | error e => exact h
  | ok a => exact hf a s' h

theorem Hoare.pure {P : State → Prop} {a : α} {Q : α → State → Prop} {E : State → Prop}
    (h : ∀ s, P s → Q a s) : Hoare P (Pure.pure a : M α) Q E := fun s hs => h s hs

theorem Hoare.throwE {P : State → Prop} {e : Err} {Q : α → State → Prop} {E : State → Prop}
    (h : ∀ s, P s → E s) : Hoare P (throwE e : M α) Q E := fun s hs => h s hs

/-- read the state and continue -/
theorem Hoare.getS {P : State → Prop} {f : State → M β} {Q : β → State → Prop} {E : State → Prop}
    (h : ∀ s₀, P s₀ → Hoare (fun s => s = s₀) (f s₀) Q E) : Hoare P (Sched.getS >>= f) Q E :=
  fun s hs => h s hs s rfl

/-- mutate the state and continue -/
theorem Hoare.modS {P : State → Prop} {g : State → State} {f : Unit → M β} {Q : β → State → Prop} {E : State → Prop}
    (h : ∀ s₀, P s₀ → Hoare (fun s => s = g s₀) (f ()) Q E) : Hoare P (Sched.modS g >>= f) Q E :=
  fun s hs => h s hs (g s) rfl

theorem Hoare.modS_last {P : State → Prop} {g : State → State} {Q : Unit → State → Prop} {E : State → Prop}
    (h : ∀ s, P s → Q () (g s)) : Hoare P (Sched.modS g) Q E := fun s hs => h s hs

/-- a dict lookup -/
theorem Hoare.lookupE {P : State → Prop} {o : Option α} {f : α → M β} {Q : β → State → Prop} {E : State → Prop}
    (hn : o = none → ∀ s, P s → E s) (h : ∀ a, o = some a → Hoare P (f a) Q E) : Hoare P (Sched.lookupE o >>= f) Q E := by
  cases o with
  | none => exact fun s hs => hn rfl s hs
  | some a => exact fun s hs => h a rfl s hs

theorem Hoare.conseq {P P' : State → Prop} {x : M α} {Q Q' : α → State → Prop} {E E' : State → Prop}
    (h : Hoare P' x Q' E') (hp : ∀ s, P s → P' s) (hq : ∀ a s, Q' a s → Q a s) (he : ∀ s, E' s → E s) : Hoare P x Q E := by
  intro s hs
  have := h s (hp s hs)
  rcases hxs : x s with ⟨r, s'⟩
  rw [hxs] at this
  cases r with
  | error e => exact he _ this
  | ok a => exact hq _ _ this

theorem Hoare.pre {P P' : State → Prop} {x : M α} {Q : α → State → Prop} {E : State → Prop}
    (h : Hoare P' x Q E) (hp : ∀ s, P s → P' s) : Hoare P x Q E := h.conseq hp (fun _ _ h => h) (fun _ h => h)

theorem Hoare.exc {P : State → Prop} {x : M α} {Q : α → State → Prop} {E E' : State → Prop}
    (h : Hoare P x Q E') (he : ∀ s, E' s → E s) : Hoare P x Q E := h.conseq (fun _ h => h) (fun _ _ h => h) he

/-- The final state, however the handler ended. -/
theorem Hoare.final {P : State → Prop} {x : M α} {I : State → Prop}
    (h : Hoare P x (fun _ => I) I) {s : State} (hs : P s) : I (x s).2 := by
  have := h s hs
  rcases hxs : x s with ⟨r, s'⟩
  rw [hxs] at this
  cases r <;> exact this

theorem Hoare.of_final {P : State → Prop} {x : M α} {I : State → Prop}
    (h : ∀ s, P s → I (x s).2) : Hoare P x (fun _ => I) I := by
  intro s hs
  have := h s hs
  rcases hxs : x s with ⟨r, s'⟩
  rw [hxs] at this
  cases r <;> exact this

theorem Hoare.ite {P : State → Prop} {c : Prop} [Decidable c] {x y : M α} {Q : α → State → Prop} {E : State → Prop}
    (ht : c → Hoare P x Q E) (he : ¬ c → Hoare P y Q E) : Hoare P (if c then x else y) Q E := by
  by_cases h : c
  · rw [if_pos h]; exact ht h
  · rw [if_neg h]; exact he h

/-- fetch a job and continue -/
theorem Hoare.getJob {P : State → Prop} {m : MsgId} {f : Job → M β} {Q : β → State → Prop} {E : State → Prop}
    (hn : ∀ s, P s → s.jobs m = none → E s)
    (h : ∀ s₀ j, P s₀ → s₀.jobs m = some j → Hoare (fun s => s = s₀) (f j) Q E) : Hoare P (Sched.getJob m >>= f) Q E := by
  refine Hoare.bind (R := fun j s => P s ∧ s.jobs m = some j) ?_ fun j s hs => h s j hs.1 hs.2 s rfl
  unfold Sched.getJob
  refine Hoare.getS fun s₀ h₀ s hs => ?_
  subst hs
  cases hj : s.jobs m with
  | none => exact hn s h₀ hj
  | some j => exact ⟨h₀, hj⟩

end IPP.Sched
