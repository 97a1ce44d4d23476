import Verif.Sched.Spec

/-!
# Hoare triples that tell which exception was raised (proof technique only)
-/
namespace IPP.Sched

/-- `x` started in a state satisfying `P` ends in `Q` (with its value) or, if it raises `e`, in `E e`. -/
def HoareE (P : State → Prop) (x : M α) (Q : α → State → Prop) (E : Err → State → Prop) : Prop :=
  ∀ s, P s → match x s with
    | (.ok a, s') => Q a s'
    | (.error e, s') => E e s'

variable {P P' : State → Prop} {E E' : Err → State → Prop}

theorem HoareE.bind {x : M α} {R : α → State → Prop} {f : α → M β} {Q : β → State → Prop}
    (hx : HoareE P x R E) (hf : ∀ a, HoareE (R a) (f a) Q E) : HoareE P (x >>= f) Q E := by
  intro s hs
  have h := hx s hs
  show match (match x s with | (.ok a, s') => f a s' | (.error e, s') => (.error e, s')) with
    | (.ok a, s') => Q a s' | (.error e, s') => E e s'
  rcases hxs : x s with ⟨r, s'⟩
  rw [hxs] at h
  cases r with
  | error e => exact h
  | ok a => exact hf a s' h

theorem HoareE.pure {a : α} {Q : α → State → Prop} (h : ∀ s, P s → Q a s) : HoareE P (Pure.pure a : M α) Q E := fun s hs => h s hs

theorem HoareE.throwE {e : Err} {Q : α → State → Prop} (h : ∀ s, P s → E e s) : HoareE P (throwE e : M α) Q E := fun s hs => h s hs

/-- read the state and continue -/
theorem HoareE.getS {f : State → M β} {Q : β → State → Prop} (h : ∀ s₀, P s₀ → HoareE (fun s => s = s₀) (f s₀) Q E) :
    HoareE P (Sched.getS >>= f) Q E := fun s hs => h s hs s rfl

/-- mutate the state and continue -/
theorem HoareE.modS {g : State → State} {f : Unit → M β} {Q : β → State → Prop} (h : ∀ s₀, P s₀ → HoareE (fun s => s = g s₀) (f ()) Q E) :
    HoareE P (Sched.modS g >>= f) Q E := fun s hs => h s hs (g s) rfl

theorem HoareE.modS_last {g : State → State} {Q : Unit → State → Prop} (h : ∀ s, P s → Q () (g s)) : HoareE P (Sched.modS g) Q E := fun s hs => h s hs

theorem HoareE.emit {o : Obs} {f : Unit → M β} {Q : β → State → Prop}
    (h : ∀ s₀, P s₀ → HoareE (fun s => s = { s₀ with trace := s₀.trace ++ [o] }) (f ()) Q E) : HoareE P (Sched.emit o >>= f) Q E :=
  fun s hs => h s hs _ rfl

theorem HoareE.setJob {m : MsgId} {j : Job} {f : Unit → M β} {Q : β → State → Prop}
    (h : ∀ s₀, P s₀ → HoareE (fun s => s = { s₀ with jobs := upd s₀.jobs m (some j) }) (f ()) Q E) : HoareE P (Sched.setJob m j >>= f) Q E :=
  fun s hs => h s hs _ rfl

theorem HoareE.addQueueMap {m : MsgId} {f : Unit → M β} {Q : β → State → Prop}
    (h : ∀ s₀, P s₀ → HoareE (fun s => s = { s₀ with queueMap := insertSet m s₀.queueMap }) (f ()) Q E) : HoareE P (Sched.addQueueMap m >>= f) Q E :=
  fun s hs => h s hs _ rfl

/-- a dict lookup -/
theorem HoareE.lookupE {o : Option α} {f : α → M β} {Q : β → State → Prop}
    (hn : o = none → ∀ s, P s → E .keyError s) (h : ∀ a, o = some a → HoareE P (f a) Q E) : HoareE P (Sched.lookupE o >>= f) Q E := by
  cases o with
  | none => exact fun s hs => hn rfl s hs
  | some a => exact fun s hs => h a rfl s hs

theorem HoareE.conseq {x : M α} {Q Q' : α → State → Prop}
    (h : HoareE P' x Q' E') (hp : ∀ s, P s → P' s) (hq : ∀ a s, Q' a s → Q a s) (he : ∀ e s, E' e s → E e s) : HoareE P x Q E := by
  intro s hs
  have := h s (hp s hs)
  rcases hxs : x s with ⟨r, s'⟩
  rw [hxs] at this
  cases r with
  | error e => exact he _ _ this
  | ok a => exact hq _ _ this

theorem HoareE.pre {x : M α} {Q : α → State → Prop} (h : HoareE P' x Q E) (hp : ∀ s, P s → P' s) : HoareE P x Q E :=
  h.conseq hp (fun _ _ h => h) (fun _ _ h => h)

/-- start from a known state -/
theorem HoareE.at {s₀ : State} {x : M α} {Q : α → State → Prop} (h : HoareE P x Q E) (hp : P s₀) : HoareE (fun s => s = s₀) x Q E :=
  h.pre fun s hs => by rw [hs]; exact hp

theorem HoareE.and {x : M α} {Q Q' : α → State → Prop} (h : HoareE P x Q E) (h' : HoareE P' x Q' E') :
    HoareE (fun s => P s ∧ P' s) x (fun a s => Q a s ∧ Q' a s) (fun e s => E e s ∧ E' e s) := by
  intro s hs
  have h1 := h s hs.1
  have h2 := h' s hs.2
  rcases hxs : x s with ⟨r, s'⟩
  rw [hxs] at h1 h2
  cases r <;> exact ⟨h1, h2⟩

theorem HoareE.ite {c : Prop} [Decidable c] {x y : M α} {Q : α → State → Prop}
    (ht : c → HoareE P x Q E) (he : ¬ c → HoareE P y Q E) : HoareE P (if c then x else y) Q E := by
  by_cases h : c
  · rw [if_pos h]; exact ht h
  · rw [if_neg h]; exact he h

/-- fetch a job and continue -/
theorem HoareE.getJob {m : MsgId} {f : Job → M β} {Q : β → State → Prop}
    (hn : ∀ s, P s → s.jobs m = none → E .keyError s)
    (h : ∀ s₀ j, P s₀ → s₀.jobs m = some j → HoareE (fun s => s = s₀) (f j) Q E) : HoareE P (Sched.getJob m >>= f) Q E := by
  refine HoareE.bind (R := fun j s => P s ∧ s.jobs m = some j) ?_ fun j s hs => h s j hs.1 hs.2 s rfl
  unfold Sched.getJob
  refine HoareE.getS fun s₀ h₀ s hs => ?_
  subst hs
  cases hj : s.jobs m with
  | none => exact hn s h₀ hj
  | some j => exact ⟨h₀, hj⟩

/-- The final state, however it ended. -/
theorem HoareE.final {x : M α} {Q : α → State → Prop} {I : State → Prop} (h : HoareE P x Q E)
    (hq : ∀ a s, Q a s → I s) (he : ∀ e s, E e s → I s) {s : State} (hs : P s) : I (x s).2 := by
  have := h s hs
  rcases hxs : x s with ⟨r, s'⟩
  rw [hxs] at this
  cases r with
  | error e => exact he _ _ this
  | ok a => exact hq _ _ this

end IPP.Sched
