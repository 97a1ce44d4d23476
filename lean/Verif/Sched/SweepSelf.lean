import Verif.Sched.SweepProps

/-!
# What the scheduler does about the task that an event is about (lemmas)
-/
namespace IPP.Sched

variable {cfg : Config} {n : Nat} {s S s' : State} {x m : MsgId} {e : Engine}

/-- A reason to act upon `m`, whose time dependency is met. -/
def SelfDue (cfg : Config) (S : State) (m : MsgId) : Prop :=
  ∃ j, S.jobs m = some j ∧ ((∃ e, Room cfg S e ∧ AbleJ S j e) ∨ (DeadJ S j ∧ ∃ e, Room cfg S e))

theorem Saved.neat {s s₃ : State} (h : Saved m s s₃) (hn : Neat s) (hr : ∀ j, s.jobs m = some j → j.removed = false) : Neat s₃ := by
  refine ⟨by rw [h.loads, h.targets]; exact hn.len, by rw [h.targets]; exact hn.nodup, fun x jx hx hrx hq => ?_⟩
  by_cases hxm : x = m
  · rw [hxm] at hx
    obtain ⟨j', h1, h2⟩ := h.job jx hx
    rw [hr j' h1, hrx] at h2; cases h2
  · rw [h.other x hxm] at hx
    exact hn.gone x jx hx hrx ((h.qm x hq).resolve_left hxm)

theorem handleUnmet_self (e : Engine) (m : MsgId) (cause : Cause) (s₀ : State) (hn : Neat s₀) (hrem : ∀ j, s₀.jobs m = some j → j.removed = false) :
    HoareE (fun s => s = s₀) (handleUnmet cfg n e m cause) (fun _ s' => ∃ p j S, s₀.jobs m = some j ∧ S = { s₀ with
        trace := s₀.trace ++ [.retry e m cause]
        pending := p
        jobs := upd s₀.jobs m (some { j with blacklist := insertSet e j.blacklist }) } ∧ Env S s' ∧ (SelfDue cfg S m → Act S s' m)) AnyErr := by
  unfold handleUnmet
  refine HoareE.getS fun s hs => ?_
  subst hs
  refine HoareE.lookupE (fun _ _ _ => trivial) fun p _ => ?_
  refine HoareE.ite (fun _ => HoareE.bind (R := fun _ _ => False) (HoareE.throwE fun _ _ => trivial) fun _ _ h => h.elim) fun _ => ?_
  refine HoareE.modS fun s₁ hs₁ => ?_
  subst hs₁
  refine HoareE.getJob (fun _ _ _ => trivial) fun s₂ j hs₂ hj => ?_
  subst hs₂
  refine HoareE.emit fun s hs => ?_
  subst hs
  refine HoareE.setJob fun s hs => ?_
  subst hs
  have hjr := hrem j hj
  generalize hS : ({ s₁ with
      pending := upd s₁.pending e (some (p.filter (· ≠ m)))
      trace := s₁.trace ++ [.retry e m cause]
      jobs := upd s₁.jobs m (some { j with blacklist := insertSet e j.blacklist }) } : State) = S
  have hjS : S.jobs m = some { j with blacklist := insertSet e j.blacklist } := by rw [← hS]; exact upd_self _ _ _
  have hnS : Neat S := by
    rw [← hS]
    refine ⟨hn.len, hn.nodup, fun x jx hx hr => ?_⟩
    dsimp only at hx
    by_cases hxm : x = m
    · rw [hxm, upd_self] at hx; cases hx
      exact absurd hr (by simp [hjr])
    · rw [upd_ne _ _ hxm] at hx; exact hn.gone x jx hx hr
  refine HoareE.conseq (P := fun s => s = S) (P' := fun s => s = S) (E' := AnyErr)
    (Q' := fun _ s' => Env S s' ∧ (SelfDue cfg S m → Act S s' m)) ?_ (fun _ h => h) (fun _ s' h => ⟨_, _, S, hj, hS.symm, h⟩) (fun _ _ h => h)
  have hlast : ∀ s₂, Neat s₂ → Env S s₂ → (SelfDue cfg S m → Act S s₂ m) →
      HoareE (fun s => s = s₂) (if cfg.hwm ≠ 0 then do
        let s ← getS
        match s.targets.idxOf? e with
        | none => Pure.pure ()
        | some idx => if s.loads.getD idx 0 = (cfg.hwm : Int) - 1 then updateGraph cfg n none else Pure.pure ()
        else Pure.pure () : M Unit) (fun _ s' => Env S s' ∧ (SelfDue cfg S m → Act S s' m)) AnyErr := by
    intro s₂ hn₂ henv ha
    have hpure : HoareE (fun x => x = s₂) (Pure.pure () : M Unit) (fun _ s' => Env S s' ∧ (SelfDue cfg S m → Act S s' m)) AnyErr :=
      HoareE.pure fun s' hs => by subst hs; exact ⟨henv, ha⟩
    refine HoareE.ite (fun _ => ?_) fun _ => hpure
    refine HoareE.getS fun s hs => ?_
    subst hs
    split
    · exact hpure
    · refine HoareE.ite (fun _ => ?_) fun _ => hpure
      refine ((sweepAt (cfg := cfg) n).upd none s hn₂).conseq (fun _ h => h) (fun _ s' h => ?_) (fun _ _ h => h)
      exact ⟨henv.trans h.1.env, fun hd => (ha hd).later h.1.env⟩
  by_cases hse : setEq (insertSet e j.blacklist) j.targets = true
  · rw [if_pos hse]
    refine HoareE.addQueueMap fun s hs => ?_
    subst hs
    refine HoareE.bind ((sweepAt (cfg := cfg) n).fail m .impossible s _ hnS
      ⟨rfl, rfl, rfl, rfl, rfl, rfl, rfl, rfl, rfl, fun x => by simp, fun _ _ => rfl, fun j' hj' => ⟨j', hj', rfl, rfl, rfl⟩⟩) fun _ s₂ h₂ => ?_
    exact hlast s₂ (h₂.1.neat hnS) h₂.1.env (fun _ => h₂.2.2.1) s₂ rfl
  · rw [if_neg hse]
    refine HoareE.bind ((sweepAt (cfg := cfg) n).may m S hnS) fun b s₂ h₂ => ?_
    obtain ⟨g, k, ht, hm⟩ := h₂
    have hm := (hm _ hjS).1
    have hn₂ := g.neat hnS
    have hact : SelfDue cfg S m → Act S s₂ m := by
      rintro ⟨j', hj', hd⟩
      rw [hjS] at hj'; cases hj'
      cases b with
      | true => exact ht rfl
      | false => exact hm rfl hd
    cases b with
    | true => exact hlast s₂ hn₂ g.env hact s₂ rfl
    | false =>
      refine (HoareE.getS fun s hs => ?_ : HoareE (fun s => s = s₂) _ _ _) s₂ rfl
      subst hs
      refine HoareE.ite (fun hna => ?_) fun _ => hlast s hn₂ g.env hact
      refine HoareE.bind (saveUnmet_sweep m s) fun _ s₃ h₃ => ?_
      refine hlast s₃ (h₃.neat hn₂ fun j' hj' => ?_) (g.env.trans h₃.env) (fun hd => (hact hd).later h₃.env) s₃ rfl
      cases hr : j'.removed with
      | false => rfl
      | true =>
        rcases g.rem m j' hj' hr with ⟨j'', h4, h5⟩ | h4
        · rw [hjS] at h4; cases h4
          simp [hjr] at h5
        · exact absurd h4 hna

/-- `s` after the engine's answer is heard: its place is free, the task is taken back. -/
structure Back (e : Engine) (m : MsgId) (c : Cause) (s S : State) (j : Job) : Prop where
  job : s.jobs m = some j
  job' : S.jobs m = some { j with blacklist := insertSet e j.blacklist }
  trace : S.trace = s.trace ++ [.retry e m c]
  loads : S.loads = match s.targets.idxOf? e with
    | none => s.loads
    | some i => s.loads.modify i (· - 1)
  targets : S.targets = s.targets
  com : S.completed = s.completed
  fai : S.failed = s.failed
  ac : S.allCompleted = s.allCompleted
  af : S.allFailed = s.allFailed
  dst : S.destinations = s.destinations

theorem handleResult_relay (e : Engine) (m : MsgId) (ok : Bool) (s₀ : State) :
    HoareE (fun s => s = s₀) (handleResult cfg n e m ok) (fun _ s' => Obs.relay e m ok ∈ s'.trace) AnyErr := by
  unfold handleResult
  refine HoareE.emit fun s hs => ?_
  subst hs
  refine HoareE.getS fun s₁ hs₁ => ?_
  subst hs₁
  refine HoareE.lookupE (fun _ _ _ => trivial) fun p _ => ?_
  refine HoareE.ite (fun _ => HoareE.bind (R := fun _ _ => False) (HoareE.throwE fun _ _ => trivial) fun _ _ h => h.elim) fun _ => ?_
  refine HoareE.modS fun s₂ hs₂ => ?_
  subst hs₂
  have hrest : HoareE (fun s => Obs.relay e m ok ∈ s.trace) (do
      modS fun s => { s with allDone := insertSet m s.allDone, destinations := upd s.destinations m (some e) }
      updateGraph cfg n (some m) : M Unit) (fun _ s' => Obs.relay e m ok ∈ s'.trace) AnyErr := by
    refine HoareE.modS fun s₃ hs₃ => ?_
    have := updateGraph_pres (mem_closed cfg (.jobTimer 0 0) (.relay e m ok)) n (some m)
    intro s₄ hs₄
    have := this s₄ (by rw [hs₄]; exact hs₃)
    generalize updateGraph cfg n (some m) s₄ = r at this ⊢
    rcases r with ⟨a | a, s₅⟩
    · trivial
    · exact this
  refine HoareE.ite (fun _ => ?_) fun _ => ?_
  · refine HoareE.lookupE (fun _ _ _ => trivial) fun c _ => ?_
    refine HoareE.modS fun s₃ hs₃ => ?_
    subst hs₃
    exact hrest.at (by simp)
  · refine HoareE.lookupE (fun _ _ _ => trivial) fun c _ => ?_
    refine HoareE.modS fun s₃ hs₃ => ?_
    subst hs₃
    exact hrest.at (by simp)

theorem dispatchResult_self (e : Engine) (m : MsgId) (ok dm : Bool) (s₀ : State) (hn : Neat s₀) (hrem : ∀ j, s₀.jobs m = some j → j.removed = false) :
    HoareE (fun s => s = s₀) (dispatchResult cfg n e m ok dm) (fun _ s' => Obs.relay e m ok ∈ s'.trace ∨
      ∃ c S j, Back e m c s₀ S j ∧ Env S s' ∧ (SelfDue cfg S m → Act S s' m)) AnyErr := by
  unfold dispatchResult
  refine HoareE.getS fun s₁ hs₁ => ?_
  subst hs₁
  have key : ∀ l, (l = match s₁.targets.idxOf? e with
      | none => s₁.loads
      | some i => s₁.loads.modify i (· - 1)) → HoareE (fun s => s = { s₁ with loads := l }) (if dm then do
        let r ← lookupE (s₁.retries m)
        if !ok ∧ r > 0 then
          modS fun s => { s with retries := upd s.retries m (some (r - 1)) }
          handleUnmet cfg n e m .failure
        else
          modS fun s => { s with retries := upd s.retries m none }
          handleResult cfg n e m ok
        else handleUnmet cfg n e m .unmet) (fun _ s' => Obs.relay e m ok ∈ s'.trace ∨
      ∃ c S j, Back e m c s₁ S j ∧ Env S s' ∧ (SelfDue cfg S m → Act S s' m)) AnyErr := by
    intro l hl
    have hlen : l.length = s₁.targets.length := by
      rw [hl, ← hn.len]
      split <;> simp
    have hun : ∀ (c : Cause) (r : MsgId → Option Nat), HoareE (fun x => x = { s₁ with
        loads := l
        retries := r }) (handleUnmet cfg n e m c) (fun _ s' => Obs.relay e m ok ∈ s'.trace ∨
      ∃ c S j, Back e m c s₁ S j ∧ Env S s' ∧ (SelfDue cfg S m → Act S s' m)) AnyErr := by
      intro c r
      refine HoareE.atEq fun st hst => ?_
      refine (handleUnmet_self (cfg := cfg) (n := n) e m c st ?_ (by rw [hst]; exact hrem)).conseq (fun _ h => h) (fun _ s' h => Or.inr ?_) (fun _ _ h => h)
      · rw [hst]; exact ⟨hlen, hn.nodup, hn.gone⟩
      · obtain ⟨p, j, S, hj, hS, h⟩ := h
        refine ⟨c, S, j, ?_, h⟩
        subst hS hst
        exact ⟨hj, upd_self _ _ _, rfl, hl, rfl, rfl, rfl, rfl, rfl, rfl⟩
    refine HoareE.ite (fun _ => ?_) fun _ => hun .unmet s₁.retries
    refine HoareE.lookupE (fun _ _ _ => trivial) fun r _ => ?_
    refine HoareE.ite (fun _ => ?_) fun _ => ?_
    · refine HoareE.modS fun s₃ hs₃ => ?_
      subst hs₃
      exact hun .failure _
    · refine HoareE.modS fun s₃ hs₃ => ?_
      subst hs₃
      refine HoareE.atEq fun st hst => ?_
      exact (handleResult_relay e m ok st).conseq (fun _ h => h) (fun _ s' h => Or.inl h) (fun _ _ h => h)
  dsimp only
  cases hi : s₁.targets.idxOf? e with
  | none => exact key s₁.loads (by rw [hi])
  | some i =>
    refine HoareE.modS fun s₂ hs₂ => ?_
    subst hs₂
    exact key _ (by rw [hi])

theorem HoareE.triv {α : Type} {P : State → Prop} (f : M α) : HoareE P f (fun _ _ => True) AnyErr := by
  intro s _
  rcases hf : f s with ⟨a | a, s₅⟩
  · trivial
  · trivial

/-- A task in hand is answered. -/
theorem failUnreachable_says (m : MsgId) (why : Why) (s₀ : State) (hq : m ∈ s₀.queueMap) :
    HoareE (fun s => s = s₀) (failUnreachable cfg n m why) (fun _ s => Obs.fail m why ∈ s.trace) AnyErr := by
  cases n with
  | zero => unfold failUnreachable; exact HoareE.throwE fun _ _ => trivial
  | succ n =>
    unfold failUnreachable
    refine HoareE.getS fun s₁ h₁ => ?_
    subst h₁
    refine HoareE.ite (fun hn => absurd hq hn) (fun _ => ?_)
    refine HoareE.modS fun s₂ h₂ => ?_
    refine HoareE.getJob (fun _ _ _ => trivial) fun s₃ j h₃ hj => ?_
    refine HoareE.modS fun s₄ h₄ => ?_
    refine HoareE.bind (R := fun _ _ => True) (E := AnyErr) (HoareE.triv _) fun _ => ?_
    · refine HoareE.bind (R := fun _ s => Obs.fail m why ∈ s.trace) ?_ fun _ => ?_
      · unfold failReply emit
        exact HoareE.modS fun s h => HoareE.modS_last fun s' h' => by subst h'; simp
      · intro s hs
        have := updateGraph_pres (mem_closed cfg (.jobTimer 0 0) (.fail m why)) n (some m) s hs
        generalize updateGraph cfg n (some m) s = r at this ⊢
        rcases r with ⟨a | a, s₅⟩
        · trivial
        · exact this

/-- The state in which the scheduler begins to decide about a submission. -/
def arrivedIn (s : State) (m : MsgId) (sub : Submission) : State :=
  { arriving s m sub with jobs := upd s.jobs m (some (arrived (arriving s m sub) sub)) }

theorem dispatchSubmission_self (m : MsgId) (sub : Submission) (s₀ : State) (hn : Neat s₀) (hq : m ∉ s₀.queueMap) :
    HoareE (fun s => s = s₀) (dispatchSubmission cfg n m sub) (fun _ s' => Env (arrivedIn s₀ m sub) s' ∧
      ((validateDep (arriving s₀ m sub) m (reduceAfter (arriving s₀ m sub) sub.after) ≠ none ∨ validateDep (arriving s₀ m sub) m sub.follow ≠ none) → Act (arrivedIn s₀ m sub) s' m) ∧
      ((reduceAfter (arriving s₀ m sub) sub.after).check s₀.allCompleted (some s₀.allFailed) = true → SelfDue cfg (arrivedIn s₀ m sub) m → Act (arrivedIn s₀ m sub) s' m)) AnyErr := by
  unfold dispatchSubmission
  refine HoareE.emit fun s hs => ?_
  subst hs
  refine HoareE.modS fun s₁ hs₁ => ?_
  subst hs₁
  refine HoareE.ite (fun _ => HoareE.bind (R := fun _ _ => False) (HoareE.throwE fun _ _ => trivial) fun _ _ h => h.elim) fun _ => ?_
  refine HoareE.getS fun s₂ hs₂ => ?_
  have hs₂' : s₂ = arriving s m sub := hs₂
  subst hs₂'
  refine HoareE.ite (fun _ => HoareE.bind (R := fun _ _ => False) (HoareE.throwE fun _ _ => trivial) fun _ _ h => h.elim) fun _ => ?_
  refine HoareE.setJob fun s₃ hs₃ => ?_
  subst hs₃
  refine HoareE.conseq (P := fun x => x = arrivedIn s m sub) (P' := fun x => x = arrivedIn s m sub) ?_ (fun _ h => h) (fun _ _ h => h) (fun _ _ h => h)
  generalize hS : arrivedIn s m sub = S
  have hjS : S.jobs m = some (arrived (arriving s m sub) sub) := by rw [← hS]; exact upd_self _ _ _
  have hnS : Neat S := by
    rw [← hS]
    refine ⟨hn.len, hn.nodup, fun x jx hx hr => ?_⟩
    by_cases hxm : x = m
    · rw [hxm]; exact hq
    · have hx : s.jobs x = some jx := by simpa [arrivedIn, upd, hxm] using hx
      exact hn.gone x jx hx hr
  split
  · refine HoareE.addQueueMap fun st hst => ?_
    subst hst
    refine ((sweepAt (cfg := cfg) n).fail m _ st { st with queueMap := insertSet m st.queueMap } hnS
      ⟨rfl, rfl, rfl, rfl, rfl, rfl, rfl, rfl, rfl, fun x => by simp, fun _ _ => rfl, fun j' hj' => ⟨j', hj', rfl, rfl, rfl⟩⟩).conseq (fun _ h => h) (fun _ s' h => ?_) (fun _ _ h => h)
    exact ⟨h.1.env, fun _ => h.2.2.1, fun _ _ => h.2.2.1⟩
  · rename_i hnone
    have hval : ¬ (validateDep (arriving s m sub) m (reduceAfter (arriving s m sub) sub.after) ≠ none ∨ validateDep (arriving s m sub) m sub.follow ≠ none) := by
      cases h1 : validateDep (arriving s m sub) m (reduceAfter (arriving s m sub) sub.after) with
      | some w => rw [h1] at hnone; cases hnone
      | none =>
        rw [h1] at hnone
        rw [show validateDep (arriving s m sub) m sub.follow = none from hnone]
        simp
    refine HoareE.ite (fun hck => ?_) fun hck => ?_
    · refine HoareE.bind ((sweepAt (cfg := cfg) n).may m S hnS) fun b s₂ h₂ => ?_
      obtain ⟨g, k, ht, hm⟩ := h₂
      have hm := (hm _ hjS).1
      have hn₂ := g.neat hnS
      have hact : SelfDue cfg S m → Act S s₂ m := by
        rintro ⟨j', hj', hd⟩
        rw [hjS] at hj'; cases hj'
        cases b with
        | true => exact ht rfl
        | false => exact hm rfl hd
      have hdone : HoareE (fun s => s = s₂) (Pure.pure () : M Unit) (fun _ s' => Env S s' ∧
          ((validateDep (arriving s m sub) m (reduceAfter (arriving s m sub) sub.after) ≠ none ∨ validateDep (arriving s m sub) m sub.follow ≠ none) → Act S s' m) ∧
          ((reduceAfter (arriving s m sub) sub.after).check s.allCompleted (some s.allFailed) = true → SelfDue cfg S m → Act S s' m)) AnyErr :=
        HoareE.pure fun s' hs' => by subst hs'; exact ⟨g.env, fun h => absurd h hval, fun _ => hact⟩
      cases b with
      | true => exact hdone s₂ rfl
      | false =>
        refine (HoareE.getS fun st hst => ?_ : HoareE (fun s => s = s₂) _ _ _) s₂ rfl
        subst hst
        refine HoareE.ite (fun hna => ?_) fun _ => hdone
        refine (saveUnmet_sweep m st).conseq (fun _ h => h) (fun _ s₃ h₃ => ?_) (fun _ _ h => h)
        exact ⟨g.env.trans h₃.env, fun h => absurd h hval, fun _ hd => (hact hd).later h₃.env⟩
    · refine (saveUnmet_sweep m S).conseq (fun _ h => h) (fun _ s₃ h₃ => ?_) (fun _ _ h => h)
      exact ⟨h₃.env, fun h => absurd h hval, fun h => absurd h hck⟩

/-- A task whose dependencies are invalid or cannot be satisfied any more is answered. -/
theorem dispatchSubmission_says (m : MsgId) (sub : Submission) (s₀ : State)
    (hv : validateDep (arriving s₀ m sub) m (reduceAfter (arriving s₀ m sub) sub.after) ≠ none ∨ validateDep (arriving s₀ m sub) m sub.follow ≠ none) :
    HoareE (fun s => s = s₀) (dispatchSubmission cfg n m sub) (fun _ s' => ∃ why, Obs.fail m why ∈ s'.trace) AnyErr := by
  unfold dispatchSubmission
  refine HoareE.emit fun s hs => ?_
  subst hs
  refine HoareE.modS fun s₁ hs₁ => ?_
  subst hs₁
  refine HoareE.ite (fun _ => HoareE.bind (R := fun _ _ => False) (HoareE.throwE fun _ _ => trivial) fun _ _ h => h.elim) fun _ => ?_
  refine HoareE.getS fun s₂ hs₂ => ?_
  have hs₂' : s₂ = arriving s m sub := hs₂
  subst hs₂'
  refine HoareE.ite (fun _ => HoareE.bind (R := fun _ _ => False) (HoareE.throwE fun _ _ => trivial) fun _ _ h => h.elim) fun _ => ?_
  refine HoareE.setJob fun s₃ hs₃ => ?_
  subst hs₃
  split
  · refine HoareE.addQueueMap fun st hst => ?_
    refine HoareE.atEq fun st' hst' => ?_
    exact (failUnreachable_says m _ st' (by rw [hst']; simp)).conseq (fun _ h => h) (fun _ s' h => ⟨_, h⟩) (fun _ _ h => h)
  · rename_i hnone
    exfalso
    cases h1 : validateDep (arriving s m sub) m (reduceAfter (arriving s m sub) sub.after) with
    | some w => rw [h1] at hnone; cases hnone
    | none =>
      rw [h1] at hnone
      rw [show validateDep (arriving s m sub) m sub.follow = none from hnone, h1] at hv
      simp at hv

end IPP.Sched
