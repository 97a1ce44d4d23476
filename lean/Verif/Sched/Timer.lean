import Verif.Sched.SweepProps

/-!
# Task timeouts: what the functions of the scheduler do to timers (lemmas)
-/
namespace IPP.Sched

variable {cfg : Config} {n : Nat} {T X : List MsgId} {s₀ s s' : State}

/-- `s` comes from `s₀` without touching timers: no task begins to wait (except those in `X`), and only those in `T` are timed out. -/
structure Fr (T X : List MsgId) (s₀ s : State) : Prop where
  timers : s.jobTimers = s₀.jobTimers
  jobs : ∀ x j, s.jobs x = some j → ∃ j₀, s₀.jobs x = some j₀ ∧ j.timeoutId = j₀.timeoutId ∧ j.hasTimeout = j₀.hasTimeout
  ex : ∀ x, s₀.jobs x ≠ none → s.jobs x ≠ none
  qm : ∀ x ∈ s.queueMap, x ∈ s₀.queueMap ∨ x ∈ X
  tmo : ∀ x, Obs.fail x .timeout ∈ s.trace → Obs.fail x .timeout ∈ s₀.trace ∨ x ∈ T
  mono : ∀ o ∈ s₀.trace, o ∈ s.trace

theorem Fr.refl (s : State) : Fr T X s s := ⟨rfl, fun _ j h => ⟨j, h, rfl, rfl⟩, fun _ h => h, fun _ h => Or.inl h, fun _ h => Or.inl h, fun _ h => h⟩

theorem Fr.congr (h : Fr T X s₀ s) (ht : s'.jobTimers = s.jobTimers) (hj : s'.jobs = s.jobs) (hq : ∀ x ∈ s'.queueMap, x ∈ s.queueMap)
    (htr : ∃ tl, s'.trace = s.trace ++ tl ∧ ∀ x, Obs.fail x .timeout ∉ tl) : Fr T X s₀ s' := by
  obtain ⟨tl, htr, hn⟩ := htr
  refine ⟨ht.trans h.timers, hj ▸ h.jobs, hj ▸ h.ex, fun x hx => h.qm x (hq x hx), fun x hx => ?_, fun o ho => by rw [htr]; exact List.mem_append_left _ (h.mono o ho)⟩
  rw [htr] at hx
  rcases List.mem_append.mp hx with hx | hx
  · exact h.tmo x hx
  · exact absurd hx (hn x)

theorem Fr.same (h : Fr T X s₀ s) (ht : s'.jobTimers = s.jobTimers) (hj : s'.jobs = s.jobs) (hq : s'.queueMap = s.queueMap) (htr : s'.trace = s.trace) : Fr T X s₀ s' :=
  h.congr ht hj (fun _ hx => hq ▸ hx) ⟨[], by simp [htr], by simp⟩

theorem Fr.setJob {m : MsgId} {j j' : Job} (h : Fr T X s₀ s) (hj : s.jobs m = some j) (h1 : j'.timeoutId = j.timeoutId) (h2 : j'.hasTimeout = j.hasTimeout) :
    Fr T X s₀ { s with jobs := upd s.jobs m (some j') } := by
  refine ⟨h.timers, fun x jx hx => ?_, fun x hx => ?_, h.qm, h.tmo, h.mono⟩
  · by_cases hxm : x = m
    · subst hxm
      simp only [upd, if_true, Option.some.injEq] at hx
      subst hx
      obtain ⟨j₀, a, b, c⟩ := h.jobs x j hj
      exact ⟨j₀, a, h1.trans b, h2.trans c⟩
    · simp only [upd, hxm, if_false] at hx
      exact h.jobs x jx hx
  · by_cases hxm : x = m
    · subst hxm; simp [upd]
    · simp only [upd, hxm, if_false]; exact h.ex x hx

theorem Fr.drop {m : MsgId} (h : Fr T [m] s₀ s) : Fr T [] s₀ { s with queueMap := s.queueMap.filter (· ≠ m) } := by
  refine ⟨h.timers, h.jobs, h.ex, fun x hx => ?_, h.tmo, h.mono⟩
  obtain ⟨hx, hxm⟩ := List.mem_filter.mp hx
  rcases h.qm x hx with a | a
  · exact Or.inl a
  · simp at hxm
    exact absurd (List.mem_singleton.mp a) hxm

theorem Fr.add {m : MsgId} (h : Fr T [] s₀ s) : Fr T [m] s₀ { s with queueMap := insertSet m s.queueMap } := by
  refine ⟨h.timers, h.jobs, h.ex, fun x hx => ?_, h.tmo, h.mono⟩
  rcases (mem_insertSet _ _ _).mp hx with a | a
  · exact Or.inr (by simp [a])
  · exact (h.qm x a).imp id (fun h => by cases h)

/-- after an exception -/
def FE (T : List MsgId) (s₀ : State) : Err → State → Prop := fun e s => e ≠ .fuel → Fr T [] s₀ s

/-- `x` keeps the frame. -/
def Keeps (T : List MsgId) (s₀ : State) (x : M α) : Prop := HoareE (Fr T [] s₀) x (fun _ => Fr T [] s₀) (FE T s₀)

theorem Keeps.bind {x : M α} {f : α → M β} (hx : Keeps T s₀ x) (hf : ∀ a, Keeps T s₀ (f a)) : Keeps T s₀ (x >>= f) := HoareE.bind hx hf
theorem Keeps.pure (a : α) : Keeps T s₀ (Pure.pure a : M α) := HoareE.pure fun _ h => h
theorem Keeps.throwE (e : Err) : Keeps T s₀ (throwE e : M α) := HoareE.throwE fun _ h _ => h
theorem Keeps.ite {c : Prop} [Decidable c] {x y : M α} (hx : c → Keeps T s₀ x) (hy : ¬ c → Keeps T s₀ y) : Keeps T s₀ (if c then x else y) := HoareE.ite hx hy
theorem Keeps.getS {f : State → M β} (h : ∀ s, Keeps T s₀ (f s)) : Keeps T s₀ (Sched.getS >>= f) :=
  HoareE.getS fun s hs => (h s).at hs
theorem Keeps.lookupE {o : Option α} {f : α → M β} (h : ∀ a, o = some a → Keeps T s₀ (f a)) : Keeps T s₀ (Sched.lookupE o >>= f) :=
  HoareE.lookupE (fun _ _ h _ => h) h
theorem Keeps.modS {g : State → State} {f : Unit → M β} (hg : ∀ s, Fr T [] s₀ s → Fr T [] s₀ (g s)) (h : Keeps T s₀ (f ())) : Keeps T s₀ (Sched.modS g >>= f) :=
  HoareE.modS fun s hs => h.at (hg s hs)
theorem Keeps.modS_last {g : State → State} (hg : ∀ s, Fr T [] s₀ s → Fr T [] s₀ (g s)) : Keeps T s₀ (Sched.modS g) :=
  HoareE.modS_last hg
theorem Keeps.emit_last {o : Obs} (ho : ∀ x, o ≠ .fail x .timeout) : Keeps T s₀ (Sched.emit o) :=
  HoareE.modS_last fun s hs => hs.congr rfl rfl (fun _ h => h) ⟨[o], rfl, fun x hx => ho x (List.mem_singleton.mp hx).symm⟩
theorem Keeps.emit {o : Obs} {f : Unit → M β} (ho : ∀ x, o ≠ .fail x .timeout) (h : Keeps T s₀ (f ())) : Keeps T s₀ (Sched.emit o >>= f) :=
  (Keeps.emit_last ho).bind fun _ => h
/-- fetch a job, change it, and continue -/
theorem Keeps.getJob {m : MsgId} {f : Job → M β}
    (h : ∀ s j, Fr T [] s₀ s → s.jobs m = some j → HoareE (fun x => x = s) (f j) (fun _ => Fr T [] s₀) (FE T s₀)) : Keeps T s₀ (Sched.getJob m >>= f) :=
  HoareE.getJob (fun _ h _ _ => h) h

theorem Keeps.reads {x : M α} (h : Reads x) : Keeps T s₀ x := fun s hs =>
  ((h s).conseq (Q := fun _ => Fr T [] s₀) (E := FE T s₀) (fun _ h => h) (fun _ _ h => h ▸ hs) (fun _ _ h _ => h.2 ▸ hs)) s rfl

theorem addJob_frame (idx : Nat) (s : State) : (addJob idx s).jobTimers = s.jobTimers ∧ (addJob idx s).jobs = s.jobs ∧ (addJob idx s).queueMap = s.queueMap ∧
    (addJob idx s).trace = s.trace := by
  unfold addJob; split <;> exact ⟨rfl, rfl, rfl, rfl⟩

theorem submitTask_keeps (m : MsgId) (is : List Nat) : Keeps T s₀ (submitTask cfg m is) := by
  unfold submitTask
  refine Keeps.getS fun s => ?_
  dsimp only
  split
  · exact Keeps.throwE _
  · split
    · exact Keeps.throwE _
    · refine Keeps.emit (by simp) ?_
      refine Keeps.modS (fun s h => h.same (addJob_frame _ s).1 (addJob_frame _ s).2.1 (addJob_frame _ s).2.2.1 (addJob_frame _ s).2.2.2) ?_
      refine Keeps.lookupE fun _ _ => ?_
      exact Keeps.modS_last fun s h => h.same rfl rfl rfl rfl

theorem removeFromGraph_keeps (m : MsgId) (ms : List MsgId) : Keeps T s₀ (removeFromGraph m ms) := by
  induction ms with
  | nil => exact Keeps.pure _
  | cons d ms ih =>
    unfold removeFromGraph
    refine Keeps.getS fun s => ?_
    dsimp only
    split
    · exact ih
    · exact Keeps.ite (fun _ => Keeps.modS (fun s h => h.same rfl rfl rfl rfl) ih) fun _ => (Keeps.throwE _).bind fun _ => ih

/-- What the recursive functions guarantee. -/
structure FrameAt (cfg : Config) (n : Nat) : Prop where
  fail : ∀ m why T s₀, (why = .timeout → m ∈ T) → HoareE (Fr T [m] s₀) (failUnreachable cfg n m why) (fun _ => Fr T [] s₀) (FE T s₀)
  may : ∀ m T s₀, Keeps T s₀ (maybeRun cfg n m)
  job : ∀ m T s₀, Keeps T s₀ (processJob cfg n m)
  lq : ∀ l T s₀, Keeps T s₀ (loopQueue cfg n l)
  lj : ∀ l T s₀, Keeps T s₀ (loopJobs cfg n l)
  upd : ∀ d T s₀, Keeps T s₀ (updateGraph cfg n d)

theorem frameAt (n : Nat) : FrameAt cfg n := by
  induction n with
  | zero =>
    refine ⟨?_, ?_, ?_, ?_, ?_, ?_⟩ <;> intros
    · unfold failUnreachable; exact HoareE.throwE fun _ _ h => absurd rfl h
    · unfold maybeRun; exact HoareE.throwE fun _ _ h => absurd rfl h
    · unfold processJob; exact HoareE.throwE fun _ _ h => absurd rfl h
    · unfold loopQueue; exact HoareE.throwE fun _ _ h => absurd rfl h
    · unfold loopJobs; exact HoareE.throwE fun _ _ h => absurd rfl h
    · unfold updateGraph; exact HoareE.throwE fun _ _ h => absurd rfl h
  | succ n ih =>
    refine ⟨?_, ?_, ?_, ?_, ?_, ?_⟩
    · intro m why T s₀ hw
      unfold failUnreachable
      refine HoareE.getS fun s hs => ?_
      refine HoareE.ite (fun hm => HoareE.pure fun s' hs' => ?_) fun _ => ?_
      · subst hs'
        refine ⟨hs.timers, hs.jobs, hs.ex, fun x hx => ?_, hs.tmo, hs.mono⟩
        rcases hs.qm x hx with a | a
        · exact Or.inl a
        · rw [List.mem_singleton.mp a] at hx; exact absurd hx hm
      refine HoareE.modS fun s₁ h₁ => ?_
      subst h₁
      have h1 := hs.drop
      refine HoareE.getJob (fun s' h' _ _ => h' ▸ h1) fun s₂ j h₂ hj => ?_
      rw [← h₂] at h1
      refine HoareE.setJob fun s₃ h₃ => ?_
      subst h₃
      have h3 := h1.setJob (j' := { j with removed := true }) hj rfl rfl
      refine HoareE.bind ((removeFromGraph_keeps m _).at h3) fun _ => ?_
      unfold failReply
      refine HoareE.bind (R := fun _ => Fr T [] s₀) ?_ fun _ => ih.upd (some m) T s₀
      refine HoareE.modS fun s₄ h₄ => ?_
      refine HoareE.modS_last fun s₅ h₅ => ?_
      subst h₅
      refine ⟨h₄.timers, h₄.jobs, h₄.ex, h₄.qm, fun x hx => ?_, fun o ho => List.mem_append_left _ (h₄.mono o ho)⟩
      rcases List.mem_append.mp hx with hx | hx
      · exact h₄.tmo x hx
      · have := List.mem_singleton.mp hx
        injection this with h1 h2
        exact Or.inr (h1 ▸ hw h2.symm)
    · intro m T s₀
      unfold maybeRun
      refine Keeps.getS fun s => ?_
      refine Keeps.getJob fun s₁ j hs hj => ?_
      have hsub : ∀ is, Keeps T s₀ (do submitTask cfg m is; return true) := fun is => (submitTask_keeps m is).bind fun _ => Keeps.pure _
      have hfail : Keeps T s₀ (do addQueueMap m; failUnreachable cfg n m .impossible; return false) :=
        HoareE.bind (R := fun _ => Fr T [m] s₀) (HoareE.modS_last fun s h => h.add) fun _ => HoareE.bind (ih.fail m .impossible T s₀ (by simp)) fun _ => Keeps.pure _
      refine HoareE.ite (fun _ => HoareE.pure fun _ h => h ▸ hs) fun _ => ?_
      refine HoareE.ite (fun _ => ?_) fun _ => (hsub []).at hs
      refine HoareE.bind (R := fun is s => Fr T [] s₀ s ∧ s.jobs = s₁.jobs) ?_ fun is s₂ h₂ => ?_
      · exact (filterCanRun_reads j _ s₁).conseq (fun _ h => h) (fun _ _ h => ⟨h ▸ hs, h ▸ rfl⟩) (fun _ _ h _ => h.2 ▸ hs)
      refine (HoareE.ite (fun _ => ?_) fun _ => (hsub is).at h₂.1 : HoareE (fun x => x = s₂) _ _ _) s₂ rfl
      refine HoareE.bind (R := fun b s => s = s₂) ((followImpossible_loc j s₂).conseq (fun _ h => h) (fun _ _ h => h) fun _ s h _ => ?_) fun b => ?_
      · exact h.2 ▸ h₂.1
      refine HoareE.ite (fun _ => hfail.at h₂.1) fun _ => ?_
      refine HoareE.bind (R := fun _ => Fr T [] s₀) ?_ fun b => ?_
      · unfold targetsImpossible
        refine HoareE.ite (fun _ => ?_) fun _ => HoareE.pure fun s h => h ▸ h₂.1
        refine HoareE.setJob fun s h => ?_
        subst h
        refine HoareE.getS fun s' h => ?_
        subst h
        refine HoareE.pure fun s' h => ?_
        subst h
        exact h₂.1.setJob (j := j) (by rw [h₂.2]; exact hj) rfl rfl
      · exact Keeps.ite (fun _ => hfail) fun _ => Keeps.pure _
    · intro m T s₀
      unfold processJob
      refine Keeps.getS fun s => ?_
      refine Keeps.getJob fun s₁ j hs hj => ?_
      refine HoareE.ite (fun _ => HoareE.pure fun _ h => h ▸ hs) fun _ => ?_
      refine HoareE.ite (fun _ => ?_) fun _ => ?_
      · refine (HoareE.bind (((ih.fail m .impossible T s₀ (by simp)).pre fun s h => ?_).at hs) fun _ => Keeps.pure _)
        exact ⟨h.timers, h.jobs, h.ex, fun x hx => (h.qm x hx).imp id (fun h => by cases h), h.tmo, h.mono⟩
      refine HoareE.ite (fun _ => ?_) fun _ => HoareE.pure fun _ h => h ▸ hs
      refine HoareE.bind ((ih.may m T s₀).at hs) fun b => ?_
      refine Keeps.ite (fun _ => ?_) fun _ => Keeps.pure _
      refine Keeps.getS fun s₂ => ?_
      refine Keeps.ite (fun _ => (Keeps.throwE _).bind fun _ => ?_) fun _ => ?_ <;>
      · refine Keeps.modS (fun s h => h.congr rfl rfl (fun x hx => (List.mem_filter.mp hx).1) ⟨[], by simp, by simp⟩) ?_
        refine Keeps.getJob fun s₃ j' h₃ _ => ?_
        refine HoareE.bind ((removeFromGraph_keeps m _).at h₃) fun _ => ?_
        exact Keeps.getS fun _ => Keeps.ite (fun _ => Keeps.pure _) fun _ => Keeps.pure _
    · intro l T s₀
      unfold loopQueue
      refine Keeps.getS fun s => ?_
      split
      · exact Keeps.modS_last fun s h => h.same rfl rfl rfl rfl
      · refine Keeps.modS (fun s h => h.same rfl rfl rfl rfl) ?_
        refine (ih.job _ T s₀).bind fun o => ?_
        cases o with
        | gone => exact ih.lq _ T s₀
        | keep => exact ih.lq _ T s₀
        | stop => exact Keeps.modS_last fun s h => h.same rfl rfl rfl rfl
    · intro l T s₀
      unfold loopJobs
      cases l with
      | nil => exact Keeps.pure _
      | cons m ms =>
        refine (ih.job _ T s₀).bind fun o => ?_
        cases o with
        | gone => exact ih.lj _ T s₀
        | keep => exact ih.lj _ T s₀
        | stop => exact Keeps.pure _
    · intro d T s₀
      unfold updateGraph
      refine Keeps.getS fun s => ?_
      have rest : ∀ msgIds : List MsgId, Keeps T s₀ (if d = none ∨ (cfg.hwm ≠ 0 ∧ s.loads.any (fun l => l = (cfg.hwm : Int) - 1)) then loopQueue cfg n []
          else do
            if msgIds.any (fun m => m ∉ s.queueMap) then throwE .keyError
            loopJobs cfg n (sortByTime (fun m => ((s.jobs m).map Job.timestamp).getD 0) msgIds)) := fun msgIds =>
        Keeps.ite (fun _ => ih.lq _ T s₀) fun _ => Keeps.ite (fun _ => (Keeps.throwE _).bind fun _ => ih.lj _ T s₀) fun _ => ih.lj _ T s₀
      cases d with
      | none => exact rest _
      | some d => exact Keeps.modS (fun s h => h.same rfl rfl rfl rfl) (rest _)

end IPP.Sched
