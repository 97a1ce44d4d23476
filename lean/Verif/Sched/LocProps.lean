import Verif.Sched.Loc5
import Verif.Sched.Props

/-!
# C19, C20: where every task is

Vocabulary: `Spec.lean`.  `Orderly`: the histories for which the scheduler keeps track of every task.  Either the default high water mark
(`hwm = 1`) — then a task is never in two places — or no task has dependencies on other tasks (and the scheme returns valid indices, which all
schemes of the code do: `schemes_valid`).  `Violations.lean` shows that neither can be dropped.
-/
namespace IPP.Sched

/-- The scheme returns a valid index. -/
def InRange (cfg : Config) : Prop := ∀ tr l, l ≠ [] → cfg.pick tr l < l.length

/-- No submission of the history has dependencies. -/
def Independent (evs : List Event) : Prop := ∀ m sub, Event.submit m sub ∈ evs → NoDeps sub

/-- See above. -/
def Orderly (cfg : Config) (evs : List Event) : Prop := cfg.hwm = 1 ∨ (Independent evs ∧ InRange cfg)

theorem run_inv_of_orderly {cfg : Config} {evs : List Event} (hf : Fresh evs) (ho : Orderly cfg evs) (hp : Prompt cfg evs) :
    Inv cfg (Independent evs ∧ InRange cfg) (top (Independent evs ∧ InRange cfg) [] []) (run cfg evs) :=
  run_loc ho.symm (fun h => h.2) evs hf (fun h => h.1) hp

/-! ## `Prompt` for a concrete history can be computed -/

def promptFrom (cfg : Config) (p : List Event) : List Event → Bool
  | [] => true
  | ev :: q => (match ev with | .result e m _ _ => decide (m ∈ assigned e (run cfg p).trace) | _ => true) && promptFrom cfg (p ++ [ev]) q

theorem promptFrom_iff (cfg : Config) (p evs : List Event) (h : promptFrom cfg p evs = true) :
    ∀ p' e m ok dm q, evs = p' ++ .result e m ok dm :: q → m ∈ assigned e (run cfg (p ++ p')).trace := by
  induction evs generalizing p with
  | nil => intro p' e m ok dm q hq; simp at hq
  | cons o evs ih =>
    intro p' e m ok dm q hq
    simp only [promptFrom, Bool.and_eq_true] at h
    cases p' with
    | nil =>
      simp only [List.nil_append, List.cons.injEq] at hq
      obtain ⟨rfl, _⟩ := hq
      simpa using h.1
    | cons x p' =>
      simp only [List.cons_append, List.cons.injEq] at hq
      obtain ⟨rfl, hq⟩ := hq
      have := ih (p ++ [o]) h.2 p' e m ok dm q hq
      simpa using this

theorem prompt_of_check {cfg : Config} {evs : List Event} (h : promptFrom cfg [] evs = true) : Prompt cfg evs := by
  intro p e m ok dm q hq
  simpa using promptFrom_iff cfg [] evs h p e m ok dm q hq

theorem exHistory_prompt : Prompt exCfg exHistory := prompt_of_check (by decide)

theorem exHistory_orderly : Orderly exCfg exHistory := Or.inl rfl

/-- hwm = 2, two engines; six tasks without dependencies: one with retries that fails, one refused by an engine, one with a target; one engine dies with two tasks. -/
def exCfg2 : Config := { hwm := 2, pick := fun _ l => leastload l }
def exHistory2 : List Event :=
  [.register 7, .register 8, .submit 1 { retries := 1 }, .submit 2 {}, .submit 3 { targets := [8] }, .submit 4 { retries := 1 }, .submit 5 {}, .submit 6 { targets := [7] },
   .result 8 1 false true, .unregister 7, .result 8 3 true true, .strandTimer 7, .result 8 5 true false]

theorem exHistory2_fresh : Fresh exHistory2 := by unfold Fresh; decide
theorem exHistory2_prompt : Prompt exCfg2 exHistory2 := prompt_of_check (by decide)
theorem exHistory2_independent : Independent exHistory2 := by
  intro m sub h
  simp only [exHistory2, List.mem_cons, Event.submit.injEq, reduceCtorEq, false_or, or_false, List.not_mem_nil] at h
  rcases h with ⟨rfl, rfl⟩ | ⟨rfl, rfl⟩ | ⟨rfl, rfl⟩ | ⟨rfl, rfl⟩ | ⟨rfl, rfl⟩ | ⟨rfl, rfl⟩ <;> exact ⟨(by intro d h; cases h), rfl, rfl⟩
theorem exCfg2_inRange : InRange exCfg2 := fun _ l h => (schemes_valid l h 0 0).1
theorem exHistory2_orderly : Orderly exCfg2 exHistory2 := Or.inr ⟨exHistory2_independent, exCfg2_inRange⟩

/-! ## Prompt engines are faithful -/

def isReceived : Obs → Bool
  | .received .. => true
  | _ => false

/-- The trace is an extension of `tr` without replies of engines. -/
def Quiet (tr : List Obs) (s : State) : Prop := ∃ r, s.trace = tr ++ r ∧ ∀ o ∈ r, isReceived o = false

theorem Quiet.congr {tr : List Obs} {s s' : State} (h : Quiet tr s) (ht : s'.trace = s.trace) : Quiet tr s' := by
  obtain ⟨r, h1, h2⟩ := h
  exact ⟨r, ht ▸ h1, h2⟩

theorem Quiet.emit {tr : List Obs} {s s' : State} {o : Obs} (h : Quiet tr s) (ht : s'.trace = s.trace ++ [o]) (ho : isReceived o = false) : Quiet tr s' := by
  obtain ⟨r, h1, h2⟩ := h
  refine ⟨r ++ [o], by rw [ht, h1]; simp, fun x hx => ?_⟩
  rcases List.mem_append.mp hx with hx | hx
  · exact h2 x hx
  · simp at hx; exact hx ▸ ho

theorem quiet_closed (cfg : Config) (ev : Event) (tr : List Obs) (hev : ∀ e m ok dm, ev ≠ .result e m ok dm) : Closed cfg ev (Quiet tr) := by
  have hr : ∀ {s o e m ok dm}, IsReply ev s o e m ok dm → isReceived o = false := by
    intro s o e m ok dm ho
    rcases ho with ⟨_, h⟩ | ⟨rfl, _⟩
    · exact absurd h (hev _ _ _ _)
    · rfl
  intro s s' hm h
  cases hm with
  | book hs => exact h.congr hs.trace
  | fail s' m why hs hok => exact Quiet.emit (s := s') (h.congr hs.trace) (o := .fail m why) rfl rfl
  | send m j idx target => exact h.emit (o := .send target m) (by simp) rfl
  | register e hev => exact h.emit (o := .registered e) rfl rfl
  | unregister e idx hev hidx => exact h.emit (o := .unregistered e) rfl rfl
  | strand e he => exact h.congr rfl
  | submit m sub hev => exact h.emit (o := .submitted m sub) rfl rfl
  | submitJob m sub j hev => exact h.emit (o := .submitted m sub) rfl rfl
  | recv e m ok dm o ho => exact h.emit (by simp) (hr ho)
  | recvDec e m o r ho => exact h.emit (by simp) (hr ho)
  | recvRetry e m o r s' ho hr' ht =>
    obtain ⟨p, j, _, _, _, rfl⟩ := takeBack_some ht
    exact (h.emit (s' := recvBase s o e) (by simp) (hr ho)).emit (o := .retry e m .failure) rfl rfl
  | recvUnmet e m ok o s' ho ht =>
    obtain ⟨p, j, _, _, _, rfl⟩ := takeBack_some ht
    exact (h.emit (s' := recvBase s o e) (by simp) (hr ho)).emit (o := .retry e m .unmet) rfl rfl
  | recvRelay e m ok o r ho =>
    exact (h.emit (s' := recvBase s o e) (by simp) (hr ho)).emit (o := .relay e m ok) rfl rfl
  | popPending => exact h.congr rfl
  | complete => exact h.congr rfl
  | failedBy => exact h.congr rfl

theorem dispatchResult_quiet (cfg : Config) (n : Nat) (tr : List Obs) (e : Engine) (m : MsgId) (ok dm : Bool) :
    Hoare (Quiet tr) (dispatchResult cfg n e m ok dm) (fun _ => Quiet tr) (Quiet tr) := by
  have hI := quiet_closed cfg (.jobTimer 0 0) tr (by simp)
  have unmet : ∀ c, Hoare (Quiet tr) (handleUnmet cfg n e m c) (fun _ => Quiet tr) (Quiet tr) := by
    intro c s h
    refine handleUnmet_pres hI n e m c s (fun _ => h) (fun s' hs' => ?_) s rfl
    obtain ⟨p, j, _, _, _, rfl⟩ := takeBack_some hs'
    exact h.emit rfl rfl
  have res : Hoare (Quiet tr) (handleResult cfg n e m ok) (fun _ => Quiet tr) (Quiet tr) := by
    intro s h
    exact handleResult_pres hI n e m ok s (h.emit rfl rfl) s rfl
  unfold dispatchResult
  refine Hoare.getS fun s h => ?_
  dsimp only
  have rest : Hoare (Quiet tr) (if dm = true then
        lookupE (s.retries m) >>= fun r =>
          if (!ok) = true ∧ r > 0 then
            modS (fun s => { s with retries := upd s.retries m (some (r - 1)) }) >>= fun _ => handleUnmet cfg n e m .failure
          else
            modS (fun s => { s with retries := upd s.retries m none }) >>= fun _ => handleResult cfg n e m ok
       else handleUnmet cfg n e m .unmet) (fun _ => Quiet tr) (Quiet tr) := by
    refine Hoare.ite (fun _ => ?_) fun _ => unmet _
    refine Hoare.lookupE (fun _ s h => h) fun r hr => ?_
    refine Hoare.ite (fun _ => ?_) fun _ => ?_
    · exact Hoare.modS fun s h => (unmet _).pre fun s' h' => h' ▸ h.congr rfl
    · exact Hoare.modS fun s h => res.pre fun s' h' => h' ▸ h.congr rfl
  split
  · exact rest.pre fun s' h' => h' ▸ h
  · refine Hoare.modS fun s' h' => rest.pre fun s'' h'' => ?_
    subst h'' h'
    exact h.congr rfl

theorem assigned_sublist (e : Engine) (tr : List Obs) : (assigned e tr).Sublist (outstanding e tr) := by
  induction tr using snoc_induction with
  | nil => exact List.Sublist.refl _
  | snoc tr o ih =>
    rw [assigned_snoc, outstanding_snoc]
    cases o with
    | send e' m =>
      dsimp only
      split
      · exact ih.append (List.Sublist.refl _)
      · exact ih
    | received e' m ok dm =>
      dsimp only
      split
      · exact ih.erase m
      · exact ih
    | stranded e' m =>
      dsimp only
      split
      · exact (List.erase_sublist).trans ih
      · exact ih
    | _ => exact ih

theorem Faithful.quiet {tr : List Obs} {s : State} (h : Faithful tr) (hq : Quiet tr s) : Faithful s.trace := by
  obtain ⟨r, h1, h2⟩ := hq
  rw [h1]
  clear h1
  induction r using snoc_induction with
  | nil => simpa using h
  | snoc r o ih =>
    have ih' := ih fun x hx => h2 x (by simp [hx])
    intro p e m ok dm q hq
    rw [← List.append_assoc] at hq
    rcases snoc_split hq with ⟨_, _, h3⟩ | ⟨q', _, hq'⟩
    · have := h2 o (by simp)
      rw [h3] at this
      cases this
    · exact ih' p e m ok dm q' hq'

/-- Engines that answer only what is assigned to them answer only what they were asked. -/
theorem Prompt.faithful {cfg : Config} {evs : List Event} (hf : Fresh evs) (hp : Prompt cfg evs) : Faithful (run cfg evs).trace := by
  induction evs using snoc_induction with
  | nil => intro p e m ok dm q hq; simp [run] at hq
  | snoc evs ev ih =>
    have ih' := ih hf.snoc hp.snoc
    have hb := run_base cfg evs hf.snoc
    rw [run_snoc]
    by_cases hev : ∃ e m ok dm, ev = .result e m ok dm
    · obtain ⟨e, m, ok, dm, rfl⟩ := hev
      have hm := hp evs e m ok dm [] rfl
      have h1 : Faithful ((run cfg evs).trace ++ [.received e m ok dm]) := by
        intro p e' m' ok' dm' q hq
        rcases snoc_split hq with ⟨_, h2, h3⟩ | ⟨q', _, hq'⟩
        · cases h3
          rw [← h2]
          exact (assigned_sublist e _).subset hm
        · exact ih' p e' m' ok' dm' q' hq'
      refine h1.quiet ?_
      refine Hoare.final (P := fun s => s = run cfg evs) (I := Quiet ((run cfg evs).trace ++ [.received e m ok dm])) ?_ rfl
      show Hoare _ (emit _ >>= fun _ => dispatchResult cfg _ e m ok dm) _ _
      unfold emit
      refine Hoare.modS fun s h => (dispatchResult_quiet cfg _ _ e m ok dm).pre fun s' h' => ?_
      subst h' h
      exact ⟨[], by simp, by simp⟩
    · refine ih'.quiet (step_pres (quiet_closed cfg ev _ fun e m ok dm h => hev ⟨e, m, ok, dm, h⟩) _ ⟨[], by simp, by simp⟩ (hf.freshIn hb.1 hb.2))

/-! ## C19 -/

/-- C19: the client gets at most one final reply for each task. -/
theorem at_most_one_reply_partial (cfg : Config) (evs : List Event) (hf : Fresh evs) (ho : Orderly cfg evs) (hp : Prompt cfg evs) (m : MsgId) :
    replies m (run cfg evs).trace ≤ 1 := (run_inv_of_orderly hf ho hp).rep m

/-- C19: a task is on at most one engine at a time, and there once; once the client has its reply it is on none. -/
theorem one_place_partial (cfg : Config) (evs : List Event) (hf : Fresh evs) (ho : Orderly cfg evs) (hp : Prompt cfg evs) (m : MsgId) :
    (∀ e, (assigned e (run cfg evs).trace).count m ≤ 1) ∧
    (∀ e e', m ∈ assigned e (run cfg evs).trace → m ∈ assigned e' (run cfg evs).trace → e = e') ∧
    (∀ e, m ∈ assigned e (run cfg evs).trace → replies m (run cfg evs).trace = 0) := by
  have h := run_inv_of_orderly hf ho hp
  exact ⟨fun e => List.nodup_iff_count.mp (h.nod e) m, h.excl m, fun e he => (h.asg m e he).2.1⟩

theorem NoDeps.wellFormed {sub : Submission} (h : NoDeps sub) :
    ((sub.after.map fun (d : Dep) => d.success || d.failure).getD true) = true ∧ (sub.follow.success || sub.follow.failure) = true := by
  refine ⟨?_, h.2.2⟩
  cases hsa : sub.after with
  | none => rfl
  | some d => simpa using (h.1 d hsa).2

/-- A submission with well-formed dependencies always makes a `Job`. -/
theorem job_exists (cfg : Config) (evs : List Event) (hf : Fresh evs) (m : MsgId) (sub : Submission)
    (hi : ((sub.after.map fun (d : Dep) => d.success || d.failure).getD true) = true ∧ (sub.follow.success || sub.follow.failure) = true)
    (hm : Event.submit m sub ∈ evs) : (run cfg evs).jobs m ≠ none := by
  have keep : ∀ ev, Closed cfg ev (fun s => s.jobs m ≠ none) := by
    have upd_keep : ∀ (f : MsgId → Option Job) x j, f m ≠ none → upd f x (some j) m ≠ none := by
      intro f x j h
      unfold upd
      split
      · simp
      · exact h
    intro ev s s' hmi h
    cases hmi with
    | book hs =>
      intro hn
      have := hs.jobs m
      rw [hn] at this
      cases hj : s.jobs m with
      | none => exact h hj
      | some j => rw [hj] at this; exact this
    | fail s'' m' why hs hok =>
      intro hn
      have := hs.jobs m
      rw [show s''.jobs m = none from hn] at this
      cases hj : s.jobs m with
      | none => exact h hj
      | some j => rw [hj] at this; exact this
    | submitJob m' sub' j hev hfr hj => exact upd_keep _ _ _ h
    | recvRetry e m' o r s' ho hr ht =>
      obtain ⟨p, j, _, _, _, rfl⟩ := takeBack_some ht
      exact upd_keep _ _ _ (by simpa using h)
    | recvUnmet e m' ok o s' ho ht =>
      obtain ⟨p, j, _, _, _, rfl⟩ := takeBack_some ht
      exact upd_keep _ _ _ (by simpa using h)
    | send => simpa using h
    | recv => simpa using h
    | recvDec => simpa using h
    | recvRelay => simpa [relayState] using h
    | _ => exact h
  induction evs using snoc_induction with
  | nil => cases hm
  | snoc evs ev ih =>
    have hb := run_base cfg evs hf.snoc
    have hfr := hf.freshIn hb.1 hb.2
    rw [run_snoc]
    rcases List.mem_append.mp hm with hm | hm
    · exact step_pres (keep ev) _ (ih hf.snoc hm) hfr
    · simp at hm
      subst hm
      refine Hoare.final (P := fun _ => True) (I := fun s => s.jobs m ≠ none) ?_ trivial
      have hI := keep (.submit m sub)
      show Hoare _ (dispatchSubmission cfg _ m sub) _ _
      unfold dispatchSubmission emit setJob addQueueMap
      refine Hoare.modS fun s₀ h₀ => Hoare.modS fun s₁ h₁ => ?_
      refine Hoare.ite (fun hc => by rw [hi.1] at hc; cases hc) fun _ => ?_
      refine Hoare.getS fun s₂ h₂ => ?_
      refine Hoare.ite (fun hc => by simp [hi.2] at hc) fun _ => ?_
      refine Hoare.modS fun s₃ h₃ => ?_
      split
      · rename_i why hwhy
        refine Hoare.modS fun s h => ?_
        refine (failUnreachable_pres hI _ m _).pre fun s' h' => ?_
        subst h' h h₃ h₂
        refine CanFail.intro (by simp [upd]) (validate_failOk (j := Job.mk sub.targets (reduceAfter _ sub.after) sub.follow sub.hasTimeout sub.timestamp false 0 []) ?_ ?_ ?_ ?_ hwhy)
        · simp only [upd, if_true]
        · rfl
        · rfl
        · rfl
      · refine Hoare.ite (fun hchk => ?_) (fun _ => (saveUnmet_pres hI m).pre fun s h => by subst h; simp [upd])
        refine Hoare.bind (R := fun _ s => s.jobs m ≠ none) ((maybeRun_pres hI _ m).pre fun s h => ?_) fun b => ?_
        · subst h
          refine ⟨by simp [upd], Or.inl fun j hj => ?_⟩
          simp only [upd, if_true, Option.some.injEq] at hj
          subst hj h₃ h₂
          exact hchk
        · refine Hoare.ite (fun _ => Hoare.pure fun _ h => h) (fun _ => ?_)
          refine Hoare.getS fun s h => ?_
          exact Hoare.ite (fun _ => (saveUnmet_pres hI m).pre fun s' h' => h' ▸ h) (fun _ => Hoare.pure fun s' h' => h' ▸ h)

/-- No task without dependencies is ever lost (C19, see `task_not_lost_partial`): it was answered (once), or it is on exactly one engine, or it waits in the queue. -/
theorem task_not_lost_independent (cfg : Config) (evs : List Event) (hf : Fresh evs) (hi : Independent evs) (hr : InRange cfg) (hp : Prompt cfg evs)
    (m : MsgId) (sub : Submission) (hm : Event.submit m sub ∈ evs) :
    replies m (run cfg evs).trace = 1 ∨ (∃ e, m ∈ assigned e (run cfg evs).trace) ∨ m ∈ (run cfg evs).queue := by
  have h := run_inv_of_orderly hf (Or.inr ⟨hi, hr⟩) hp
  have hj := job_exists cfg evs hf m sub (hi m sub hm).wellFormed hm
  cases hj' : (run cfg evs).jobs m with
  | none => exact absurd hj' hj
  | some j =>
    by_cases h0 : replies m (run cfg evs).trace = 0
    · rcases h.lost ⟨hi, hr⟩ m j hj' h0 with a | a | a
      · exact Or.inr (Or.inr (by simpa [top] using h.wait ⟨hi, hr⟩ m a))
      · exact Or.inr (Or.inl a)
      · cases a
    · have := h.rep m
      exact Or.inl (by omega)

/-! ## C20 -/

/-- C20: as long as a dead engine has unanswered tasks the handler for its stranded tasks is scheduled. -/
theorem stranded_handler_scheduled (cfg : Config) (evs : List Event) (hf : Fresh evs) (ho : Orderly cfg evs) (hp : Prompt cfg evs)
    (e : Engine) (m : MsgId) (hm : m ∈ assigned e (run cfg evs).trace) (hdead : ¬ Registered e (run cfg evs).trace) :
    e ∈ (run cfg evs).strandTimers := by
  have h := run_inv_of_orderly hf ho hp
  rcases h.tim e (fun hh => by rw [hh] at hm; cases hm) (fun hh => hdead ((registered_iff (run_base cfg evs hf).1 e).mpr hh)) with a | a
  · exact a
  · cases a

/-- C20: when that handler has run, no task is left on the dead engine: each has been failed or taken back. -/
theorem no_task_stranded_partial (cfg : Config) (evs : List Event) (e : Engine) (hf : Fresh (evs ++ [.strandTimer e])) (ho : Orderly cfg evs) (hp : Prompt cfg evs)
    (hdead : ¬ Registered e (run cfg evs).trace) :
    assigned e (run cfg (evs ++ [.strandTimer e])).trace = [] := by
  have h := run_inv_of_orderly hf.snoc ho hp
  rw [run_snoc]
  by_cases he : e ∈ (run cfg evs).strandTimers
  · have hok := run_ok (cfg := cfg) evs
    have hE := enough_fuelFor (run cfg evs) (Nat.le_refl (fuelFor (run cfg evs)))
    have h1 := handleStranded_loc (locAt ho.symm (fun h => h.2) _) e
      ((hE.mono (q' := (run cfg evs).queue.length + (run cfg evs).allIds.length) (by omega) (by omega)).monoL (by omega)) h he hok
    have h2 := h1.final (I := fun s => assigned e s.trace = []) (fun _ _ h => h.2) (fun _ _ h => h.elim) rfl
    have : step cfg (run cfg evs) (.strandTimer e) = (handleStranded cfg (fuelFor (run cfg evs)) e { run cfg evs with strandTimers := (run cfg evs).strandTimers.erase e }).2 := by
      show ((if e ∈ (run cfg evs).strandTimers then (do modS (fun s => { s with strandTimers := s.strandTimers.erase e }); handleStranded cfg (fuelFor (run cfg evs)) e) else pure () : M Unit) (run cfg evs)).2 = _
      rw [if_pos he]
      rfl
    rw [this]
    exact h2
  · have : step cfg (run cfg evs) (.strandTimer e) = run cfg evs := by
      show ((if e ∈ (run cfg evs).strandTimers then (do modS (fun s => { s with strandTimers := s.strandTimers.erase e }); handleStranded cfg (fuelFor (run cfg evs)) e) else pure () : M Unit) (run cfg evs)).2 = _
      rw [if_neg he]
      rfl
    rw [this]
    exact Classical.byContradiction fun hne => he (by
      rcases h.tim e hne (fun hh => hdead ((registered_iff (run_base cfg evs hf.snoc).1 e).mpr hh)) with a | a
      · exact a
      · cases a)


theorem assigned_lost (e : Engine) (m : MsgId) (tr r : List Obs) (hm : m ∈ assigned e tr) (hq : ∀ o ∈ r, isReceived o = false)
    (hn : m ∉ assigned e (tr ++ r)) : Obs.stranded e m ∈ r := by
  induction r using snoc_induction with
  | nil => exact absurd hm (by simpa using hn)
  | snoc r o ih =>
    by_cases h1 : m ∈ assigned e (tr ++ r)
    · rw [← List.append_assoc, assigned_snoc] at hn
      cases o with
      | send e' m' =>
        dsimp only at hn
        split at hn
        · exact absurd (List.mem_append_left _ h1) hn
        · exact absurd h1 hn
      | received => have := hq _ (List.mem_append_right r (List.mem_singleton.mpr rfl)); cases this
      | stranded e' m' =>
        dsimp only at hn
        split at hn
        · rename_i he
          subst he
          by_cases hmm : m = m'
          · subst hmm; simp
          · exact absurd ((List.mem_erase_of_ne hmm).mpr h1) hn
        · exact absurd h1 hn
      | _ => exact absurd h1 hn
    · exact List.mem_append_left _ (ih (fun o ho => hq o (by simp [ho])) h1)

/-- A timer is not a reply. -/
theorem Prompt.timer {cfg : Config} {evs : List Event} (hp : Prompt cfg evs) (e : Engine) : Prompt cfg (evs ++ [.strandTimer e]) := by
  intro p e' m' ok dm q hq
  cases q using snoc_induction with
  | nil =>
    have := List.append_inj_right' hq rfl
    simp at this
  | snoc q' x _ =>
    rw [← List.cons_append, ← List.append_assoc] at hq
    exact hp p e' m' ok dm q' (List.append_inj_left' hq rfl)

/-- See `stranded_task_resolved_partial`. -/
theorem stranded_resolved_aux (cfg : Config) (evs : List Event) (e : Engine) (hf : Fresh (evs ++ [.strandTimer e])) (ho : Orderly cfg evs)
    (hp : Prompt cfg evs) (hdead : ¬ Registered e (run cfg evs).trace) (m : MsgId) (hm : m ∈ assigned e (run cfg evs).trace) (sub : Submission)
    (hs : Obs.submitted m sub ∈ (run cfg evs).trace) :
    failures m (run cfg evs).trace < failures m (run cfg (evs ++ [.strandTimer e])).trace ∧
    (sub.retries < failures m (run cfg (evs ++ [.strandTimer e])).trace → replies m (run cfg (evs ++ [.strandTimer e])).trace = 1) ∧
    ((Event.submit m sub ∈ evs → replies m (run cfg (evs ++ [.strandTimer e])).trace = 1 ∨ (∃ e', m ∈ assigned e' (run cfg (evs ++ [.strandTimer e])).trace) ∨
        m ∈ (run cfg (evs ++ [.strandTimer e])).queue) →
      replies m (run cfg (evs ++ [.strandTimer e])).trace = 1 ∨ m ∈ (run cfg (evs ++ [.strandTimer e])).queue ∨
      ∃ e', e' ≠ e ∧ m ∈ assigned e' (run cfg (evs ++ [.strandTimer e])).trace) := by
  have hnil := no_task_stranded_partial cfg evs e hf ho hp hdead
  have hb := run_base cfg evs hf.snoc
  have hp' := hp.timer e
  have mono : ∀ m' sub', Event.submit m' sub' ∈ evs ++ [Event.strandTimer e] → Event.submit m' sub' ∈ evs := by
    intro m' sub' h
    simpa using h
  have ho' : Orderly cfg (evs ++ [.strandTimer e]) := ho.imp id fun h => ⟨fun m' sub' h' => h.1 m' sub' (mono _ _ h'), h.2⟩
  have hq : Quiet (run cfg evs).trace (run cfg (evs ++ [.strandTimer e])) := by
    rw [run_snoc]
    exact step_pres (quiet_closed cfg (.strandTimer e) _ (by simp)) _ ⟨[], by simp, by simp⟩ (hf.freshIn hb.1 hb.2)
  obtain ⟨r, h1, h2⟩ := hq
  have hst := assigned_lost e m _ r hm h2 (by rw [← h1, hnil]; simp)
  have hs' : Obs.submitted m sub ∈ (run cfg (evs ++ [.strandTimer e])).trace := by rw [h1]; exact List.mem_append_left _ hs
  refine ⟨?_, fun hlt => ?_, fun hnl => ?_⟩
  · rw [h1]
    unfold failures
    rw [List.countP_append]
    exact Nat.lt_add_of_pos_right (List.countP_pos_iff.mpr ⟨_, hst, by simp⟩)
  · have h3 := too_many_failures_relayed cfg _ hf (hp'.faithful hf) m sub hs' hlt
    have h4 := at_most_one_reply_partial cfg _ hf ho' hp' m
    have h5 : relays m (run cfg (evs ++ [.strandTimer e])).trace ≤ replies m (run cfg (evs ++ [.strandTimer e])).trace := by
      unfold relays replies
      refine List.countP_mono_left fun x _ hx => ?_
      cases x <;> simp_all
    omega
  · have hsub : Event.submit m sub ∈ evs := hb.2 _ hs
    rcases hnl hsub with h | ⟨e', h⟩ | h
    · exact Or.inl h
    · refine Or.inr (Or.inr ⟨e', fun hh => ?_, h⟩)
      rw [hh, hnil] at h
      cases h
    · exact Or.inr (Or.inl h)

/-! ## C16 -/

/-- C16: a task is only sent to an engine that is registered at that moment, that is one of its targets if it has targets, that has not already failed or
refused it, and on which its follow dependency is met by tasks that ran there. -/
theorem placement_targets_partial (cfg : Config) (evs : List Event) (hf : Fresh evs) (ho : Orderly cfg evs) (hpr : Prompt cfg evs) (p q : List Obs) (e : Engine) (m : MsgId)
    (hp : (run cfg evs).trace = p ++ .send e m :: q) :
    Registered e p ∧ (∀ c, Obs.retry e m c ∉ p) ∧
    ∃ sub, Obs.submitted m sub ∈ p ∧ (sub.targets = [] ∨ e ∈ sub.targets) ∧ Satisfied sub.follow (okOn e p) (failOn e p) := by
  obtain ⟨h1, h2, sub, h3, h4⟩ := placement_partial cfg evs hf p q e m hp
  exact ⟨h1, h2, sub, h3, (run_inv_of_orderly hf ho hpr).sent p e m q hp sub h3, h4⟩

/-! ## The examples -/

/-- First example, before the timer: engine 7 is dead with task 2 on it; afterwards the failure of task 2 is with the client. -/
example : assigned 7 (run exCfg (exHistory.take 11)).trace = [2] ∧ ¬ Registered 7 (run exCfg (exHistory.take 11)).trace ∧
    7 ∈ (run exCfg (exHistory.take 11)).strandTimers ∧ assigned 7 (run exCfg exHistory).trace = [] ∧ replies 2 (run exCfg exHistory).trace = 1 := by
  unfold Registered; decide

/-- Second example, before the timer: engine 7 is dead with tasks 2 and 4, task 4 has a retry. -/
example : assigned 7 (run exCfg2 (exHistory2.take 11)).trace = [2, 4] ∧ ¬ Registered 7 (run exCfg2 (exHistory2.take 11)).trace := by
  unfold Registered; decide

/-- … after it, 2 is answered and 4 is on engine 8. -/
example : replies 2 (run exCfg2 (exHistory2.take 12)).trace = 1 ∧ assigned 8 (run exCfg2 (exHistory2.take 12)).trace = [5, 4] := by decide

/-- At the end every case occurs: 2, 3 and 6 are answered, 4 is on engine 8, 1 and 5 wait for an engine that has not seen them. -/
example : ([1, 2, 3, 4, 5, 6].map fun m => replies m (run exCfg2 exHistory2).trace) = [0, 1, 1, 0, 0, 1] ∧
    assigned 8 (run exCfg2 exHistory2).trace = [4] ∧ (run exCfg2 exHistory2).queue = [5, 1] := by decide

/-- Task 3 has a target and is sent to it. -/
example : ∃ p q, (run exCfg2 exHistory2).trace = p ++ .send 8 3 :: q ∧ Obs.submitted 3 { targets := [8] } ∈ p :=
  ⟨(run exCfg2 exHistory2).trace.take 7, (run exCfg2 exHistory2).trace.drop 8, by decide, by decide⟩

end IPP.Sched
