import Verif.Sched.FailInv
import Verif.Sched.Violations

/-!
# C21: impossible and invalid dependencies are answered with an error
-/
namespace IPP.Sched

/-- The tasks a submission depends on. -/
def Submission.mentions (sub : Submission) : List MsgId := (sub.after.map Dep.ids).getD [] ++ sub.follow.ids

/-- Both dependencies accept successes or failures (the client refuses to send others: `Dependency` raises ValueError). -/
def Submission.Constructible (sub : Submission) : Prop :=
  (∀ a, sub.after = some a → (a.success || a.failure) = true) ∧ (sub.follow.success || sub.follow.failure) = true

/-! ### Lemmas -/

structure SubInv (s : State) : Prop where
  graph : ∀ d, s.graph d ≠ none → ∃ m sub, Obs.submitted m sub ∈ s.trace ∧ d ∈ sub.mentions
  ret : ∀ m, s.retries m ≠ none → ∃ sub, Obs.submitted m sub ∈ s.trace
  rel : ∀ e m ok, Obs.relay e m ok ∈ s.trace → ∃ sub, Obs.submitted m sub ∈ s.trace
  all : ∀ m ∈ s.allIds, ∃ sub, Obs.submitted m sub ∈ s.trace

theorem AfterRel.mentions {d : Dep} {sub : Submission} (h : AfterRel d sub.after) {i : MsgId} (hi : i ∈ d.ids) : i ∈ sub.mentions := by
  rcases h with h | ⟨a, ha, _, _, _, hs, _⟩
  · rw [h] at hi; simp at hi
  · simp only [Submission.mentions, ha]
    exact List.mem_append_left _ (hs i hi)

theorem SubInv.step {s s' : State} (h : SubInv s) (tl : List Obs) (htr : s'.trace = s.trace ++ tl)
    (hg : ∀ d, s'.graph d ≠ none → s.graph d ≠ none ∨ ∃ m sub, Obs.submitted m sub ∈ s.trace ∧ d ∈ sub.mentions)
    (hr : ∀ m, s'.retries m ≠ none → s.retries m ≠ none ∨ ∃ sub, Obs.submitted m sub ∈ s'.trace)
    (hl : ∀ e m ok, Obs.relay e m ok ∈ tl → ∃ sub, Obs.submitted m sub ∈ s.trace)
    (hi : ∀ m ∈ s'.allIds, m ∈ s.allIds ∨ ∃ sub, Obs.submitted m sub ∈ s'.trace) : SubInv s' := by
  have up : ∀ {o}, o ∈ s.trace → o ∈ s'.trace := fun h => by rw [htr]; exact List.mem_append_left _ h
  refine ⟨?_, ?_, ?_, ?_⟩
  · intro d hd
    rcases hg d hd with hd | ⟨m, sub, a, b⟩
    · obtain ⟨m, sub, a, b⟩ := h.graph d hd
      exact ⟨m, sub, up a, b⟩
    · exact ⟨m, sub, up a, b⟩
  · intro m hm
    rcases hr m hm with hm | hm
    · obtain ⟨sub, a⟩ := h.ret m hm
      exact ⟨sub, up a⟩
    · exact hm
  · intro e m ok hm
    rw [htr] at hm
    rcases List.mem_append.mp hm with hm | hm
    · obtain ⟨sub, a⟩ := h.rel e m ok hm
      exact ⟨sub, up a⟩
    · obtain ⟨sub, a⟩ := hl e m ok hm
      exact ⟨sub, up a⟩
  · intro m hm
    rcases hi m hm with hm | hm
    · obtain ⟨sub, a⟩ := h.all m hm
      exact ⟨sub, up a⟩
    · exact hm

@[simp] theorem recvBase_graph {s : State} {o : Obs} {e : Engine} : (recvBase s o e).graph = s.graph := by
  unfold recvBase; dsimp only; split <;> rfl
@[simp] theorem sentState_graph {s : State} {m : MsgId} {i : Nat} {e : Engine} : (sentState s m i e).graph = s.graph := by
  unfold sentState addJob; dsimp only; split <;> split <;> rfl

theorem subInv_closed (cfg : Config) (ev : Event) :
    Closed cfg ev (fun s => (((LoadInv cfg s ∧ JobInv s) ∧ PickInv cfg s) ∧ FailInv s) ∧ SubInv s) := by
  intro s s' hm ⟨hb, h⟩
  refine ⟨failInv_closed cfg ev s s' hm hb, ?_⟩
  obtain ⟨⟨⟨hl, hji⟩, hp⟩, hfi⟩ := hb
  have same : ∀ {s' : State}, Same s s' → SubInv s' := by
    intro s' hs
    refine h.step [] (by simp [hs.trace]) ?_ (by rw [hs.retries]; exact fun _ h => Or.inl h) (by simp) (by rw [hs.allIds]; exact fun _ h => Or.inl h)
    intro d hd
    rcases hs.graph d hd with hd | ⟨m, j, hj, hd⟩
    · exact Or.inl hd
    · right
      obtain ⟨sub, hsub, hfo, _⟩ := hji.job m j hj
      refine ⟨m, sub, hsub, ?_⟩
      rcases hd with hd | hd
      · exact (hfi.job m j sub hj hsub).1.mentions hd
      · exact List.mem_append_right _ (hfo ▸ hd)
  have hreply : ∀ {o e m ok dm}, IsReply ev s o e m ok dm → ∀ e m ok, Obs.relay e m ok ≠ o := by
    intro o e m ok dm ho e' m' ok'
    rcases ho with ⟨rfl, _⟩ | ⟨rfl, _⟩ <;> simp
  have hupd : ∀ (m : MsgId) (x : Option Nat), (x ≠ none → s.retries m ≠ none) → ∀ m', upd s.retries m x m' ≠ none → s.retries m' ≠ none := by
    intro m x hx m' hm'
    simp only [upd] at hm'
    split at hm'
    · rename_i he; rw [he]; exact hx hm'
    · exact hm'
  cases hm with
  | book hs => exact same hs
  | fail s' m why hs hok =>
    exact (same hs).step [.fail m why] rfl (fun _ h => Or.inl h) (fun _ h => Or.inl h) (by simp) (fun _ h => Or.inl h)
  | send m j idx target hj ht hlo hb htg hf ha hc =>
    exact h.step [.send target m] (by simp) (fun d hd => Or.inl (by simpa using hd)) (fun d hd => Or.inl (by simpa using hd)) (by simp) (fun d hd => Or.inl (by simpa using hd))
  | register e hev hfresh => exact h.step [.registered e] rfl (fun _ h => Or.inl h) (fun _ h => Or.inl h) (by simp) (fun _ h => Or.inl h)
  | unregister e idx hev hidx => exact h.step [.unregistered e] rfl (fun _ h => Or.inl h) (fun _ h => Or.inl h) (by simp) (fun _ h => Or.inl h)
  | strand e he => exact h.step [] (by simp) (fun _ h => Or.inl h) (fun _ h => Or.inl h) (by simp) (fun _ h => Or.inl h)
  | submit m sub hev hfresh =>
    refine h.step [.submitted m sub] rfl (fun _ h => Or.inl h) (fun m' hm' => ?_) (by simp) (fun m' hm' => ?_)
    · simp only [upd] at hm'
      split at hm'
      · rename_i he; exact Or.inr ⟨sub, by simp [he]⟩
      · exact Or.inl hm'
    · simp only [mem_insertSet] at hm'
      rcases hm' with rfl | hm'
      · exact Or.inr ⟨sub, by simp⟩
      · exact Or.inl hm'
  | submitJob m sub j hev hfresh hj hjt =>
    refine h.step [.submitted m sub] rfl (fun _ h => Or.inl h) (fun m' hm' => ?_) (by simp) (fun m' hm' => ?_)
    · simp only [upd] at hm'
      split at hm'
      · rename_i he; exact Or.inr ⟨sub, by simp [he]⟩
      · exact Or.inl hm'
    · simp only [mem_insertSet] at hm'
      rcases hm' with rfl | hm'
      · exact Or.inr ⟨sub, by simp⟩
      · exact Or.inl hm'
  | recv e m ok dm o ho =>
    exact h.step [o] (by simp) (fun d hd => Or.inl (by simpa using hd)) (fun d hd => Or.inl (by simpa using hd)) (fun e' m' ok' hm => absurd (by simpa using hm) (hreply ho e' m' ok')) (fun d hd => Or.inl (by simpa using hd))
  | recvDec e m o r ho hr =>
    refine h.step [o] (by simp) (fun d hd => Or.inl (by simpa using hd)) (fun m' hm' => Or.inl (hupd m _ (fun _ => by simp [hr]) m' hm'))
      (fun e' m' ok' hm => absurd (by simpa using hm) (hreply ho e' m' ok')) (fun d hd => Or.inl (by simpa using hd))
  | recvRetry e m o r s' ho hr ht =>
    obtain ⟨p, j, _, _, hj, rfl⟩ := takeBack_some ht
    refine h.step [o, .retry e m .failure] (by simp) (fun d hd => Or.inl (by simpa using hd)) (fun m' hm' => Or.inl (hupd m _ (fun _ => by simp [hr]) m' hm'))
      (fun e' m' ok' hm => absurd (by simpa using hm) (hreply ho e' m' ok')) (fun d hd => Or.inl (by simpa using hd))
  | recvUnmet e m ok o s' ho ht =>
    obtain ⟨p, j, _, _, hj, rfl⟩ := takeBack_some ht
    refine h.step [o, .retry e m .unmet] (by simp) (fun d hd => Or.inl (by simpa using hd)) (fun d hd => Or.inl (by simpa using hd))
      (fun e' m' ok' hm => absurd (by simpa using hm) (hreply ho e' m' ok')) (fun d hd => Or.inl (by simpa using hd))
  | recvRelay e m ok o r ho hr =>
    refine h.step [o, .relay e m ok] (by simp [relayState]) (fun d hd => Or.inl (by simpa [relayState] using hd)) (fun m' hm' => Or.inl (hupd m none (by simp) m' (by simpa [relayState] using hm')))
      (fun e' m' ok' hm => ?_) (fun d hd => Or.inl (by simpa [relayState] using hd))
    simp only [List.mem_cons, List.not_mem_nil, or_false] at hm
    rcases hm with hm | hm
    · exact absurd hm (hreply ho e' m' ok')
    · cases hm
      exact h.ret m (by simp [hr])
  | popPending => exact h.step [] (by simp) (fun _ h => Or.inl h) (fun _ h => Or.inl h) (by simp) (fun _ h => Or.inl h)
  | complete => exact h.step [] (by simp) (fun _ h => Or.inl h) (fun _ h => Or.inl h) (by simp) (fun _ h => Or.inl h)
  | failedBy => exact h.step [] (by simp) (fun _ h => Or.inl h) (fun _ h => Or.inl h) (by simp) (fun _ h => Or.inl h)

theorem run_subInv (cfg : Config) (evs : List Event) (hf : Fresh evs) :
    (((LoadInv cfg (run cfg evs) ∧ JobInv (run cfg evs)) ∧ PickInv cfg (run cfg evs)) ∧ FailInv (run cfg evs)) ∧ SubInv (run cfg evs) := by
  refine run_inv cfg evs hf _ ⟨⟨⟨⟨loadInv_init cfg, jobInv_init⟩, run_pickInv cfg [] ⟨by simp, by simp⟩⟩, ?_⟩, ?_⟩ fun ev _ => subInv_closed cfg ev
  · refine ⟨by simp, by simp, by simp, by simp, ?_⟩
    intro p m why q h
    simp at h
  · exact ⟨by simp, by simp, by simp, by simp⟩

/-- What was observed stays observed. -/
theorem mem_closed (cfg : Config) (ev : Event) (o : Obs) : Closed cfg ev (fun s => o ∈ s.trace) := by
  intro s s' hm h
  cases hm with
  | book hs => rw [hs.trace]; exact h
  | fail s' m why hs hok => exact List.mem_append_left _ (hs.trace ▸ h)
  | send m j idx target hj ht hlo hb htg hf ha hc => simp [h]
  | register e hev hfresh => simp [h]
  | unregister e idx hev hidx => simp [h]
  | strand e he => exact h
  | submit m sub hev hfresh => simp [h]
  | submitJob m sub j hev hfresh hj hjt => simp [h]
  | recv e m ok dm o ho => simp [h]
  | recvDec e m o r ho hr => simp [h]
  | recvRetry e m o r s' ho hr ht =>
    obtain ⟨p, j, _, _, hj, rfl⟩ := takeBack_some ht
    simp [h]
  | recvUnmet e m ok o s' ho ht =>
    obtain ⟨p, j, _, _, hj, rfl⟩ := takeBack_some ht
    simp [h]
  | recvRelay e m ok o r ho hr => simp [relayState, h]
  | popPending => exact h
  | complete => exact h
  | failedBy => exact h

theorem removeFromGraph_absent (m : MsgId) (ms : List MsgId) (s₀ : State) (h : ∀ d ∈ ms, s₀.graph d = none) :
    Hoare (fun s => s = s₀) (removeFromGraph m ms) (fun _ s => s = s₀) (fun _ => False) := by
  induction ms with
  | nil => exact Hoare.pure fun _ h => h
  | cons d ds ih =>
    unfold removeFromGraph
    refine Hoare.getS fun s₁ h₁ => ?_
    subst h₁
    rw [h d (by simp)]
    exact ih fun d hd => h d (List.mem_cons_of_mem _ hd)

/-- `fail_unreachable` answers, if it is not stopped by another task's dependencies. -/
theorem failUnreachable_emits (cfg : Config) (n : Nat) (m : MsgId) (why : Why) (s₀ : State) (j : Job) (hq : m ∈ s₀.queueMap) (hj : s₀.jobs m = some j)
    (hg : ∀ d ∈ j.dependents, s₀.graph d = none) :
    Hoare (fun s => s = s₀) (failUnreachable cfg (n + 1) m why) (fun _ s => Obs.fail m why ∈ s.trace) (fun s => Obs.fail m why ∈ s.trace) := by
  unfold failUnreachable
  refine Hoare.getS fun s₁ h₁ => ?_
  subst h₁
  refine Hoare.ite (fun hn => absurd hq hn) (fun _ => ?_)
  refine Hoare.modS fun s₂ h₂ => ?_
  subst h₂
  refine Hoare.getJob (fun s h hn => ?_) fun s₃ j' h₃ hj' => ?_
  · subst h; rw [show _ = s₂.jobs m from rfl, hj] at hn; cases hn
  · subst h₃
    rw [show _ = s₂.jobs m from rfl, hj] at hj'
    cases hj'
    refine Hoare.modS fun s₄ h₄ => ?_
    subst h₄
    refine Hoare.bind (R := fun _ s => s.trace = s₂.trace) (((removeFromGraph_absent m _ _ ?_).exc fun s h => h.elim).conseq (fun s h => h) (fun _ s h => by rw [h]) (fun s h => h)) fun _ => ?_
    · exact hg
    · refine Hoare.bind (R := fun _ s => Obs.fail m why ∈ s.trace) ?_ fun _ => updateGraph_pres (mem_closed cfg (.jobTimer 0 0) _) _ _
      unfold failReply emit
      exact Hoare.modS fun s h => Hoare.modS_last fun s' h' => by subst h'; simp

theorem mem_dependents {j : Job} {d : MsgId} (h : d ∈ j.dependents) : d ∈ j.after.ids ∨ d ∈ j.follow.ids := by
  simp only [Job.dependents, List.mem_append, List.mem_filter] at h
  rcases h with h | h
  · exact Or.inr h
  · exact Or.inl h.1

/-- a submission that is refused by the validation loop -/
theorem dispatch_emits (cfg : Config) (n : Nat) (m : MsgId) (sub : Submission) (s₀ : State) (hc : sub.Constructible) (why : Why)
    (hg : ∀ d ∈ sub.mentions, s₀.graph d = none)
    (hv : ((validateDep { s₀ with allIds := insertSet m s₀.allIds } m (reduceAfter s₀ sub.after)).orElse
      fun _ => validateDep { s₀ with allIds := insertSet m s₀.allIds } m sub.follow) = some why) :
    Hoare (fun s => s = s₀) (dispatchSubmission cfg (n + 1) m sub) (fun _ s => Obs.fail m why ∈ s.trace) (fun s => Obs.fail m why ∈ s.trace) := by
  unfold dispatchSubmission emit
  refine Hoare.modS fun s₁ h₁ => Hoare.modS fun s₂ h₂ => ?_
  subst h₁ h₂
  dsimp only
  have ha : ((sub.after.map fun (d : Dep) => d.success || d.failure).getD true) = true := by
    cases hsa : sub.after with
    | none => rfl
    | some d => exact hc.1 d hsa
  refine Hoare.ite (fun h => by rw [ha] at h; cases h) fun _ => ?_
  refine Hoare.getS fun s₃ h₃ => ?_
  refine Hoare.ite (fun h => by rw [hc.2] at h; cases h) fun _ => ?_
  refine Hoare.modS fun s₄ h₄ => ?_
  subst h₄ h₃
  have hv' : ((validateDep { s₁ with
        allIds := insertSet m s₁.allIds, trace := s₁.trace ++ [.submitted m sub], retries := upd s₁.retries m (some sub.retries) } m (reduceAfter s₁ sub.after)).orElse
      fun _ => validateDep { s₁ with
        allIds := insertSet m s₁.allIds, trace := s₁.trace ++ [.submitted m sub], retries := upd s₁.retries m (some sub.retries) } m sub.follow) = some why := hv
  split
  · rename_i why' hw
    have hww : some why = some why' := hv'.symm.trans hw
    cases hww
    refine Hoare.modS fun s₅ h₅ => ?_
    subst h₅
    refine failUnreachable_emits cfg n m why _
      (Job.mk sub.targets (reduceAfter s₁ sub.after) sub.follow sub.hasTimeout sub.timestamp false 0 []) ?_ ?_ ?_
    · simp [mem_insertSet]
    · simp only [upd, if_true]; rfl
    · intro d hd
      refine hg d ?_
      rcases mem_dependents hd with hd | hd
      · exact (reduceAfter_rel s₁ sub.after).mentions hd
      · exact List.mem_append_right _ hd
  · rename_i hw
    have hww : some why = none := hv'.symm.trans hw
    cases hww

theorem done_submitted {cfg : Config} {evs : List Event} (hf : Fresh evs) {i : MsgId}
    (h : i ∈ (run cfg evs).allCompleted ∨ i ∈ (run cfg evs).allFailed) : ∃ sub, Obs.submitted i sub ∈ (run cfg evs).trace := by
  obtain ⟨⟨⟨⟨_, hji⟩, _⟩, hfi⟩, hs⟩ := run_subInv cfg evs hf
  rcases h with h | h
  · have := hji.ok i h
    simp only [okIds, List.mem_filterMap] at this
    obtain ⟨o, ho, he⟩ := this
    split at he
    · cases he; exact hs.rel _ _ _ ho
    · cases he
  · have := hji.bad i h
    simp only [failIds, List.mem_filterMap] at this
    obtain ⟨o, ho, he⟩ := this
    split at he
    · cases he; exact hs.rel _ _ _ ho
    · cases he
      obtain ⟨p, q, hpq⟩ := List.append_of_mem ho
      obtain ⟨sub, hsub, _⟩ := hfi.just p _ _ q hpq
      exact ⟨sub, by rw [hpq]; exact List.mem_append_left _ hsub⟩
    · cases he

theorem validateDep_invalid {s : State} {m : MsgId} {d : Dep} {i : MsgId} (hi : i ∈ d.ids) (h : i = m ∨ i ∉ s.allIds) :
    validateDep s m d = some .invalid := by
  unfold validateDep
  rw [if_neg (fun h => by rw [h] at hi; simp at hi), if_pos]
  unfold invalidDep
  rw [Bool.or_eq_true]
  rcases h with rfl | h
  · left; simpa using hi
  · right
    have : i ∈ difference d.ids s.allIds := by simp [difference, hi, h]
    cases hd : difference d.ids s.allIds with
    | nil => rw [hd] at this; simp at this
    | cons => rfl

theorem reduceAfter_keeps {cfg : Config} {evs : List Event} (hf : Fresh evs) {d : Dep} {i : MsgId} (hi : i ∈ d.ids)
    (hnot : ∀ sub', Obs.submitted i sub' ∉ (run cfg evs).trace) (hns : ¬ Satisfied d (okIds (run cfg evs).trace) (failIds (run cfg evs).trace)) :
    i ∈ (reduceAfter (run cfg evs) (some d)).ids := by
  obtain ⟨⟨⟨⟨_, hji⟩, _⟩, hfi⟩, hs⟩ := run_subInv cfg evs hf
  unfold reduceAfter
  dsimp only
  rw [if_neg]
  · have hn1 : i ∉ (run cfg evs).allCompleted := fun h => (done_submitted hf (Or.inl h)).elim hnot
    have hn2 : i ∉ (run cfg evs).allFailed := fun h => (done_submitted hf (Or.inr h)).elim hnot
    unfold reduceIds
    split
    · dsimp only
      split <;> split <;> simp_all [difference]
    · exact hi
  · intro hchk
    rw [check_iff] at hchk
    exact hns (reduceIds_sound (run cfg evs) d _ _ hji.ok hji.bad (hchk.mono hji.ok hji.bad))

/-! ### The theorems -/

/-- C21: a task that depends on itself or on a task nobody has submitted is answered with an error at once (`after` only if it is not
already satisfied without it), provided no earlier task depends on one of the same tasks; without that proviso it may be lost
(`Violations.invalid_dependency_lost`). -/
theorem invalid_answered_partial (cfg : Config) (evs : List Event) (m : MsgId) (sub : Submission) (hf : Fresh (evs ++ [.submit m sub]))
    (hc : sub.Constructible) (d : Dep) (i : MsgId) (hi : i ∈ d.ids)
    (hd : (sub.after = some d ∧ ¬ Satisfied d (okIds (run cfg evs).trace) (failIds (run cfg evs).trace)) ∨ sub.follow = d)
    (hbad : i = m ∨ ∀ sub', Event.submit i sub' ∉ evs)
    (hother : ∀ m' sub', Event.submit m' sub' ∈ evs → ∀ x ∈ sub'.mentions, x ∉ sub.mentions) :
    ∃ why, why ≠ .timeout ∧ Obs.fail m why ∈ (run cfg (evs ++ [.submit m sub])).trace := by
  have hb := run_base cfg evs hf.snoc
  have hfr : ∀ sub, Obs.submitted m sub ∉ (run cfg evs).trace := hf.freshIn hb.1 hb.2
  obtain ⟨⟨⟨⟨_, hji⟩, _⟩, hfi⟩, hs⟩ := run_subInv cfg evs hf.snoc
  have hev : ∀ m' sub', Obs.submitted m' sub' ∈ (run cfg evs).trace → Event.submit m' sub' ∈ evs := fun m' sub' h => hb.2 _ h
  have hnot : ∀ sub', Obs.submitted i sub' ∉ (run cfg evs).trace := by
    rcases hbad with rfl | hbad
    · exact hfr
    · exact fun sub' h => hbad sub' (hev _ _ h)
  have hall : i = m ∨ i ∉ insertSet m (run cfg evs).allIds := by
    by_cases him : i = m
    · exact Or.inl him
    · right
      rw [mem_insertSet]
      rintro (h | h)
      · exact him h
      · obtain ⟨sub', h'⟩ := hs.all i h
        exact hnot sub' h'
  have hg : ∀ x ∈ sub.mentions, (run cfg evs).graph x = none := by
    intro x hx
    cases hgx : (run cfg evs).graph x with
    | none => rfl
    | some l =>
      obtain ⟨m', sub', a, b⟩ := hs.graph x (by simp [hgx])
      exact absurd hx (hother m' sub' (hev _ _ a) x b)
  have hval : ∃ why, why ≠ .timeout ∧ ((validateDep { run cfg evs with allIds := insertSet m (run cfg evs).allIds } m (reduceAfter (run cfg evs) sub.after)).orElse
      fun _ => validateDep { run cfg evs with allIds := insertSet m (run cfg evs).allIds } m sub.follow) = some why := by
    have hnt : ∀ s d, validateDep s m d ≠ some .timeout := by
      intro s d
      unfold validateDep
      split
      · simp
      · split
        · simp
        · split <;> simp
    cases hva : validateDep { run cfg evs with allIds := insertSet m (run cfg evs).allIds } m (reduceAfter (run cfg evs) sub.after) with
    | some why => exact ⟨why, fun h => hnt _ _ (h ▸ hva), rfl⟩
    | none =>
      refine ⟨.invalid, by simp, ?_⟩
      rcases hd with ⟨ha, hns⟩ | hfo
      · exfalso
        have hin : i ∈ (reduceAfter (run cfg evs) sub.after).ids := by
          rw [ha]
          exact reduceAfter_keeps hf.snoc hi hnot hns
        rw [validateDep_invalid hin hall] at hva
        cases hva
      · subst hfo
        exact validateDep_invalid hi hall
  obtain ⟨why, hnt, hval⟩ := hval
  refine ⟨why, hnt, ?_⟩
  rw [run_snoc]
  have hfuel : ∃ n, fuelFor (run cfg evs) = n + 1 := by
    refine ⟨fuelFor (run cfg evs) - 1, ?_⟩
    have : 0 < fuelFor (run cfg evs) := by unfold fuelFor; exact Nat.mul_pos (Nat.mul_pos (by omega) (by omega)) (by omega)
    omega
  obtain ⟨n, hn⟩ := hfuel
  unfold step
  rw [hn]
  exact Hoare.final (dispatch_emits cfg n m sub _ hc why hg hval) rfl

/-! ### Concrete cases -/

private def exFailEvs : List Event := [.register 7, .submit 1 {}, .submit 2 { after := some { ids := [1] } }]

/-- `invalid_answered_partial` on a concrete history: task 3 follows task 99, which does not exist. -/
example : ∃ why, why ≠ .timeout ∧ Obs.fail 3 why ∈ (run exCfg (exFailEvs ++ [.submit 3 { follow := { ids := [99] } }])).trace :=
  invalid_answered_partial exCfg exFailEvs 3 { follow := { ids := [99] } } (by constructor <;> decide) (by constructor <;> simp) { ids := [99] } 99 (by decide)
    (Or.inr rfl) (Or.inr (by simp [exFailEvs]))
    (by
      intro m' sub' h x hx
      simp [exFailEvs] at h
      rcases h with ⟨_, rfl⟩ | ⟨_, rfl⟩
      · simp [Submission.mentions] at hx
      · simp [Submission.mentions] at hx ⊢
        rw [hx]; decide)

/-- `fail_justified` has something to say about this history: task 2 depends on task 1, which fails. -/
example : Obs.fail 2 .impossible ∈ (run exCfg (exFailEvs ++ [.result 7 1 false true])).trace := by decide

end IPP.Sched
