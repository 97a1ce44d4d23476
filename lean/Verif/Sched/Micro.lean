import Verif.Sched.Hoare
import Verif.Dependency.Props

/-!
# Micro-steps of the scheduler

Every handler is shown to be a finite sequence of the atomic steps below (with their guards), so that an invariant of the micro-steps is
an invariant of the scheduler.  Proof technique only.
-/
namespace IPP.Sched

/-- A `Job` object after bookkeeping changes: only `removed`, `timeoutId` and (shrinking) `targets` may change. -/
def JobLe (o o' : Option Job) : Prop :=
  match o, o' with
  | none, none => True
  | some j, some j' => j'.after = j.after ∧ j'.follow = j.follow ∧ j'.blacklist = j.blacklist ∧ (∀ t ∈ j'.targets, t ∈ j.targets) ∧
    (∀ t ∈ j.targets, t ∈ j'.targets ∨ t ∈ j.blacklist) ∧ j'.hasTimeout = j.hasTimeout
  | _, _ => False

theorem JobLe.trans {a b c : Option Job} (h : JobLe a b) (h' : JobLe b c) : JobLe a c := by
  cases a <;> cases b <;> cases c <;> simp only [JobLe] at *
  obtain ⟨h1, h2, h3, h4, h5, h6⟩ := h
  obtain ⟨g1, g2, g3, g4, g5, g6⟩ := h'
  refine ⟨g1.trans h1, g2.trans h2, g3.trans h3, fun t ht => h4 t (g4 t ht), fun t ht => ?_, g6.trans h6⟩
  rcases h5 t ht with h | h
  · rcases g5 t h with g | g
    · exact Or.inl g
    · exact Or.inr (h3 ▸ g)
  · exact Or.inr h

theorem JobLe.refl (o : Option Job) : JobLe o o := by
  cases o with
  | none => trivial
  | some j => exact ⟨rfl, rfl, rfl, fun _ h => h, fun _ h => Or.inl h, rfl⟩

/-- `s'` differs from `s` only in the queue, the graph, timers and the like. -/
structure Same (s s' : State) : Prop where
  targets : s'.targets = s.targets
  loads : s'.loads = s.loads
  retries : s'.retries = s.retries
  pending : s'.pending = s.pending
  allCompleted : s'.allCompleted = s.allCompleted
  allFailed : s'.allFailed = s.allFailed
  allIds : s'.allIds = s.allIds
  trace : s'.trace = s.trace
  strandTimers : ∀ e ∈ s'.strandTimers, e ∈ s.strandTimers
  completed : ∀ e c, s'.completed e = some c → s.completed e = some c
  failed : ∀ e c, s'.failed e = some c → s.failed e = some c
  jobs : ∀ m, JobLe (s.jobs m) (s'.jobs m)
  destinations : ∀ m e, s'.destinations m = some e → s.destinations m = some e ∨ ∃ ok, Obs.relay e m ok ∈ s.trace
  jobTimers : ∀ p ∈ s'.jobTimers, p ∈ s.jobTimers ∨ ∃ j, s.jobs p.1 = some j ∧ j.hasTimeout = true
  graph : ∀ d, s'.graph d ≠ none → s.graph d ≠ none ∨ ∃ m j, s.jobs m = some j ∧ (d ∈ j.after.ids ∨ d ∈ j.follow.ids)

theorem Same.trans {s s' s'' : State} (h : Same s s') (h' : Same s' s'') : Same s s'' where
  targets := h'.targets.trans h.targets
  loads := h'.loads.trans h.loads
  retries := h'.retries.trans h.retries
  pending := h'.pending.trans h.pending
  allCompleted := h'.allCompleted.trans h.allCompleted
  allFailed := h'.allFailed.trans h.allFailed
  allIds := h'.allIds.trans h.allIds
  trace := h'.trace.trans h.trace
  strandTimers := fun e he => h.strandTimers e (h'.strandTimers e he)
  completed := fun e c hc => h.completed e c (h'.completed e c hc)
  failed := fun e c hc => h.failed e c (h'.failed e c hc)
  jobs := fun m => (h.jobs m).trans (h'.jobs m)
  destinations := fun m e hd => by
    rcases h'.destinations m e hd with hd | ⟨ok, hd⟩
    · exact h.destinations m e hd
    · exact Or.inr ⟨ok, h.trace ▸ hd⟩
  jobTimers := fun p hp => by
    rcases h'.jobTimers p hp with hp | ⟨j', hj', ht'⟩
    · exact h.jobTimers p hp
    · right
      have := h.jobs p.1
      rw [hj'] at this
      cases hj : s.jobs p.1 with
      | none => rw [hj] at this; exact this.elim
      | some j =>
        rw [hj] at this
        exact ⟨j, rfl, this.2.2.2.2.2 ▸ ht'⟩
  graph := fun d hd => by
    rcases h'.graph d hd with hd | ⟨m, j', hj', hd⟩
    · exact h.graph d hd
    · right
      have := h.jobs m
      rw [hj'] at this
      cases hj : s.jobs m with
      | none => rw [hj] at this; exact this.elim
      | some j =>
        rw [hj] at this
        exact ⟨m, j, hj, this.1 ▸ this.2.1 ▸ hd⟩

/-- Why the scheduler may answer task `m` itself. -/
def FailOk (s : State) (m : MsgId) : Why → Prop
  | .invalid => ∃ j, s.jobs m = some j ∧ ∃ i, (i ∈ j.after.ids ∨ i ∈ j.follow.ids) ∧ (i = m ∨ i ∉ s.allIds)
  | .timeout => ∃ tid, (m, tid) ∈ s.jobTimers
  | .impossible => ∃ j, s.jobs m = some j ∧ (j.after.unreachable s.allCompleted (some s.allFailed) = true ∨
      j.follow.unreachable s.allCompleted (some s.allFailed) = true ∨
      (j.follow.all = true ∧ ∃ a b ea eb, a ∈ j.follow.ids ∧ b ∈ j.follow.ids ∧ s.destinations a = some ea ∧ s.destinations b = some eb ∧ ea ≠ eb) ∨
      (j.targets ≠ [] ∧ ∀ t ∈ j.targets, t ∈ j.blacklist ∨ t ∉ s.targets))

/-- State after a task was sent. -/
def sentState (s : State) (m : MsgId) (idx : Nat) (target : Engine) : State :=
  let s := addJob idx { s with trace := s.trace ++ [.send target m] }
  match s.pending target with
  | none => s
  | some p => { s with pending := upd s.pending target (some (insertSet m p)) }

/-- State after the scheduler answered a task itself. -/
def failState (s : State) (m : MsgId) (why : Why) : State :=
  { s with allDone := insertSet m s.allDone, allFailed := insertSet m s.allFailed, trace := s.trace ++ [.fail m why] }

/-- State after a task was taken back from an engine; `none` for KeyError. -/
def takeBack (s : State) (e : Engine) (m : MsgId) (cause : Cause) : Option State :=
  match s.pending e, s.jobs m with
  | some p, some j =>
    if m ∈ p then
      some { s with
        pending := upd s.pending e (some (p.filter (· ≠ m)))
        jobs := upd s.jobs m (some { j with blacklist := insertSet e j.blacklist })
        trace := s.trace ++ [.retry e m cause] }
    else none
  | _, _ => none

/-- State after a (real or fake) reply was recorded and the load updated. -/
def recvBase (s : State) (o : Obs) (e : Engine) : State :=
  let s := { s with trace := s.trace ++ [o] }
  match s.targets.idxOf? e with
  | none => s
  | some idx => { s with loads := s.loads.modify idx (· - 1) }

/-- State after a reply was relayed. -/
def relayState (s : State) (e : Engine) (m : MsgId) (ok : Bool) : State :=
  { s with retries := upd s.retries m none, trace := s.trace ++ [.relay e m ok] }

/-- `o` records the arrival of a (real, or made up for a dead engine) reply. -/
def IsReply (ev : Event) (s : State) (o : Obs) (e : Engine) (m : MsgId) (ok dm : Bool) : Prop :=
  (o = .received e m ok dm ∧ ev = .result e m ok dm) ∨
  (o = .stranded e m ∧ ok = false ∧ dm = true ∧ ev = .strandTimer e ∧ e ∉ s.targets ∧ ∃ p, s.pending e = some p ∧ m ∈ p)

/-- The index the scheme chose among the candidates: all engines where the job may run (as far as this is known without looking at `follow`). -/
def Chosen (cfg : Config) (s : State) (j : Job) (idx : Nat) : Prop :=
  ∃ cands ls, (ls = cands.map (fun i => s.loads.getD i 0) ∨ (ls = s.loads ∧ cands = List.range s.targets.length)) ∧
    cands[cfg.pick s.trace ls]? = some idx ∧ cands.Pairwise (· < ·) ∧
    (∀ i ∈ cands, i < s.targets.length) ∧
    ∀ i e, s.targets[i]? = some e → (cfg.hwm = 0 ∨ s.loads.getD i 0 < (cfg.hwm : Int)) → e ∉ j.blacklist →
      (j.targets = [] ∨ e ∈ j.targets) → j.follow.ids = [] → i ∈ cands

/-- Atomic steps while event `ev` is handled. -/
inductive Micro (cfg : Config) (ev : Event) : State → State → Prop
  | book {s s'} (h : Same s s') : Micro cfg ev s s'
  | fail (s s' m why) (h : Same s s') (hok : FailOk s m why) : Micro cfg ev s (failState s' m why)
  | send (s m j idx target) (hj : s.jobs m = some j) (ht : s.targets[idx]? = some target)
      (hl : cfg.hwm = 0 ∨ s.loads.getD idx 0 < (cfg.hwm : Int)) (hb : target ∉ j.blacklist)
      (htg : j.targets = [] ∨ target ∈ j.targets)
      (hf : j.follow.ids = [] ∨ ∃ c f, s.completed target = some c ∧ s.failed target = some f ∧ j.follow.check c (some f) = true)
      (ha : j.after.check s.allCompleted (some s.allFailed) = true ∨ ∃ e c, Obs.retry e m c ∈ s.trace)
      (hc : Chosen cfg s j idx) : Micro cfg ev s (sentState s m idx target)
  | register (s e) (hev : ev = .register e) (hfresh : Obs.registered e ∉ s.trace) :
      Micro cfg ev s { s with
        trace := s.trace ++ [.registered e], targets := e :: s.targets, loads := 0 :: s.loads,
        completed := upd s.completed e (some []), failed := upd s.failed e (some []), pending := upd s.pending e (some []) }
  | unregister (s e idx) (hev : ev = .unregister e) (h : s.targets.idxOf? e = some idx) :
      Micro cfg ev s { s with
        trace := s.trace ++ [.unregistered e], targets := s.targets.eraseIdx idx, loads := s.loads.eraseIdx idx }
  | strand (s e) (h : Obs.unregistered e ∈ s.trace) : Micro cfg ev s { s with strandTimers := s.strandTimers ++ [e] }
  | submit (s m sub) (hev : ev = .submit m sub) (hfresh : ∀ sub, Obs.submitted m sub ∉ s.trace) :
      Micro cfg ev s { s with
        trace := s.trace ++ [.submitted m sub], allIds := insertSet m s.allIds, retries := upd s.retries m (some sub.retries) }
  | submitJob (s m sub j) (hev : ev = .submit m sub) (hfresh : ∀ sub, Obs.submitted m sub ∉ s.trace)
      (hj : j.follow = sub.follow ∧ j.targets = sub.targets ∧ j.blacklist = [] ∧ j.after = reduceAfter s sub.after)
      (hjt : j.hasTimeout = sub.hasTimeout) :
      Micro cfg ev s { s with
        trace := s.trace ++ [.submitted m sub], allIds := insertSet m s.allIds, retries := upd s.retries m (some sub.retries), jobs := upd s.jobs m (some j) }
  | recv (s e m ok dm o) (ho : IsReply ev s o e m ok dm)
      (h : dm = true → s.retries m = none) (ht : dm = false → takeBack (recvBase s o e) e m .unmet = none) : Micro cfg ev s (recvBase s o e)
  | recvDec (s e m o r) (ho : IsReply ev s o e m false true)
      (hr : s.retries m = some (r + 1))
      (ht : takeBack { recvBase s o e with retries := upd s.retries m (some r) } e m .failure = none) :
      Micro cfg ev s { recvBase s o e with retries := upd s.retries m (some r) }
  | recvRetry (s e m o r s') (ho : IsReply ev s o e m false true)
      (hr : s.retries m = some (r + 1))
      (ht : takeBack { recvBase s o e with retries := upd s.retries m (some r) } e m .failure = some s') : Micro cfg ev s s'
  | recvUnmet (s e m ok o s') (ho : IsReply ev s o e m ok false) (ht : takeBack (recvBase s o e) e m .unmet = some s') :
      Micro cfg ev s s'
  | recvRelay (s e m ok o r) (ho : IsReply ev s o e m ok true) (hr : s.retries m = some r)
      (hok : ok = true ∨ r = 0) : Micro cfg ev s (relayState (recvBase s o e) e m ok)
  | popPending (s e p p') (hp : s.pending e = some p) (h : ∀ x ∈ p', x ∈ p) :
      Micro cfg ev s { s with pending := upd s.pending e (some p') }
  | complete (s e m c) (hr : Obs.relay e m true ∈ s.trace) (hc : s.completed e = some c) :
      Micro cfg ev s { s with completed := upd s.completed e (some (insertSet m c)), allCompleted := insertSet m s.allCompleted }
  | failedBy (s e m c) (hr : Obs.relay e m false ∈ s.trace) (hc : s.failed e = some c) :
      Micro cfg ev s { s with failed := upd s.failed e (some (insertSet m c)), allFailed := insertSet m s.allFailed }

/-- A predicate preserved by all atomic steps. -/
def Closed (cfg : Config) (ev : Event) (I : State → Prop) : Prop := ∀ s s', Micro cfg ev s s' → I s → I s'

/-- `x` preserves `I`, given `P` at the start. -/
abbrev Pres (I : State → Prop) (P : State → Prop) (x : M α) : Prop := Hoare (fun s => I s ∧ P s) x (fun _ => I) I

section
variable {cfg : Config} {ev : Event} {I : State → Prop} (hI : Closed cfg ev I)

theorem Same.refl (s : State) : Same s s := ⟨rfl, rfl, rfl, rfl, rfl, rfl, rfl, rfl, fun _ h => h, fun _ _ h => h, fun _ _ h => h, fun _ => JobLe.refl _, fun _ _ h => Or.inl h, fun _ h => Or.inl h, fun _ h => Or.inl h⟩

include hI

theorem closed_book {s s' : State} (h : I s) (hs : Same s s') : I s' := hI s s' (.book hs) h

omit hI in
theorem removeFromGraph_book {J : State → Prop} (hJ : ∀ s s', J s → Same s s' → J s') (m : MsgId) (ms : List MsgId) :
    Hoare J (removeFromGraph m ms) (fun _ => J) J := by
  induction ms with
  | nil => exact Hoare.pure fun _ h => h
  | cons d ds ih =>
    unfold removeFromGraph
    refine Hoare.getS fun s₀ h₀ => ?_
    dsimp only
    split
    · exact ih.pre fun s h => h ▸ h₀
    · rename_i l hgl
      refine Hoare.ite (fun _ => ?_) (fun _ => ?_)
      · refine Hoare.modS fun s₁ h₁ => ih.pre fun s h => ?_
        subst h h₁
        refine hJ _ _ h₀ { Same.refl _ with graph := fun d' hd' => Or.inl ?_ }
        simp only [upd] at hd'
        split at hd'
        · rename_i he
          rw [he, hgl]; simp
        · exact hd'
      · exact Hoare.bind (R := fun _ => J) (Hoare.throwE fun s h => h ▸ h₀) fun _ => ih

theorem removeFromGraph_pres (m : MsgId) (ms : List MsgId) : Hoare I (removeFromGraph m ms) (fun _ => I) I :=
  removeFromGraph_book (fun _ _ h hs => closed_book hI h hs) m ms

omit hI in
theorem canRun_spec (j : Job) (s₀ : State) (i : Nat) :
    Hoare (fun s => s = s₀) (canRun cfg j i)
      (fun r s => s = s₀ ∧ (r = true → ∃ target, s₀.targets[i]? = some target ∧ target ∉ j.blacklist ∧
        (j.targets = [] ∨ target ∈ j.targets) ∧
        ∃ c f, s₀.completed target = some c ∧ s₀.failed target = some f ∧ j.follow.check c (some f) = true) ∧
        (r = false → ∀ e, s₀.targets[i]? = some e → (cfg.hwm = 0 ∨ s₀.loads.getD i 0 < (cfg.hwm : Int)) → e ∉ j.blacklist →
          (j.targets = [] ∨ e ∈ j.targets) → j.follow.ids ≠ []))
      (fun s => s = s₀) := by
  unfold canRun
  refine Hoare.getS fun s₁ h₁ => ?_
  subst h₁
  refine Hoare.ite (fun hh => Hoare.pure fun s h => ⟨h, by simp, fun _ e _ hl => ?_⟩) (fun _ => ?_)
  · rcases hl with hl | hl
    · exact absurd hl hh.1
    · rw [hh.2] at hl; exact absurd hl (Int.lt_irrefl _)
  split
  · exact Hoare.throwE fun s h => h
  · rename_i target ht
    refine Hoare.ite (fun hin => Hoare.pure fun s h => ⟨h, by simp, fun _ e he _ hb => ?_⟩) (fun hb => ?_)
    · rw [ht] at he; cases he; exact absurd hin hb
    refine Hoare.ite (fun hin => Hoare.pure fun s h => ⟨h, by simp, fun _ e he _ _ hg => ?_⟩) (fun hg => ?_)
    · rw [ht] at he; cases he
      rcases hg with hg | hg
      · exact absurd hg hin.1
      · exact absurd hg hin.2
    refine Hoare.lookupE (fun _ s h => h) fun c hc => ?_
    refine Hoare.lookupE (fun _ s h => h) fun f hf => ?_
    refine Hoare.pure fun s h => ⟨h, fun hr => ⟨target, ht, hb, ?_, c, f, hc, hf, hr⟩, fun hr _ _ _ _ _ hids => ?_⟩
    · by_cases h1 : j.targets = []
      · exact Or.inl h1
      · exact Or.inr (Classical.byContradiction fun h2 => hg ⟨h1, h2⟩)
    · simp [Dep.check, hids] at hr

omit hI in
theorem filterCanRun_spec (j : Job) (s₀ : State) (is : List Nat) :
    Hoare (fun s => s = s₀) (filterCanRun cfg j is)
      (fun r s => s = s₀ ∧ (∀ i ∈ r, i ∈ is ∧ ∃ target, s₀.targets[i]? = some target ∧ target ∉ j.blacklist ∧
        (j.targets = [] ∨ target ∈ j.targets) ∧
        ∃ c f, s₀.completed target = some c ∧ s₀.failed target = some f ∧ j.follow.check c (some f) = true) ∧
        r.Sublist is ∧
        ∀ i ∈ is, ∀ e, s₀.targets[i]? = some e → (cfg.hwm = 0 ∨ s₀.loads.getD i 0 < (cfg.hwm : Int)) → e ∉ j.blacklist →
          (j.targets = [] ∨ e ∈ j.targets) → j.follow.ids = [] → i ∈ r)
      (fun s => s = s₀) := by
  induction is with
  | nil => exact Hoare.pure fun _ h => ⟨h, by simp, List.Sublist.slnil, by simp⟩
  | cons i is ih =>
    unfold filterCanRun
    refine Hoare.bind (canRun_spec j s₀ i) fun b => ?_
    rintro s ⟨rfl, hb, hb2⟩
    refine Hoare.bind ih (fun rest => ?_) s rfl
    refine Hoare.pure fun s' hr => ⟨hr.1, fun x hx => ?_, ?_, fun x hx e he hl hbl hg hids => ?_⟩
    · have key : b = true ∧ x = i ∨ x ∈ rest := by
        cases b <;> simp at hx <;> simp [hx]
      rcases key with ⟨hb', rfl⟩ | hx
      · exact ⟨by simp, hb hb'⟩
      · exact ⟨List.mem_cons_of_mem _ (hr.2.1 x hx).1, (hr.2.1 x hx).2⟩
    · cases b
      · exact hr.2.2.1.cons i
      · exact hr.2.2.1.cons_cons i
    · rcases List.mem_cons.mp hx with rfl | hx
      · cases b
        · exact absurd hids (hb2 rfl e he hl hbl hg)
        · simp
      · have := hr.2.2.2 x hx e he hl hbl hg hids
        cases b <;> simp [this]

omit hI in
theorem destsOf_same (s₀ : State) (ms : List MsgId) :
    Hoare (fun s => s = s₀) (destsOf ms) (fun r s => s = s₀ ∧ r.Nodup ∧ ∀ e ∈ r, ∃ m ∈ ms, s₀.destinations m = some e) (fun s => s = s₀) := by
  induction ms with
  | nil => exact Hoare.pure fun _ h => ⟨h, List.nodup_nil, by simp⟩
  | cons m ms ih =>
    unfold destsOf
    refine Hoare.getS fun s₁ h₁ => ?_
    subst h₁
    refine Hoare.lookupE (fun _ s h => h) fun d hd => ?_
    refine Hoare.bind ih fun r => Hoare.pure fun s h => ⟨h.1, ?_, fun e he => ?_⟩
    · unfold insertSet
      split
      · exact h.2.1
      · rename_i hn
        rw [List.nodup_append]
        refine ⟨h.2.1, by simp, ?_⟩
        rintro a ha b hb rfl
        simp at hb
        exact hn (hb ▸ ha)
    · have : e = d ∨ e ∈ r := by
        unfold insertSet at he
        split at he
        · exact Or.inr he
        · simp at he; exact he.symm
      rcases this with rfl | he
      · exact ⟨m, by simp, hd⟩
      · obtain ⟨m', hm', h'⟩ := h.2.2 e he
        exact ⟨m', List.mem_cons_of_mem _ hm', h'⟩

omit hI in
theorem followImpossible_same (s₀ : State) (j : Job) :
    Hoare (fun s => s = s₀) (followImpossible j) (fun b s => s = s₀ ∧ (b = true → j.follow.all = true ∧ ∃ a b ea eb,
      a ∈ j.follow.ids ∧ b ∈ j.follow.ids ∧ s₀.destinations a = some ea ∧ s₀.destinations b = some eb ∧ ea ≠ eb)) (fun s => s = s₀) := by
  unfold followImpossible
  refine Hoare.getS fun s₁ h₁ => ?_
  subst h₁
  refine Hoare.ite (fun hall => ?_) (fun _ => Hoare.pure fun _ h => ⟨h, by simp⟩)
  refine Hoare.bind (destsOf_same _ _) fun r => Hoare.pure fun s h => ⟨h.1, fun hr => ⟨hall, ?_⟩⟩
  match r, hr, h.2 with
  | [], hr, _ => simp at hr
  | [_], hr, _ => simp at hr
  | ea :: eb :: r, _, hn =>
    obtain ⟨a, ha, hea⟩ := hn.2 ea (by simp)
    obtain ⟨b, hb, heb⟩ := hn.2 eb (by simp)
    refine ⟨a, b, ea, eb, (List.mem_filter.mp ha).1, (List.mem_filter.mp hb).1, hea, heb, ?_⟩
    have := hn.1
    simp at this
    exact fun h => this.1.1 h

theorem setJob_same {s : State} {m : MsgId} {j j' : Job} (h : I s) (hj : s.jobs m = some j)
    (hle : JobLe (some j) (some j')) : I { s with jobs := upd s.jobs m (some j') } := by
  refine closed_book hI h { Same.refl s with jobs := fun m' => ?_ }
  by_cases hm : m' = m
  · subst hm; simp only [upd, if_pos, hj]; exact hle
  · simp only [upd, hm, if_false]; exact JobLe.refl _

/-- `I` held a moment ago (up to bookkeeping), and `m` could be failed then. -/
def CanFail (I : State → Prop) (m : MsgId) (why : Why) (s : State) : Prop := ∃ s₀, I s₀ ∧ Same s₀ s ∧ FailOk s₀ m why

omit hI in
theorem CanFail.book {s s' : State} {m : MsgId} {why : Why} (h : CanFail I m why s) (hs : Same s s') : CanFail I m why s' := by
  obtain ⟨s₀, a, b, c⟩ := h
  exact ⟨s₀, a, b.trans hs, c⟩

theorem CanFail.inv {s : State} {m : MsgId} {why : Why} (h : CanFail I m why s) : I s := by
  obtain ⟨s₀, a, b, c⟩ := h
  exact closed_book hI a b

omit hI in
theorem CanFail.intro {s : State} {m : MsgId} {why : Why} (h : I s) (hf : FailOk s m why) : CanFail I m why s := ⟨s, h, Same.refl _, hf⟩

omit hI in
theorem same_setJob {s : State} {m : MsgId} {j j' : Job} (hj : s.jobs m = some j)
    (hle : JobLe (some j) (some j')) : Same s { s with jobs := upd s.jobs m (some j') } := by
  refine { Same.refl s with jobs := fun m' => ?_ }
  by_cases hm : m' = m
  · subst hm; simp only [upd, if_pos, hj]; exact hle
  · simp only [upd, hm, if_false]; exact JobLe.refl _

theorem targetsImpossible_pres (m : MsgId) (j : Job) :
    Hoare (fun s => I s ∧ s.jobs m = some j) (targetsImpossible m j) (fun b s => I s ∧ (b = true → CanFail I m .impossible s)) I := by
  unfold targetsImpossible
  refine Hoare.ite (fun hne => ?_) (fun _ => Hoare.pure fun _ h => ⟨h.1, by simp⟩)
  refine Hoare.modS fun s h => ?_
  refine Hoare.getS fun s₁ h₁ => Hoare.pure fun s₂ h₂ => ?_
  subst h₂ h₁
  have hsame := same_setJob (j' := { j with targets := j.targets.filter (fun e => e ∉ j.blacklist) }) h.2 ⟨rfl, rfl, rfl, fun t ht => (List.mem_filter.mp ht).1, fun t ht => by
    by_cases hb : t ∈ j.blacklist
    · exact Or.inr hb
    · exact Or.inl (List.mem_filter.mpr ⟨ht, by simpa using hb⟩), rfl⟩
  refine ⟨closed_book hI h.1 hsame, fun hb => ⟨s, h.1, hsame, j, h.2, Or.inr (Or.inr (Or.inr ⟨hne, fun t ht => ?_⟩))⟩⟩
  by_cases hbl : t ∈ j.blacklist
  · exact Or.inl hbl
  · right
    intro htt
    have hmem : t ∈ (j.targets.filter (fun e => e ∉ j.blacklist)).filter (fun e => e ∈ s.targets) := by simp [ht, hbl, htt]
    simp only [decide_eq_true_eq] at hb
    rcases hb with hb | hb
    · rw [hb] at hmem; simp at hmem
    · have hb' : List.filter (fun e => e ∈ s.targets) (j.targets.filter (fun e => e ∉ j.blacklist)) = [] := hb
      rw [hb'] at hmem; simp at hmem

theorem failReply_pres (m : MsgId) (why : Why) : Hoare (CanFail I m why) (failReply m why) (fun _ => I) I := by
  unfold failReply emit
  refine Hoare.modS fun s h => Hoare.modS_last fun s' h' => ?_
  subst h'
  obtain ⟨s₀, a, b, c⟩ := h
  exact hI _ _ (.fail s₀ s m why b c) a

/-- Is `m` allowed to be sent as far as time is concerned? -/
def AfterOk (s : State) (m : MsgId) : Prop :=
  (∀ j, s.jobs m = some j → j.after.check s.allCompleted (some s.allFailed) = true) ∨ ∃ e c, Obs.retry e m c ∈ s.trace

omit hI in
theorem mem_available {s : State} {i : Nat} (h : i ∈ availableEngines cfg s) :
    cfg.hwm = 0 ∨ s.loads.getD i 0 < (cfg.hwm : Int) := by
  unfold availableEngines at h
  split at h
  · exact Or.inl ‹_›
  · exact Or.inr (by simpa using (List.mem_filter.mp h).2)

omit hI in
theorem available_sorted {s : State} : (availableEngines cfg s).Pairwise (· < ·) := by
  unfold availableEngines
  split
  · exact List.pairwise_lt_range
  · exact List.pairwise_lt_range.filter _

omit hI in
theorem available_complete {s : State} {i : Nat} {e : Engine} (h : s.targets[i]? = some e)
    (hl : cfg.hwm = 0 ∨ s.loads.getD i 0 < (cfg.hwm : Int)) : i ∈ availableEngines cfg s := by
  obtain ⟨hlt, _⟩ := List.getElem?_eq_some_iff.mp h
  unfold availableEngines
  split
  · simpa using hlt
  · rcases hl with hl | hl
    · exact absurd hl ‹_›
    · exact List.mem_filter.mpr ⟨by simpa using hlt, by simpa using hl⟩

theorem submitTask_pres (m : MsgId) (j : Job) (s₀ : State) (indices : List Nat) (h₀ : I s₀) (ha : AfterOk s₀ m) (hj : s₀.jobs m = some j)
    (hidx : (∀ i ∈ indices, (cfg.hwm = 0 ∨ s₀.loads.getD i 0 < (cfg.hwm : Int)) ∧
      ∃ target, s₀.targets[i]? = some target ∧ target ∉ j.blacklist ∧
        (j.targets = [] ∨ target ∈ j.targets) ∧
        ∃ c f, s₀.completed target = some c ∧ s₀.failed target = some f ∧ j.follow.check c (some f) = true))
    (hsort : indices.Pairwise (· < ·))
    (hall : indices ≠ [] → ∀ i e, s₀.targets[i]? = some e → (cfg.hwm = 0 ∨ s₀.loads.getD i 0 < (cfg.hwm : Int)) → e ∉ j.blacklist →
      (j.targets = [] ∨ e ∈ j.targets) → j.follow.ids = [] → i ∈ indices)
    (hnone : indices = [] → cfg.hwm = 0 ∧ j.follow.ids = [] ∧ j.targets = [] ∧ j.blacklist = []) :
    Hoare (fun s => s = s₀) (submitTask cfg m indices) (fun _ => I) I := by
  unfold submitTask
  refine Hoare.getS fun s₁ h₁ => ?_
  subst h₁
  dsimp only
  split
  · exact Hoare.throwE fun s h => h ▸ h₀
  · rename_i idx hidx'
    split
    · exact Hoare.throwE fun s h => h ▸ h₀
    · rename_i target ht
      have hmicro : Micro cfg ev s₁ (sentState s₁ m idx target) := by
        have ha' : j.after.check s₁.allCompleted (some s₁.allFailed) = true ∨ ∃ e c, Obs.retry e m c ∈ s₁.trace :=
          ha.imp (fun h => h j hj) id
        by_cases hi : indices = []
        · obtain ⟨h1, h2, h3, h4⟩ := hnone hi
          refine .send s₁ m j idx target hj ht (Or.inl h1) (by simp [h4]) (Or.inl h3) (Or.inl h2) ha'
            ⟨List.range s₁.targets.length, s₁.loads, Or.inr ⟨rfl, rfl⟩, ?_, List.pairwise_lt_range, by simp, fun i e hi _ _ _ _ => ?_⟩
          · rw [hi] at hidx'
            simp at hidx'
            rw [hidx']
            obtain ⟨hlt, _⟩ := List.getElem?_eq_some_iff.mp ht
            simp [hlt]
          · obtain ⟨hlt, _⟩ := List.getElem?_eq_some_iff.mp hi
            simp [hlt]
        · rw [if_pos hi] at hidx'
          obtain ⟨hl, t, ht', hb, hg, hf⟩ := hidx idx (List.mem_of_getElem? hidx')
          rw [ht] at ht'
          cases ht'
          refine .send s₁ m j idx target hj ht hl hb hg (Or.inr hf) ha' ⟨indices, _, Or.inl rfl, ?_, hsort, ?_, hall hi⟩
          · rw [if_pos hi] at hidx'
            exact hidx'
          · intro i hi
            obtain ⟨_, t, ht, _⟩ := hidx i hi
            exact (List.getElem?_eq_some_iff.mp ht).1
      have hI' := hI _ _ hmicro h₀
      unfold emit
      refine Hoare.modS fun s₂ h₂ => Hoare.modS fun s₃ h₃ => ?_
      subst h₂ h₃
      have hp : ∀ (s : State), (addJob idx s).pending = s.pending := by
        intro s; unfold addJob; split <;> rfl
      refine Hoare.lookupE (fun hn s h => ?_) fun p hp' => Hoare.modS_last fun s h => ?_
      · subst h
        simp only [sentState, hp, hn] at hI'
        exact hI'
      · subst h
        simp only [sentState, hp, hp'] at hI'
        simpa only [hp] using hI'

/-- All the mutually recursive functions preserve `I`. -/
def MutualPres (cfg : Config) (I : State → Prop) (n : Nat) : Prop :=
  (∀ m why, Hoare (CanFail I m why) (failUnreachable cfg n m why) (fun _ => I) I) ∧
  (∀ m, Hoare (fun s => I s ∧ AfterOk s m) (maybeRun cfg n m) (fun _ => I) I) ∧
  (∀ m, Hoare I (processJob cfg n m) (fun _ => I) I) ∧
  (∀ l, Hoare I (loopQueue cfg n l) (fun _ => I) I) ∧
  (∀ l, Hoare I (loopJobs cfg n l) (fun _ => I) I) ∧
  (∀ d, Hoare I (updateGraph cfg n d) (fun _ => I) I)

theorem mutual_pres (n : Nat) : MutualPres cfg I n := by
  induction n with
  | zero =>
    refine ⟨?_, ?_, ?_, ?_, ?_, ?_⟩ <;> intros
    · unfold failUnreachable; exact Hoare.throwE fun s h => h.inv hI
    · unfold maybeRun; exact Hoare.throwE fun s h => h.1
    · unfold processJob; exact Hoare.throwE fun s h => h
    · unfold loopQueue; exact Hoare.throwE fun s h => h
    · unfold loopJobs; exact Hoare.throwE fun s h => h
    · unfold updateGraph; exact Hoare.throwE fun s h => h
  | succ n ih =>
    obtain ⟨ih1, ih2, ih3, ih4, ih5, ih6⟩ := ih
    refine ⟨?_, ?_, ?_, ?_, ?_, ?_⟩
    · -- failUnreachable
      intro m why
      unfold failUnreachable
      refine Hoare.getS fun s₀ h₀ => ?_
      refine Hoare.ite (fun _ => Hoare.pure fun s h => h ▸ h₀.inv hI) (fun _ => ?_)
      refine Hoare.modS fun s₁ h₁ => ?_
      have hI1 : CanFail I m why { s₀ with queueMap := s₀.queueMap.filter (· ≠ m) } := h₀.book { Same.refl _ with }
      subst h₁
      refine Hoare.getJob (fun s h _ => h ▸ hI1.inv hI) fun s₂ j h₂ hj => ?_
      refine Hoare.modS fun s₃ h₃ => ?_
      subst h₃ h₂
      have hI2 := hI1.book (same_setJob (j' := { j with removed := true }) hj ⟨rfl, rfl, rfl, fun _ h => h, fun _ h => Or.inl h, rfl⟩)
      refine Hoare.bind (R := fun _ => CanFail I m why)
        (((removeFromGraph_book (J := CanFail I m why) (fun _ _ h hs => h.book hs) m _).exc fun s h => h.inv hI).pre fun s h => h ▸ hI2) fun _ => ?_
      exact Hoare.bind (failReply_pres hI m why) fun _ => ih6 _
    · -- maybeRun
      intro m
      unfold maybeRun
      refine Hoare.getS fun s₀ h₀ => ?_
      refine Hoare.getJob (fun s h _ => h ▸ h₀.1) fun s₁ j h₁ hj => ?_
      subst h₁
      dsimp only
      have hfail : ∀ x : M Bool, Hoare I x (fun _ => I) I →
          Hoare (CanFail I m .impossible) (addQueueMap m >>= fun _ => failUnreachable cfg n m .impossible >>= fun _ => x) (fun _ => I) I := by
        intro x hx
        refine Hoare.modS fun s h => ?_
        refine Hoare.bind (R := fun _ => I) ((ih1 m .impossible).pre fun s' h' => ?_) fun _ => hx
        subst h'
        exact h.book { Same.refl _ with }
      refine Hoare.ite (fun _ => Hoare.pure fun s h => h ▸ h₀.1) (fun _ => ?_)
      refine Hoare.ite (fun _ => ?_) (fun hno => ?_)
      · refine Hoare.bind ((filterCanRun_spec j s₁ _).exc fun s h => h ▸ h₀.1) fun indices => ?_
        rintro s ⟨rfl, hidx⟩
        refine (?_ : Hoare (fun s' => s' = s) _ _ _) s rfl
        refine Hoare.ite (fun _ => ?_) (fun hne => ?_)
        · refine Hoare.bind ((followImpossible_same s j).exc fun s h => h ▸ h₀.1) fun b => ?_
          refine Hoare.ite (fun hb => (hfail _ (Hoare.pure fun s h => h)).pre fun s h => ?_) (fun _ => ?_)
          · obtain ⟨rfl, h⟩ := h
            exact .intro h₀.1 ⟨j, hj, Or.inr (Or.inr (Or.inl (h hb)))⟩
          refine Hoare.bind ((targetsImpossible_pres hI m j).pre fun s h => h.1 ▸ ⟨h₀.1, hj⟩) fun b => ?_
          refine Hoare.ite (fun hb => (hfail _ (Hoare.pure fun s h => h)).pre fun s h => h.2 hb) (fun _ => Hoare.pure fun s h => h.1)
        · refine Hoare.bind (R := fun _ => I) (submitTask_pres hI m j s indices h₀.1 h₀.2 hj ?_ ?_ ?_ (fun h => absurd h hne)) fun _ =>
            Hoare.pure fun s h => h
          · exact fun i hi => ⟨mem_available (hidx.1 i hi).1, (hidx.1 i hi).2⟩
          · exact (available_sorted (cfg := cfg)).sublist hidx.2.1
          · exact fun _ i e he hl => hidx.2.2 i (available_complete he hl) e he hl
      · refine Hoare.bind (R := fun _ => I) (submitTask_pres hI m j s₁ [] h₀.1 h₀.2 hj (by simp) List.Pairwise.nil (by simp) (fun _ => ?_)) fun _ =>
            Hoare.pure fun s h => h
        simp only [not_or, Classical.not_not] at hno
        exact ⟨hno.2.2.2, hno.1, hno.2.1, hno.2.2.1⟩
    · -- processJob
      intro m
      unfold processJob
      refine Hoare.getS fun s₀ h₀ => ?_
      refine Hoare.getJob (fun s h _ => h ▸ h₀) fun s₁ j h₁ hj => ?_
      subst h₁
      refine Hoare.ite (fun _ => Hoare.pure fun s h => h ▸ h₀) (fun _ => ?_)
      refine Hoare.ite (fun hun => ?_) (fun _ => ?_)
      · refine Hoare.bind (R := fun _ => I) ((ih1 m .impossible).pre fun s h => h ▸ .intro h₀ ⟨j, hj, ?_⟩) fun _ => Hoare.pure fun s h => h
        rw [Bool.or_eq_true] at hun
        exact hun.imp id Or.inl
      · refine Hoare.ite (fun ha => ?_) (fun _ => Hoare.pure fun s h => h ▸ h₀)
        refine Hoare.bind (R := fun _ => I) ((ih2 m).pre fun s h => h ▸ ⟨h₀, Or.inl fun j' hj' => ?_⟩) fun b => ?_
        · rw [hj] at hj'; cases hj'; exact ha
        refine Hoare.ite (fun _ => ?_) (fun _ => Hoare.pure fun s h => h)
        refine Hoare.getS fun s₂ h₂ => ?_
        dsimp only
        refine Hoare.ite (fun _ => ?_) (fun _ => ?_)
        · exact Hoare.bind (R := fun _ _ => False) (Hoare.throwE fun s h => h ▸ h₂) fun _ _ h => h.elim
        · refine Hoare.modS fun s₃ h₃ => ?_
          subst h₃
          have hI3 : I { s₃ with queueMap := s₃.queueMap.filter (· ≠ m) } := closed_book hI h₂ { Same.refl _ with }
          refine Hoare.getJob (fun s h _ => h ▸ hI3) fun s₄ j' h₄ _ => ?_
          refine Hoare.bind (R := fun _ => I) ((removeFromGraph_pres hI m _).pre fun s h => h ▸ h₄ ▸ hI3) fun _ => ?_
          refine Hoare.getS fun s₅ h₅ => ?_
          exact Hoare.ite (fun _ => Hoare.pure fun s h => h ▸ h₅) (fun _ => Hoare.pure fun s h => h ▸ h₅)
    · -- loopQueue
      intro l
      unfold loopQueue
      refine Hoare.getS fun s₀ h₀ => ?_
      have hend : ∀ l : List MsgId, Hoare I (modS fun s => { s with queue := l.reverse ++ s.queue }) (fun _ => I) I := fun l =>
        Hoare.modS_last fun s h => closed_book hI h { Same.refl _ with }
      split
      · exact (hend l).pre fun s h => h ▸ h₀
      · rename_i m q hq
        refine Hoare.modS fun s₁ h₁ => ?_
        subst h₁
        have hI1 : I { s₁ with queue := q } := closed_book hI h₀ { Same.refl _ with }
        refine Hoare.bind (R := fun _ => I) ((ih3 m).pre fun s h => h ▸ hI1) fun o => ?_
        cases o
        · exact ih4 _
        · exact ih4 _
        · exact hend l
    · -- loopJobs
      intro l
      unfold loopJobs
      cases l with
      | nil => exact Hoare.pure fun s h => h
      | cons m ms =>
        refine Hoare.bind (R := fun _ => I) (ih3 m) fun o => ?_
        cases o
        · exact ih5 _
        · exact ih5 _
        · exact Hoare.pure fun s h => h
    · -- updateGraph
      intro d
      unfold updateGraph
      refine Hoare.getS fun s₀ h₀ => ?_
      dsimp only
      have hrest : Hoare I (if d = none ∨ (cfg.hwm ≠ 0 ∧ s₀.loads.any (fun l => l = (cfg.hwm : Int) - 1)) then
          loopQueue cfg n []
        else do
          if (match d with | some d => (s₀.graph d).getD [] | none => []).any (fun m => m ∉ s₀.queueMap) then throwE .keyError
          loopJobs cfg n (sortByTime (fun m => ((s₀.jobs m).map Job.timestamp).getD 0)
            (match d with | some d => (s₀.graph d).getD [] | none => []))) (fun _ => I) I := by
        refine Hoare.ite (fun _ => ih4 _) (fun _ => ?_)
        dsimp only
        refine Hoare.ite (fun _ => ?_) (fun _ => ih5 _)
        exact Hoare.bind (R := fun _ _ => False) (Hoare.throwE fun s h => h) fun _ _ h => h.elim
      cases d with
      | none => exact hrest.pre fun s h => h ▸ h₀
      | some d =>
        refine Hoare.modS fun s₁ h₁ => ?_
        subst h₁
        exact hrest.pre fun s h => h ▸ closed_book hI h₀ { Same.refl _ with graph := fun d' hd' => Or.inl (by
          simp only [upd] at hd'
          split at hd'
          · exact absurd rfl hd'
          · exact hd') }

theorem updateGraph_pres (n : Nat) (d : Option MsgId) : Hoare I (updateGraph cfg n d) (fun _ => I) I := (mutual_pres hI n).2.2.2.2.2 d
theorem maybeRun_pres (n : Nat) (m : MsgId) : Hoare (fun s => I s ∧ AfterOk s m) (maybeRun cfg n m) (fun _ => I) I :=
  (mutual_pres hI n).2.1 m
theorem failUnreachable_pres (n : Nat) (m : MsgId) (why : Why) : Hoare (CanFail I m why) (failUnreachable cfg n m why) (fun _ => I) I :=
  (mutual_pres hI n).1 m why

theorem addToGraph_pres (m : MsgId) (j : Job) (ds : List MsgId) (hds : ∀ d ∈ ds, d ∈ j.after.ids ∨ d ∈ j.follow.ids) :
    Hoare (fun s => I s ∧ s.jobs m = some j) (addToGraph m ds) (fun _ s => I s ∧ s.jobs m = some j) I := by
  induction ds with
  | nil => exact Hoare.pure fun _ h => h
  | cons d ds ih =>
    unfold addToGraph
    refine Hoare.modS fun s h => (ih fun d hd => hds d (List.mem_cons_of_mem _ hd)).pre fun s' h' => ?_
    subst h'
    refine ⟨closed_book hI h.1 { Same.refl _ with graph := fun d' hd' => ?_ }, h.2⟩
    simp only [upd] at hd'
    split at hd'
    · rename_i he
      exact Or.inr ⟨m, j, h.2, he ▸ hds d (by simp)⟩
    · exact Or.inl hd'

theorem saveUnmet_pres (m : MsgId) : Hoare I (saveUnmet m) (fun _ => I) I := by
  unfold saveUnmet
  refine Hoare.getJob (fun s h _ => h) fun s₀ j h₀ hj => ?_
  refine Hoare.modS fun s₁ h₁ => Hoare.modS fun s₂ h₂ => Hoare.getS fun s₃ h₃ => ?_
  subst h₃ h₂ h₁
  dsimp only
  have hI3 : I { s₁ with queueMap := insertSet m s₁.queueMap, queue := s₁.queue ++ [m] } := closed_book hI h₀ { Same.refl _ with }
  refine Hoare.bind (R := fun _ s => I s ∧ s.jobs m = some j) ?_ fun _ => ?_
  · exact (addToGraph_pres hI m j _ fun d hd => List.mem_append.mp (List.mem_filter.mp hd).1).pre fun s h => h ▸ ⟨hI3, hj⟩
  · refine Hoare.ite (fun hto => ?_) (fun _ => Hoare.pure fun s h => h.1)
    refine Hoare.modS fun s h => Hoare.modS_last fun s' h' => ?_
    subst h'
    have := setJob_same hI (j' := { j with timeoutId := j.timeoutId + 1 }) h.1 h.2 ⟨rfl, rfl, rfl, fun _ h => h, fun _ h => Or.inl h, rfl⟩
    refine closed_book hI this { Same.refl _ with jobTimers := fun p hp => ?_ }
    rcases List.mem_append.mp hp with hp | hp
    · exact Or.inl hp
    · right
      rw [List.mem_singleton] at hp
      subst hp
      exact ⟨{ j with timeoutId := j.timeoutId + 1 }, by simp [upd], hto⟩

theorem registerEngine_pres (n : Nat) (e : Engine) (hev : ev = .register e) :
    Hoare (fun s => I s ∧ Obs.registered e ∉ s.trace) (registerEngine cfg n e) (fun _ => I) I := by
  unfold registerEngine emit
  refine Hoare.modS fun s h => Hoare.modS fun s' h' => ?_
  subst h'
  exact (updateGraph_pres hI n none).pre fun s' h' => h' ▸ hI _ _ (.register s e hev h.2) h.1

theorem scrub_pres (e : Engine) (x : M Unit) (hx : Hoare I x (fun _ => I) I) (s₀ : State) (h₀ : I s₀) (oc : Option (List MsgId)) :
    Hoare (fun s => s = s₀)
      (lookupE oc >>= fun _ => modS (fun s => { s with completed := upd s.completed e none }) >>= fun _ => x) (fun _ => I) I := by
  refine Hoare.lookupE (fun _ s h => h ▸ h₀) fun c _ => Hoare.modS fun s h => hx.pre fun s' h' => ?_
  subst h' h
  refine closed_book hI h₀ { Same.refl _ with completed := fun e' c h => ?_ }
  by_cases he : e' = e
  · simp [upd, he] at h
  · simpa [upd, he] using h

theorem scrub2_pres (e : Engine) (s₀ : State) (h₀ : I s₀) (oc : Option (List MsgId)) :
    Hoare (fun s => s = s₀)
      (lookupE oc >>= fun _ => modS (fun s => { s with failed := upd s.failed e none })) (fun _ => I) I := by
  refine Hoare.lookupE (fun _ s h => h ▸ h₀) fun c _ => Hoare.modS_last fun s h => ?_
  subst h
  refine closed_book hI h₀ { Same.refl _ with failed := fun e' c h => ?_ }
  by_cases he : e' = e
  · simp [upd, he] at h
  · simpa [upd, he] using h

theorem unregisterEngine_pres (e : Engine) (hev : ev = .unregister e) : Hoare I (unregisterEngine e) (fun _ => I) I := by
  unfold unregisterEngine
  refine Hoare.getS fun s₀ h₀ => ?_
  split
  · exact Hoare.throwE fun s h => h ▸ h₀
  · rename_i idx hidx
    unfold emit
    refine Hoare.modS fun s₁ h₁ => Hoare.modS fun s₂ h₂ => ?_
    subst h₂ h₁
    have hI1 := hI _ _ (.unregister s₁ e idx hev hidx) h₀
    refine Hoare.lookupE (fun _ s h => h ▸ hI1) fun p _ => ?_
    refine Hoare.ite (fun _ => ?_) (fun _ => ?_)
    · exact Hoare.modS_last fun s h => h ▸ hI _ _ (.strand _ e (by simp)) hI1
    · exact scrub_pres hI e _ (Hoare.of_final fun s h => Hoare.final (scrub2_pres hI e s h _) rfl) _ hI1 _

omit hI in
theorem validate_failOk {s s' : State} {m : MsgId} {j : Job} {why : Why} (hj : s'.jobs m = some j) (h1 : s'.allIds = s.allIds)
    (h2 : s'.allCompleted = s.allCompleted) (h3 : s'.allFailed = s.allFailed)
    (hw : ((validateDep s m j.after).orElse fun _ => validateDep s m j.follow) = some why) : FailOk s' m why := by
  have hval : ∀ (d : Dep), validateDep s m d = some why →
      (why = .invalid ∧ ∃ i ∈ d.ids, i = m ∨ i ∉ s'.allIds) ∨ (why = .impossible ∧ d.unreachable s'.allCompleted (some s'.allFailed) = true) := by
    intro d hv
    rw [h1, h2, h3]
    unfold validateDep at hv
    split at hv
    · cases hv
    split at hv
    · rename_i hinv
      cases hv
      refine Or.inl ⟨rfl, ?_⟩
      unfold invalidDep difference at hinv
      rw [Bool.or_eq_true] at hinv
      rcases hinv with h | h
      · exact ⟨m, by simpa using h, Or.inl rfl⟩
      · cases hl : d.ids.filter (fun x => !s.allIds.contains x) with
        | nil => rw [hl] at h; simp at h
        | cons i l =>
          have : i ∈ d.ids.filter (fun x => !s.allIds.contains x) := by rw [hl]; simp
          rw [List.mem_filter] at this
          exact ⟨i, this.1, Or.inr (by simpa using this.2)⟩
    split at hv
    · cases hv; exact Or.inr ⟨rfl, ‹_›⟩
    · cases hv
  have hor : ∀ {a b : Option Why}, (a.orElse fun _ => b) = some why → a = some why ∨ b = some why := by
    intro a b h; cases a <;> simp_all
  rcases hor hw with h | h
  · rcases hval _ h with ⟨rfl, i, h1, h2⟩ | ⟨rfl, h1⟩
    · exact ⟨j, hj, i, Or.inl h1, h2⟩
    · exact ⟨j, hj, Or.inl h1⟩
  · rcases hval _ h with ⟨rfl, i, h1, h2⟩ | ⟨rfl, h1⟩
    · exact ⟨j, hj, i, Or.inr h1, h2⟩
    · exact ⟨j, hj, Or.inr (Or.inl h1)⟩

theorem dispatchSubmission_pres (n : Nat) (m : MsgId) (sub : Submission) (hev : ev = .submit m sub) :
    Hoare (fun s => I s ∧ ∀ sub, Obs.submitted m sub ∉ s.trace) (dispatchSubmission cfg n m sub) (fun _ => I) I := by
  unfold dispatchSubmission emit
  refine Hoare.modS fun s₀ h₀ => Hoare.modS fun s₁ h₁ => ?_
  subst h₁
  have hI1 := hI _ _ (.submit s₀ m sub hev h₀.2) h₀.1
  dsimp only
  refine Hoare.ite (fun _ => Hoare.bind (R := fun _ _ => False) (Hoare.throwE fun s h => h ▸ hI1) fun _ _ h => h.elim) (fun _ => ?_)
  refine Hoare.getS fun s₂ h₂ => ?_
  subst h₂
  refine Hoare.ite (fun _ => Hoare.bind (R := fun _ _ => False) (Hoare.throwE fun s h => h ▸ hI1) fun _ _ h => h.elim) (fun _ => ?_)
  refine Hoare.modS fun s₃ h₃ => ?_
  subst h₃
  have hI2 := hI _ _ (.submitJob s₀ m sub (Job.mk sub.targets (reduceAfter s₀ sub.after) sub.follow sub.hasTimeout sub.timestamp false 0 []) hev h₀.2 ⟨rfl, rfl, rfl, rfl⟩ rfl) h₀.1
  split
  · rename_i why hwhy
    refine Hoare.modS fun s h => ?_
    refine (failUnreachable_pres hI n m _).pre fun s' h' => ?_
    subst h' h
    refine CanFail.book (.intro hI2 ?_) { Same.refl _ with }
    refine validate_failOk (j := Job.mk sub.targets (reduceAfter s₀ sub.after) sub.follow sub.hasTimeout sub.timestamp false 0 []) ?_ ?_ ?_ ?_ hwhy
    · simp only [upd, if_true]
    · rfl
    · rfl
    · rfl
  · refine Hoare.ite (fun ha => ?_) (fun _ => (saveUnmet_pres hI m).pre fun s h => h ▸ hI2)
    refine Hoare.bind (R := fun _ => I) ((maybeRun_pres hI n m).pre fun s h => h ▸ ⟨hI2, Or.inl fun j hj => ?_⟩) fun b => ?_
    · simp only [upd, if_true, Option.some.injEq] at hj
      subst hj
      exact ha
    · refine Hoare.ite (fun _ => Hoare.pure fun _ h => h) (fun _ => ?_)
      refine Hoare.getS fun s h => ?_
      exact Hoare.ite (fun _ => (saveUnmet_pres hI m).pre fun s' h' => h' ▸ h) (fun _ => Hoare.pure fun s' h' => h' ▸ h)

theorem jobTimeout_pres (n : Nat) (m : MsgId) (tid : Nat) :
    Hoare (CanFail I m .timeout) (jobTimeout cfg n m tid) (fun _ => I) I := by
  unfold jobTimeout
  refine Hoare.getJob (fun s h _ => h.inv hI) fun s₀ j h₀ hj => ?_
  refine Hoare.ite (fun _ => Hoare.pure fun s h => h ▸ h₀.inv hI) (fun _ => ?_)
  refine Hoare.getS fun s₁ h₁ => ?_
  exact Hoare.ite (fun _ => (failUnreachable_pres hI n m _).pre fun s h => h ▸ h₁ ▸ h₀) (fun _ => Hoare.pure fun s h => h ▸ h₁ ▸ h₀.inv hI)

/-- the end of handle_unmet_dependency, after the job was taken back -/
theorem handleUnmet_rest_pres (n : Nat) (e : Engine) (m : MsgId) :
    Hoare I (do
      if cfg.hwm ≠ 0 then
        let s ← getS
        match s.targets.idxOf? e with
        | none => pure ()
        | some idx =>
          if s.loads.getD idx 0 = (cfg.hwm : Int) - 1 then updateGraph cfg n none : M Unit) (fun _ => I) I := by
  refine Hoare.ite (fun _ => ?_) (fun _ => Hoare.pure fun s h => h)
  refine Hoare.getS fun s₀ h₀ => ?_
  split
  · exact Hoare.pure fun s h => h ▸ h₀
  · exact Hoare.ite (fun _ => (updateGraph_pres hI n none).pre fun s h => h ▸ h₀) (fun _ => Hoare.pure fun s h => h ▸ h₀)

theorem handleUnmet_pres (n : Nat) (e : Engine) (m : MsgId) (cause : Cause) (s₀ : State) (h₀ : takeBack s₀ e m cause = none → I s₀)
    (ht : ∀ s', takeBack s₀ e m cause = some s' → I s') :
    Hoare (fun s => s = s₀) (handleUnmet cfg n e m cause) (fun _ => I) I := by
  unfold handleUnmet
  refine Hoare.getS fun s₁ h₁ => ?_
  subst h₁
  refine Hoare.lookupE (fun hn s h => h ▸ h₀ (by simp [takeBack, hn])) fun p hp => ?_
  dsimp only
  refine Hoare.ite (fun hm => Hoare.bind (R := fun _ _ => False) (Hoare.throwE fun s h => h ▸ h₀ ?_) fun _ _ h => h.elim) (fun hm => ?_)
  · unfold takeBack
    cases hj : s₁.jobs m <;> simp [hp, hm]
  refine Hoare.modS fun s₂ h₂ => ?_
  subst h₂
  refine Hoare.getJob (fun s h hj => ?_) fun s₃ j h₃ hj => ?_
  · subst h
    exact hI _ _ (.popPending s₂ e p (p.filter (· ≠ m)) hp (fun x hx => (List.mem_filter.mp hx).1)) (h₀ (by
      have hj' : s₂.jobs m = none := hj
      simp [takeBack, hp, hj']))
  · subst h₃
    unfold emit
    refine Hoare.modS fun s₄ h₄ => ?_
    refine Hoare.modS fun s₅ h₅ => ?_
    have hj' : s₂.jobs m = some j := hj
    have hI5 := ht (
      { s₂ with
        pending := upd s₂.pending e (some (p.filter (· ≠ m)))
        jobs := upd s₂.jobs m (some { j with blacklist := insertSet e j.blacklist })
        trace := s₂.trace ++ [.retry e m cause] }) (by
          unfold takeBack
          simp only [hp, hj', Classical.not_not.mp hm, if_true])
    have htr : Obs.retry e m cause ∈ s₂.trace ++ [Obs.retry e m cause] := by simp
    subst h₅ h₄
    refine Hoare.ite (fun hse => ?_) (fun _ => ?_)
    · refine Hoare.modS fun s h => ?_
      refine Hoare.bind (R := fun _ => I) ((failUnreachable_pres hI n m _).pre fun s' h' => ?_) fun _ => handleUnmet_rest_pres hI n e m
      subst h' h
      refine CanFail.book (.intro hI5 ⟨{ j with blacklist := insertSet e j.blacklist }, by simp [upd], Or.inr (Or.inr (Or.inr ⟨?_, ?_⟩))⟩) { Same.refl _ with }
      · intro hnil
        have hnil' : j.targets = [] := hnil
        have he : e ∈ insertSet e j.blacklist := by unfold insertSet; split <;> simp_all
        simp only [setEq, subset, hnil', Bool.and_eq_true, List.all_eq_true] at hse
        simpa using hse.1 e he
      · intro t ht
        simp only [setEq, subset, Bool.and_eq_true, List.all_eq_true] at hse
        exact Or.inl (by simpa using hse.2 t ht)
    · refine Hoare.bind (R := fun _ => I) ((maybeRun_pres hI n m).pre fun s h => h ▸ ⟨hI5, Or.inr ⟨e, cause, htr⟩⟩) fun b => ?_
      refine Hoare.ite (fun _ => handleUnmet_rest_pres hI n e m) (fun _ => ?_)
      refine Hoare.getS fun s h => ?_
      refine Hoare.ite (fun _ => ?_) (fun _ => (handleUnmet_rest_pres hI n e m).pre fun s' h' => h' ▸ h)
      exact Hoare.bind (R := fun _ => I) ((saveUnmet_pres hI m).pre fun s' h' => h' ▸ h) fun _ => handleUnmet_rest_pres hI n e m

theorem handleResult_rest_pres (n : Nat) (e : Engine) (m : MsgId) :
    Hoare (fun s => I s ∧ ∃ ok, Obs.relay e m ok ∈ s.trace) (do
      modS fun s => { s with allDone := insertSet m s.allDone, destinations := upd s.destinations m (some e) }
      updateGraph cfg n (some m)) (fun _ => I) I :=
  Hoare.modS fun s h => (updateGraph_pres hI n _).pre fun s' h' => h' ▸ closed_book hI h.1 { Same.refl _ with
    destinations := fun m' e' hd => by
      simp only [upd] at hd
      split at hd
      · rename_i hm
        cases hd
        exact Or.inr (hm ▸ h.2)
      · exact Or.inl hd }

/-- handle_result, started after the reply was counted and `retries` popped; the relay is its first action. -/
theorem handleResult_pres (n : Nat) (e : Engine) (m : MsgId) (ok : Bool) (s₀ : State)
    (h₀ : I { s₀ with trace := s₀.trace ++ [.relay e m ok] }) :
    Hoare (fun s => s = s₀) (handleResult cfg n e m ok) (fun _ => I) I := by
  unfold handleResult emit
  refine Hoare.modS fun s₁ h₁ => Hoare.getS fun s₂ h₂ => ?_
  subst h₂ h₁
  refine Hoare.lookupE (fun _ s h => h ▸ h₀) fun p hp => ?_
  dsimp only
  refine Hoare.ite (fun _ => Hoare.bind (R := fun _ _ => False) (Hoare.throwE fun s h => h ▸ h₀) fun _ _ h => h.elim) (fun hm => ?_)
  refine Hoare.modS fun s₂ h₂ => ?_
  subst h₂
  have hI1 := hI _ _ (.popPending _ e p (p.filter (· ≠ m)) hp (fun x hx => (List.mem_filter.mp hx).1)) h₀
  have htr : Obs.relay e m ok ∈ s₁.trace ++ [Obs.relay e m ok] := by simp
  refine Hoare.ite (fun hok => ?_) (fun hok => ?_)
  · subst hok
    refine Hoare.lookupE (fun _ s h => h ▸ hI1) fun c hc => ?_
    refine Hoare.modS fun s h => (handleResult_rest_pres hI n e m).pre fun s' h' => ?_
    subst h' h
    exact ⟨hI _ _ (.complete _ e m c htr hc) hI1, _, htr⟩
  · have hok' : ok = false := by simpa using hok
    subst hok'
    refine Hoare.lookupE (fun _ s h => h ▸ hI1) fun c hc => ?_
    refine Hoare.modS fun s h => (handleResult_rest_pres hI n e m).pre fun s' h' => ?_
    subst h' h
    exact ⟨hI _ _ (.failedBy _ e m c htr hc) hI1, _, htr⟩

theorem dispatchResult_pres (n : Nat) (e : Engine) (m : MsgId) (ok dm : Bool) (o : Obs) :
    Hoare (fun s => I s ∧ IsReply ev s o e m ok dm) (emit o >>= fun _ => dispatchResult cfg n e m ok dm) (fun _ => I) I := by
  unfold emit dispatchResult
  refine Hoare.modS fun s₀ h₀ => Hoare.getS fun s₁ h₁ => ?_
  subst h₁
  obtain ⟨h₀, ho⟩ := h₀
  dsimp only
  have hmain : Hoare (fun s => s = recvBase s₀ o e)
      (if dm = true then
        lookupE (s₀.retries m) >>= fun r =>
          if (!ok) = true ∧ r > 0 then
            modS (fun s => { s with retries := upd s.retries m (some (r - 1)) }) >>= fun _ => handleUnmet cfg n e m .failure
          else
            modS (fun s => { s with retries := upd s.retries m none }) >>= fun _ => handleResult cfg n e m ok
       else handleUnmet cfg n e m .unmet) (fun _ => I) I := by
    have hret : (recvBase s₀ o e).retries = s₀.retries := by unfold recvBase; dsimp only; split <;> rfl
    have htrace : (recvBase s₀ o e).trace = s₀.trace ++ [o] := by unfold recvBase; dsimp only; split <;> rfl
    refine Hoare.ite (fun hdm => ?_) (fun hdm => ?_)
    · subst hdm
      refine Hoare.lookupE (fun hn s h => ?_) fun r hr => ?_
      · exact h ▸ hI _ _ (.recv s₀ e m ok true o ho (fun _ => hn) (by simp)) h₀
      · refine Hoare.ite (fun hc => ?_) (fun hc => ?_)
        · obtain ⟨hok, hr0⟩ := hc
          have hok' : ok = false := by simpa using hok
          subst hok'
          obtain ⟨r', rfl⟩ : ∃ r', r = r' + 1 := ⟨r - 1, by omega⟩
          refine Hoare.modS fun s h => ?_
          subst h
          rw [hret]
          refine handleUnmet_pres hI n e m .failure _ ?_ ?_
          · exact fun hn => hI _ _ (.recvDec s₀ e m o r' ho hr hn) h₀
          · exact fun s' hs' => hI _ _ (.recvRetry s₀ e m o r' s' ho hr hs') h₀
        · refine Hoare.modS fun s h => ?_
          subst h
          refine handleResult_pres hI n e m ok _ ?_
          refine hI _ _ (.recvRelay s₀ e m ok o r ho hr ?_) h₀
          cases ok
          · right; simp at hc; omega
          · left; rfl
    · have hdm' : dm = false := by simpa using hdm
      subst hdm'
      refine handleUnmet_pres hI n e m .unmet _ ?_ ?_
      · exact fun hn => hI _ _ (.recv s₀ e m ok false o ho (by simp) fun _ => hn) h₀
      · exact fun s' hs' => hI _ _ (.recvUnmet s₀ e m ok o s' ho hs') h₀
  split
  · rename_i hidx
    refine hmain.pre fun s h => ?_
    subst h
    unfold recvBase
    simp only [hidx]
  · rename_i idx hidx
    refine Hoare.modS fun s h => hmain.pre fun s' h' => ?_
    subst h' h
    unfold recvBase
    simp only [hidx]

omit hI in
theorem logErrors_pres {P : State → Prop} {x : M Unit} (h : Hoare P x (fun _ => I) I) : Hoare P (logErrors x) (fun _ => I) I :=
  fun s hs => Hoare.final h hs

omit hI in
/-- While the stranded tasks of `e` are handled, `e` does not come back. -/
theorem closed_not_target {e : Engine} (hev : ev = .strandTimer e) : Closed cfg ev (fun s => e ∉ s.targets) := by
  have hb : ∀ s o e', (recvBase s o e').targets = s.targets := fun s o e' => by unfold recvBase; dsimp only; split <;> rfl
  have htb : ∀ s e' m c s', takeBack s e' m c = some s' → s'.targets = s.targets := by
    intro s e' m c s' h
    unfold takeBack at h
    split at h
    · split at h
      · cases h; rfl
      · cases h
    · cases h
  subst hev
  intro s s' hm h
  cases hm with
  | book hs => rw [hs.targets]; exact h
  | fail s'' m why hs => exact fun h' => h (hs.targets ▸ h')
  | send m j idx target hj ht =>
    have : (sentState s m idx target).targets = (addJob idx s).targets := by
      unfold sentState addJob
      dsimp only
      split <;> split <;> rfl
    rw [this]
    unfold addJob
    split
    · rename_i t l ht' hl
      simp only [List.mem_append, List.mem_singleton, not_or]
      exact ⟨fun h' => h (List.mem_of_mem_eraseIdx h'), fun h' => h (h' ▸ List.mem_of_getElem? ht')⟩
    · exact h
  | register e' hev => cases hev
  | unregister e' idx hev => cases hev
  | strand => exact h
  | submit _ _ hev => cases hev
  | submitJob _ _ _ hev => cases hev
  | recv => rw [hb]; exact h
  | recvDec => simp only [hb]; exact h
  | recvRetry _ _ _ _ _ _ _ ht => rw [htb _ _ _ _ _ ht]; simp only [hb]; exact h
  | recvUnmet _ _ _ _ _ _ ht => rw [htb _ _ _ _ _ ht]; simp only [hb]; exact h
  | recvRelay => simp only [relayState, hb]; exact h
  | popPending => exact h
  | complete => exact h
  | failedBy => exact h

theorem strandedLoop_pres (n : Nat) (e : Engine) (hev : ev = .strandTimer e) (ms : List MsgId) :
    Hoare (fun s => I s ∧ e ∉ s.targets) (strandedLoop cfg n e ms) (fun _ s => I s ∧ e ∉ s.targets) (fun s => I s ∧ e ∉ s.targets) := by
  have hI' : Closed cfg ev (fun s => I s ∧ e ∉ s.targets) :=
    fun s s' hm h => ⟨hI s s' hm h.1, closed_not_target hev s s' hm h.2⟩
  induction ms with
  | nil => exact Hoare.pure fun _ h => h
  | cons m ms ih =>
    unfold strandedLoop
    refine Hoare.getS fun s₀ h₀ => Hoare.lookupE (fun _ s h => h ▸ h₀) fun lost hlost => ?_
    dsimp only
    refine Hoare.ite (fun hin => ?_) (fun _ => ih.pre fun s h => h ▸ h₀)
    intro s hs
    have h1 := Hoare.final (dispatchResult_pres hI' n e m false true (.stranded e m))
      (s := s) ⟨hs ▸ h₀, Or.inr ⟨rfl, rfl, rfl, hev, hs ▸ h₀.2, lost, hs ▸ hlost, hin⟩⟩
    exact ih _ h1

theorem handleStranded_pres (n : Nat) (e : Engine) (hev : ev = .strandTimer e) :
    Hoare (fun s => I s ∧ e ∉ s.targets) (handleStranded cfg n e) (fun _ => I) I := by
  unfold handleStranded
  refine Hoare.getS fun s₀ h₀ => Hoare.lookupE (fun _ s h => h ▸ h₀.1) fun lost _ => ?_
  refine Hoare.bind (R := fun _ => I) ((strandedLoop_pres hI n e hev lost).conseq (fun s h => h ▸ h₀) (fun _ s h => h.1) (fun s h => h.1))
    fun _ => ?_
  refine Hoare.getS fun s₁ h₁ => ?_
  exact scrub_pres hI e _ (Hoare.of_final fun s h => Hoare.final (scrub2_pres hI e s h _) rfl) _ h₁ _

/-- The event brings a fresh message id / engine identity; the timer is for an engine that is gone. -/
def FreshIn (s : State) : Event → Prop
  | .submit m _ => ∀ sub, Obs.submitted m sub ∉ s.trace
  | .register e => Obs.registered e ∉ s.trace
  | .strandTimer e => e ∈ s.strandTimers → e ∉ s.targets
  | _ => True

theorem handle_pres (n : Nat) : Hoare (fun s => I s ∧ FreshIn s ev) (handle cfg n ev) (fun _ => I) I := by
  cases ev with
  | submit m sub => exact dispatchSubmission_pres hI n m sub rfl
  | register e => exact registerEngine_pres hI n e rfl
  | unregister e => exact (unregisterEngine_pres hI e rfl).pre fun s h => h.1
  | result e m ok dm => exact (dispatchResult_pres hI n e m ok dm _).pre fun s h => ⟨h.1, Or.inl ⟨rfl, rfl⟩⟩
  | strandTimer e =>
    unfold handle
    refine Hoare.getS fun s₀ h₀ => Hoare.ite (fun hin => ?_) (fun _ => Hoare.pure fun s h => h ▸ h₀.1)
    refine Hoare.modS fun s h => (handleStranded_pres hI n e rfl).pre fun s' h' => ?_
    subst h' h
    exact ⟨closed_book hI h₀.1 { Same.refl _ with strandTimers := fun _ h => List.mem_of_mem_erase h }, h₀.2 hin⟩
  | jobTimer m tid =>
    unfold handle
    refine Hoare.getS fun s₀ h₀ => Hoare.ite (fun hin => ?_) (fun _ => Hoare.pure fun s h => h ▸ h₀.1)
    exact Hoare.modS fun s h => (jobTimeout_pres hI n m tid).pre fun s' h' => h' ▸ h ▸
      CanFail.book (.intro h₀.1 ⟨tid, hin⟩) { Same.refl _ with jobTimers := fun p hp => Or.inl (List.mem_of_mem_erase hp) }

theorem step_pres (s : State) (h : I s) (hf : FreshIn s ev) : I (step cfg s ev) :=
  Hoare.final (handle_pres hI _) ⟨h, hf⟩

end

/-! ### Whole histories -/

theorem run_snoc (cfg : Config) (evs : List Event) (ev : Event) : run cfg (evs ++ [ev]) = step cfg (run cfg evs) ev := by
  simp [run, List.foldl_append]

theorem run_append (cfg : Config) (evs evs' : List Event) : run cfg (evs ++ evs') = evs'.foldl (step cfg) (run cfg evs) := by
  simp [run, List.foldl_append]

/-- the message id of a submission event -/
def Event.subId : Event → Option MsgId
  | .submit m _ => some m
  | _ => none

/-- the engine of a registration event -/
def Event.regId : Event → Option Engine
  | .register e => some e
  | _ => none

/-- No message id is submitted twice and no engine identity registered twice (they are uuids). -/
def Fresh (evs : List Event) : Prop := (evs.filterMap Event.subId).Nodup ∧ (evs.filterMap Event.regId).Nodup

end IPP.Sched
