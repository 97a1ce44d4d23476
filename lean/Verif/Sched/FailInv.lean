import Verif.Sched.PickInv
import Verif.Sched.FailSpec

/-!
# The scheduler's own errors are justified (C21)
-/
namespace IPP.Sched

/-- What is left of a dependency after finished tasks have been dropped. -/
def AfterRel (d : Dep) (o : Option Dep) : Prop :=
  d.ids = [] ∨ ∃ a, o = some a ∧ d.all = a.all ∧ d.success = a.success ∧ d.failure = a.failure ∧ (∀ i ∈ d.ids, i ∈ a.ids) ∧
    (a.all = false → d.ids = a.ids)

structure FailInv (s : State) : Prop where
  job : ∀ m j sub, s.jobs m = some j → Obs.submitted m sub ∈ s.trace → AfterRel j.after sub.after ∧ j.hasTimeout = sub.hasTimeout
  ids : ∀ i sub, Obs.submitted i sub ∈ s.trace → i ∈ s.allIds
  timer : ∀ p ∈ s.jobTimers, ∃ sub, Obs.submitted p.1 sub ∈ s.trace ∧ sub.hasTimeout = true
  dest : ∀ m e, s.destinations m = some e → ∃ ok, Obs.relay e m ok ∈ s.trace
  just : ∀ p m why q, s.trace = p ++ .fail m why :: q → Justified p m why

/-- neither submissions nor failures -/
def failNeutral : Obs → Prop
  | .submitted .. | .fail .. => False
  | _ => True

theorem FailInv.step {s s' : State} (h : FailInv s) (tl : List Obs) (htl : ∀ o ∈ tl, failNeutral o) (htr : s'.trace = s.trace ++ tl)
    (hj : ∀ m j', s'.jobs m = some j' → ∃ j, s.jobs m = some j ∧ j'.after = j.after ∧ j'.hasTimeout = j.hasTimeout)
    (hi : s'.allIds = s.allIds) (ht : ∀ p ∈ s'.jobTimers, ∃ sub, Obs.submitted p.1 sub ∈ s.trace ∧ sub.hasTimeout = true)
    (hd : ∀ m e, s'.destinations m = some e → ∃ ok, Obs.relay e m ok ∈ s.trace) : FailInv s' := by
  have hsub : ∀ i sub, Obs.submitted i sub ∈ s'.trace → Obs.submitted i sub ∈ s.trace := by
    intro i sub hm
    rw [htr] at hm
    rcases List.mem_append.mp hm with hm | hm
    · exact hm
    · exact (htl _ hm).elim
  refine ⟨?_, ?_, ?_, ?_, ?_⟩
  · intro m j' sub hj' hs
    obtain ⟨j, h1, h2, h3⟩ := hj m j' hj'
    rw [h2, h3]
    exact h.job m j sub h1 (hsub _ _ hs)
  · intro i sub hs
    rw [hi]
    exact h.ids i sub (hsub _ _ hs)
  · intro p hp
    obtain ⟨sub, a, b⟩ := ht p hp
    exact ⟨sub, by rw [htr]; exact List.mem_append_left _ a, b⟩
  · intro m e he
    obtain ⟨ok, hk⟩ := hd m e he
    exact ⟨ok, by rw [htr]; exact List.mem_append_left _ hk⟩
  · rw [htr]
    clear htr hsub
    revert htl
    have hjust := h.just
    induction tl using snoc_induction with
    | nil => intro _; simpa using hjust
    | snoc tl o ih =>
      intro htl p m why q hq
      rw [← List.append_assoc] at hq
      rcases snoc_split hq with ⟨_, _, h2⟩ | ⟨q', _, hq'⟩
      · exact ((h2 ▸ htl o (by simp) : failNeutral (.fail m why))).elim
      · exact ih (fun o ho => htl o (by simp [ho])) p m why q' hq'

theorem reduceIds_rel (s : State) (a : Dep) : AfterRel (reduceIds s a) (some a) := by
  right
  refine ⟨a, rfl, ?_⟩
  unfold reduceIds
  split
  · rename_i hall
    dsimp only
    split <;> split <;> simp_all [difference]
  · exact ⟨rfl, rfl, rfl, fun _ h => h, fun _ => rfl⟩

theorem reduceAfter_rel (s : State) (o : Option Dep) : AfterRel (reduceAfter s o) o := by
  unfold reduceAfter
  split
  · exact Or.inl rfl
  · dsimp only
    split
    · exact Or.inl rfl
    · exact reduceIds_rel s _

theorem hopeless_of_unreachable {d : Dep} {c f : List MsgId} {p : List Obs} (hc : ∀ i ∈ c, i ∈ okIds p) (hf : ∀ i ∈ f, i ∈ failIds p)
    (h : d.unreachable c (some f) = true) : d.ids ≠ [] ∧ Hopeless d p := by
  rw [unreachable_iff] at h
  refine ⟨h.1, ?_⟩
  have hw : ∀ i, (d.success = false ∧ i ∈ c) ∨ (d.failure = false ∧ i ∈ f) → Wrong d p i := by
    rintro i (⟨a, b⟩ | ⟨a, b⟩)
    · exact Or.inl ⟨a, hc i b⟩
    · exact Or.inr ⟨a, hf i b⟩
  rcases h.2 with ⟨a, i, hi, b⟩ | ⟨a, b⟩
  · exact Or.inl ⟨a, i, hi, hw i b⟩
  · exact Or.inr ⟨a, h.1, fun i hi => hw i (b i hi)⟩

theorem Hopeless.widen {d a : Dep} {p : List Obs} (h : Hopeless d p) (h1 : d.all = a.all) (h2 : d.success = a.success) (h3 : d.failure = a.failure)
    (h4 : ∀ i ∈ d.ids, i ∈ a.ids) (h5 : a.all = false → d.ids = a.ids) : Hopeless a p := by
  have hw : ∀ i, Wrong d p i → Wrong a p i := by
    intro i
    unfold Wrong
    rw [h2, h3]
    exact id
  rcases h with ⟨x, i, hi, b⟩ | ⟨x, y, b⟩
  · exact Or.inl ⟨h1 ▸ x, i, h4 i hi, hw i b⟩
  · have hall : a.all = false := h1 ▸ x
    have := h5 hall
    exact Or.inr ⟨hall, this ▸ y, fun i hi => hw i (b i (this ▸ hi))⟩

theorem justified_of_failOk {cfg : Config} {s : State} (hl : LoadInv cfg s) (hji : JobInv s) (hp : PickInv cfg s) (h : FailInv s)
    {m : MsgId} {why : Why} (hok : FailOk s m why) : Justified s.trace m why := by
  cases why with
  | timeout =>
    obtain ⟨tid, ht⟩ := hok
    exact h.timer _ ht
  | invalid =>
    obtain ⟨j, hj, i, hi, hbad⟩ := hok
    obtain ⟨sub, hs, hfo, _⟩ := hji.job m j hj
    have hbad' : i = m ∨ ∀ sub', Obs.submitted i sub' ∉ s.trace := hbad.imp id fun hn sub' hs' => hn (h.ids i sub' hs')
    refine ⟨sub, hs, ?_⟩
    rcases hi with hi | hi
    · rcases (h.job m j sub hj hs).1 with hnil | ⟨a, ha, _, _, _, hsub, _⟩
      · rw [hnil] at hi; simp at hi
      · exact ⟨a, i, Or.inl ha, hsub i hi, hbad'⟩
    · exact ⟨sub.follow, i, Or.inr rfl, hfo ▸ hi, hbad'⟩
  | impossible =>
    obtain ⟨j, hj, hcase⟩ := hok
    obtain ⟨sub, hs, hfo, htg, _⟩ := hji.job m j hj
    refine ⟨sub, hs, ?_⟩
    rcases hcase with hu | hu | ⟨hall, a, b, ea, eb, ha, hb, hda, hdb, hne⟩ | ⟨hne, hgone⟩
    · left
      obtain ⟨hn, hh⟩ := hopeless_of_unreachable hji.ok hji.bad hu
      rcases (h.job m j sub hj hs).1 with hnil | ⟨a, ha, h1, h2, h3, h4, h5⟩
      · exact absurd hnil hn
      · exact ⟨a, Or.inl ha, hh.widen h1 h2 h3 h4 h5⟩
    · left
      exact ⟨sub.follow, Or.inr rfl, hfo ▸ (hopeless_of_unreachable hji.ok hji.bad hu).2⟩
    · right; left
      obtain ⟨oka, hra⟩ := h.dest a ea hda
      obtain ⟨okb, hrb⟩ := h.dest b eb hdb
      exact ⟨hfo ▸ hall, a, b, ea, eb, oka, okb, hfo ▸ ha, hfo ▸ hb, hra, hrb, hne⟩
    · right; right
      obtain ⟨hbl, hcov⟩ := hp.job m j sub hj hs
      refine ⟨?_, fun t ht => ?_⟩
      · intro hnil
        cases hjt : j.targets with
        | nil => exact hne hjt
        | cons t ts =>
          have := htg t (by rw [hjt]; simp)
          rw [hnil] at this
          simp at this
      · rcases hcov t ht with h1 | h1
        · rcases hgone t h1 with h2 | h2
          · exact Or.inl (hbl t h2)
          · exact Or.inr fun hr => h2 ((registered_iff hl t).mp hr)
        · exact Or.inl (hbl t h1)

theorem FailInv.same {s s' : State} (h : FailInv s) (hji : JobInv s) (hs : Same s s') : FailInv s' := by
  refine h.step [] (by simp) (by simp [hs.trace]) ?_ hs.allIds ?_ ?_
  · intro m j' hj'
    have := hs.jobs m
    rw [hj'] at this
    cases hj : s.jobs m with
    | none => rw [hj] at this; exact this.elim
    | some j => rw [hj] at this; exact ⟨j, rfl, this.1, this.2.2.2.2.2⟩
  · intro p hp
    rcases hs.jobTimers p hp with hp | ⟨j, hj, ht⟩
    · exact h.timer p hp
    · obtain ⟨sub, hsub, _⟩ := hji.job _ j hj
      exact ⟨sub, hsub, (h.job _ j sub hj hsub).2 ▸ ht⟩
  · intro m e he
    rcases hs.destinations m e he with he | he
    · exact h.dest m e he
    · exact he

theorem FailInv.submit {s s' : State} (h : FailInv s) (hji : JobInv s) (m : MsgId) (sub : Submission)
    (hfresh : ∀ sub, Obs.submitted m sub ∉ s.trace) (htr : s'.trace = s.trace ++ [.submitted m sub]) (hi : s'.allIds = insertSet m s.allIds)
    (hjobs : s'.jobs = s.jobs ∨ ∃ j, s'.jobs = upd s.jobs m (some j) ∧ AfterRel j.after sub.after ∧ j.hasTimeout = sub.hasTimeout)
    (ht : s'.jobTimers = s.jobTimers) (hd : s'.destinations = s.destinations) : FailInv s' := by
  have hold : ∀ m' j' sub', s.jobs m' = some j' → Obs.submitted m' sub' ∈ s'.trace →
      AfterRel j'.after sub'.after ∧ j'.hasTimeout = sub'.hasTimeout := by
    intro m' j' sub' hj' hs'
    rw [htr] at hs'
    rcases List.mem_append.mp hs' with hs' | hs'
    · exact h.job m' j' sub' hj' hs'
    · simp at hs'
      obtain ⟨rfl, rfl⟩ := hs'
      obtain ⟨sub₂, h2, _⟩ := hji.job m' j' hj'
      exact absurd h2 (hfresh _)
  refine ⟨?_, ?_, ?_, ?_, ?_⟩
  · intro m' j' sub' hj' hs'
    rcases hjobs with hjobs | ⟨j, hjobs, h1, h2⟩
    · rw [hjobs] at hj'; exact hold m' j' sub' hj' hs'
    · rw [hjobs] at hj'
      simp only [upd] at hj'
      by_cases hmm : m' = m
      · subst hmm
        simp only [if_true, Option.some.injEq] at hj'
        subst hj'
        rw [htr] at hs'
        have : sub' = sub := by
          rcases List.mem_append.mp hs' with hs' | hs'
          · exact absurd hs' (hfresh _)
          · simpa using hs'
        subst this
        exact ⟨h1, h2⟩
      · rw [if_neg hmm] at hj'; exact hold m' j' sub' hj' hs'
  · intro i sub' hs'
    rw [htr] at hs'
    rw [hi, mem_insertSet]
    rcases List.mem_append.mp hs' with hs' | hs'
    · exact Or.inr (h.ids i sub' hs')
    · simp at hs'; exact Or.inl hs'.1
  · intro p hp
    rw [ht] at hp
    obtain ⟨sub', a, b⟩ := h.timer p hp
    exact ⟨sub', by rw [htr]; exact List.mem_append_left _ a, b⟩
  · intro m' e he
    rw [hd] at he
    obtain ⟨ok, hk⟩ := h.dest m' e he
    exact ⟨ok, by rw [htr]; exact List.mem_append_left _ hk⟩
  · intro p m' why q hq
    rw [htr] at hq
    rcases snoc_split hq with ⟨_, _, h2⟩ | ⟨q', _, hq'⟩
    · cases h2
    · exact h.just p m' why q' hq'

@[simp] theorem recvBase_jobTimers {s : State} {o : Obs} {e : Engine} : (recvBase s o e).jobTimers = s.jobTimers := by
  unfold recvBase; dsimp only; split <;> rfl
@[simp] theorem recvBase_destinations {s : State} {o : Obs} {e : Engine} : (recvBase s o e).destinations = s.destinations := by
  unfold recvBase; dsimp only; split <;> rfl
@[simp] theorem sentState_jobTimers {s : State} {m : MsgId} {i : Nat} {e : Engine} : (sentState s m i e).jobTimers = s.jobTimers := by
  unfold sentState addJob; dsimp only; split <;> split <;> rfl
@[simp] theorem sentState_destinations {s : State} {m : MsgId} {i : Nat} {e : Engine} : (sentState s m i e).destinations = s.destinations := by
  unfold sentState addJob; dsimp only; split <;> split <;> rfl

theorem failInv_closed (cfg : Config) (ev : Event) :
    Closed cfg ev (fun s => ((LoadInv cfg s ∧ JobInv s) ∧ PickInv cfg s) ∧ FailInv s) := by
  intro s s' hm ⟨hb, h⟩
  refine ⟨pickInv_closed cfg ev s s' hm hb, ?_⟩
  obtain ⟨⟨hl, hji⟩, hp⟩ := hb
  have hreply : ∀ {s o e m ok dm}, IsReply ev s o e m ok dm → failNeutral o := by
    intro s o e m ok dm ho
    rcases ho with ⟨rfl, _⟩ | ⟨rfl, _⟩ <;> trivial
  have keep : ∀ m j', s.jobs m = some j' → ∃ j, s.jobs m = some j ∧ j'.after = j.after ∧ j'.hasTimeout = j.hasTimeout :=
    fun m j' hj => ⟨j', hj, rfl, rfl⟩
  have keepUpd : ∀ (m : MsgId) (j : Job) (bl : List Engine), s.jobs m = some j → ∀ m' j',
      upd s.jobs m (some { j with blacklist := bl }) m' = some j' → ∃ j, s.jobs m' = some j ∧ j'.after = j.after ∧ j'.hasTimeout = j.hasTimeout := by
    intro m j bl hj m' j' hj'
    simp only [upd] at hj'
    split at hj'
    · rename_i hm
      cases hj'
      exact ⟨j, hm ▸ hj, rfl, rfl⟩
    · exact keep m' j' hj'
  cases hm with
  | book hs => exact h.same hji hs
  | fail s' m why hs hok =>
    have h' := h.same hji hs
    refine ⟨?_, ?_, ?_, ?_, ?_⟩
    · intro m' j sub hj hsub
      exact h'.job m' j sub hj (by simpa [failState] using hsub)
    · intro i sub hsub
      exact h'.ids i sub (by simpa [failState] using hsub)
    · intro p hp
      obtain ⟨sub, a, b⟩ := h'.timer p hp
      exact ⟨sub, List.mem_append_left _ a, b⟩
    · intro m' e he
      obtain ⟨ok, hk⟩ := h'.dest m' e he
      exact ⟨ok, List.mem_append_left _ hk⟩
    · intro p m' why' q hq
      rcases snoc_split hq with ⟨_, h1, h2⟩ | ⟨q', _, hq'⟩
      · cases h2
        rw [← h1, hs.trace]
        exact justified_of_failOk hl hji hp h hok
      · exact h'.just p m' why' q' hq'
  | send m j idx target hj ht hlo hb htg hf ha hc =>
    exact h.step [.send target m] (by simp [failNeutral]) (by simp) (by simpa using keep) (by simp) (by simpa using h.timer) (by simpa using h.dest)
  | register e hev hfresh => exact h.step [.registered e] (by simp [failNeutral]) rfl keep rfl h.timer h.dest
  | unregister e idx hev hidx => exact h.step [.unregistered e] (by simp [failNeutral]) rfl keep rfl h.timer h.dest
  | strand e he => exact h.step [] (by simp) (by simp) keep rfl h.timer h.dest
  | submit m sub hev hfresh => exact h.submit hji m sub hfresh rfl rfl (Or.inl rfl) rfl rfl
  | submitJob m sub j hev hfresh hj hjt =>
    exact h.submit hji m sub hfresh rfl rfl (Or.inr ⟨j, rfl, hj.2.2.2 ▸ reduceAfter_rel s sub.after, hjt⟩) rfl rfl
  | recv e m ok dm o ho =>
    exact h.step [o] (by simpa using hreply ho) (by simp) (by simpa using keep) (by simp) (by simpa using h.timer) (by simpa using h.dest)
  | recvDec e m o r ho =>
    exact h.step [o] (by simpa using hreply ho) (by simp) (by simpa using keep) (by simp) (by simpa using h.timer) (by simpa using h.dest)
  | recvRetry e m o r s' ho hr ht =>
    obtain ⟨p, j, _, _, hj, rfl⟩ := takeBack_some ht
    refine h.step [o, .retry e m .failure] (by simpa [failNeutral] using hreply ho) (by simp) ?_ (by simp) (by simpa using h.timer) (by simpa using h.dest)
    simp only [recvBase_jobs] at hj ⊢
    exact keepUpd m j _ hj
  | recvUnmet e m ok o s' ho ht =>
    obtain ⟨p, j, _, _, hj, rfl⟩ := takeBack_some ht
    refine h.step [o, .retry e m .unmet] (by simpa [failNeutral] using hreply ho) (by simp) ?_ (by simp) (by simpa using h.timer) (by simpa using h.dest)
    simp only [recvBase_jobs] at hj ⊢
    exact keepUpd m j _ hj
  | recvRelay e m ok o r ho =>
    exact h.step [o, .relay e m ok] (by simpa [failNeutral] using hreply ho) (by simp [relayState]) (by simpa [relayState] using keep)
      (by simp [relayState]) (by simpa [relayState] using h.timer) (by simpa [relayState] using h.dest)
  | popPending => exact h.step [] (by simp) (by simp) keep rfl h.timer h.dest
  | complete => exact h.step [] (by simp) (by simp) keep rfl h.timer h.dest
  | failedBy => exact h.step [] (by simp) (by simp) keep rfl h.timer h.dest

/-- C21 (soundness): the scheduler answers a task itself only for one of the documented reasons, judged by what had happened by then. -/
theorem fail_justified (cfg : Config) (evs : List Event) (hf : Fresh evs) (p q : List Obs) (m : MsgId) (why : Why)
    (h : (run cfg evs).trace = p ++ .fail m why :: q) : Justified p m why := by
  refine (run_inv cfg evs hf _ ⟨⟨⟨loadInv_init cfg, jobInv_init⟩, run_pickInv cfg [] ⟨by simp, by simp⟩⟩, ?_⟩
    fun ev _ => failInv_closed cfg ev).2.just p m why q h
  refine ⟨by simp, by simp, by simp, by simp, ?_⟩
  intro p m why q h
  simp at h

end IPP.Sched
