import Verif.Sched.TriesProps
import Verif.Sched.TimerProps
/-!
# No task is sent twice to the same engine (lemmas)
-/
namespace IPP.Sched

variable {cfg : Config}

/-- a task that was sent has a job -/
def SentJob (s : State) : Prop := ∀ e m, Obs.send e m ∈ s.trace → s.jobs m ≠ none

theorem SentJob.congr {s s' : State} (h : SentJob s) (ht : s'.trace = s.trace) (hj : ∀ m, JobLe (s.jobs m) (s'.jobs m)) : SentJob s' := by
  intro e m hm hn
  rw [ht] at hm
  have h1 := hj m
  cases hs : s.jobs m with
  | none => exact h e m hm hs
  | some j => rw [hs, hn] at h1; exact h1

theorem SentJob.emit {s s' : State} {o : Obs} (h : SentJob s) (ht : s'.trace = s.trace ++ [o]) (ho : ∀ e m, o = .send e m → s'.jobs m ≠ none)
    (hj : ∀ m, s.jobs m ≠ none → s'.jobs m ≠ none) : SentJob s' := by
  intro e m hm
  rw [ht] at hm
  rcases List.mem_append.1 hm with hm | hm
  · exact hj m (h e m hm)
  · exact ho e m (List.mem_singleton.1 hm).symm

theorem sentJob_closed (ev : Event) : Closed cfg ev SentJob := by
  intro s s' hm h
  have hrec : ∀ {o e m ok dm}, IsReply ev s o e m ok dm → ∀ e' m', o ≠ .send e' m' := by
    intro o e m ok dm ho e' m'
    rcases ho with ⟨rfl, _⟩ | ⟨rfl, _⟩ <;> simp
  cases hm with
  | book hs => exact h.congr hs.trace hs.jobs
  | fail s' m why hs hok => exact SentJob.emit (s := s') (h.congr hs.trace hs.jobs) (o := .fail m why) rfl (by simp) fun _ h => h
  | send m j idx target hj =>
    refine h.emit (o := .send target m) (by simp) (fun e m' he => ?_) fun _ h => by rw [sentState_jobs]; exact h
    cases he
    rw [sentState_jobs, hj]; simp
  | register e => exact h.emit (o := .registered e) rfl (by simp) fun _ h => h
  | unregister e => exact h.emit (o := .unregistered e) rfl (by simp) fun _ h => h
  | strand e he => exact h.congr rfl fun _ => JobLe.refl _
  | submit m sub => exact h.emit (o := .submitted m sub) rfl (by simp) fun _ h => h
  | submitJob m sub j => exact h.emit (o := .submitted m sub) rfl (by simp) fun x h => by simp only [upd]; split <;> simp_all
  | recv e m ok dm o ho => exact h.emit (recvBase_trace ..) (fun e' m' h => absurd h (hrec ho e' m')) fun _ h => by rw [recvBase_jobs]; exact h
  | recvDec e m o r ho =>
    exact h.emit (recvBase_trace ..) (fun e' m' h => absurd h (hrec ho e' m')) fun x h => by rw [← recvBase_jobs (s := s) (o := o) (e := e)] at h; exact h
  | recvRetry e m o r s' ho hr ht =>
    obtain ⟨p, j, _, _, _, rfl⟩ := takeBack_some ht
    refine SentJob.emit (s := recvBase s o e) (h.emit (recvBase_trace ..) (fun e' m' h => absurd h (hrec ho e' m')) fun _ h => by rw [recvBase_jobs]; exact h) (o := .retry e m .failure) rfl (by simp) fun x hx => ?_
    simp only [upd]; split
    · simp
    · exact hx
  | recvUnmet e m ok o s' ho ht =>
    obtain ⟨p, j, _, _, _, rfl⟩ := takeBack_some ht
    refine SentJob.emit (s := recvBase s o e) (h.emit (recvBase_trace ..) (fun e' m' h => absurd h (hrec ho e' m')) fun _ h => by rw [recvBase_jobs]; exact h) (o := .retry e m .unmet) rfl (by simp) fun x hx => ?_
    simp only [upd]; split
    · simp
    · exact hx
  | recvRelay e m ok o r ho =>
    exact SentJob.emit (s := recvBase s o e) (h.emit (recvBase_trace ..) (fun e' m' h => absurd h (hrec ho e' m')) fun _ h => by rw [recvBase_jobs]; exact h) (o := .relay e m ok) rfl (by simp) fun x hx => hx
  | popPending => exact h.congr rfl fun _ => JobLe.refl _
  | complete => exact h.congr rfl fun _ => JobLe.refl _
  | failedBy => exact h.congr rfl fun _ => JobLe.refl _

/-- the reply made up for a task of a dead engine is dealt with at once -/
def StrandInv (tr : List Obs) : Prop := ∀ p e m q, tr = p ++ .stranded e m :: q →
  relays m p = 1 ∨ (∃ q', q = .relay e m false :: q') ∨ ∃ q', q = .retry e m .failure :: q'

theorem StrandInv.emit {tr : List Obs} {o : Obs} (h : StrandInv tr) (ho : ∀ e m, o = .stranded e m → relays m tr = 1) : StrandInv (tr ++ [o]) := by
  intro p e m q hq
  rcases snoc_split hq with ⟨_, rfl, h2⟩ | ⟨q', rfl, hq'⟩
  · exact Or.inl (ho e m h2)
  · rcases h p e m q' hq' with h | ⟨q'', rfl⟩ | ⟨q'', rfl⟩
    · exact Or.inl h
    · exact .inr (.inl ⟨q'' ++ [o], rfl⟩)
    · exact .inr (.inr ⟨q'' ++ [o], rfl⟩)

theorem StrandInv.emit2 {tr : List Obs} {e : Engine} {m : MsgId} {o o' : Obs} (h : StrandInv tr) (ho : ∀ e' m', o = .stranded e' m' → o' = .relay e' m' false ∨ o' = .retry e' m' .failure)
    (ho' : ∀ e m, o' ≠ .stranded e m) : StrandInv (tr ++ [o] ++ [o']) := by
  intro p e' m' q hq
  rcases snoc_split hq with ⟨_, _, h2⟩ | ⟨q', rfl, hq'⟩
  · exact absurd h2 (ho' _ _)
  · rcases snoc_split hq' with ⟨rfl, rfl, h2⟩ | ⟨q'', rfl, hq''⟩
    · rcases ho _ _ h2 with rfl | rfl
      · exact .inr (.inl ⟨[], rfl⟩)
      · exact .inr (.inr ⟨[], rfl⟩)
    · rcases h p e' m' q'' hq'' with h | ⟨q3, rfl⟩ | ⟨q3, rfl⟩
      · exact Or.inl h
      · exact .inr (.inl ⟨q3 ++ [o] ++ [o'], rfl⟩)
      · exact .inr (.inr ⟨q3 ++ [o] ++ [o'], rfl⟩)

theorem strandInv_closed (ev : Event) :
    Closed cfg ev (fun s => (((LoadInv cfg s ∧ JobInv s) ∧ (Faithful s.trace → RetryInv s.trace s.retries)) ∧ SentJob s) ∧ (Faithful s.trace → StrandInv s.trace)) := by
  intro s s' hm hall
  obtain ⟨⟨h, hsj⟩, hs⟩ := hall
  refine ⟨⟨retryInv_closed cfg ev s s' hm h, sentJob_closed ev s s' hm hsj⟩, ?_⟩
  have simple : ∀ {o : Obs} {tr}, tr = s.trace ++ [o] → (∀ e m, o ≠ .stranded e m) → Faithful tr → StrandInv tr := by
    rintro o tr rfl ho hf
    exact (hs hf.snoc).emit fun e m h => absurd h (ho e m)
  cases hm with
  | book hsame => rw [hsame.trace]; exact hs
  | fail s' m why hs hok => exact simple (o := .fail m why) (by simp [failState, hs.trace]) (by simp)
  | send m j idx target hj ht hl => exact simple (sentState_trace ..) (by simp)
  | register e hev hfresh => exact simple rfl (by simp)
  | unregister e idx hev hidx => exact simple rfl (by simp)
  | strand e he => exact hs
  | submit m sub => exact simple rfl (by simp)
  | submitJob m sub => exact simple rfl (by simp)
  | recv e m ok dm o ho hr =>
    simp only [recvBase_trace]
    intro hf
    refine (hs hf.snoc).emit fun e' m' ho' => ?_
    rcases ho with ⟨rfl, _⟩ | ⟨rfl, _, hd, _, _, p, hp, hmp⟩ <;> cases ho'
    obtain ⟨sub, hsub⟩ := h.1.2.sent_sub (h.1.2.pend _ _ _ hp hmp)
    exact ((h.2 hf.snoc).done m sub hsub (hr hd)).1
  | recvDec e m o r ho hr ht =>
    simp only [recvBase_trace]
    refine simple rfl fun e' m' ho' => ?_
    rcases ho with ⟨rfl, _⟩ | ⟨rfl, _, hd, _, _, p, hp, hmp⟩ <;> cases ho'
    cases hj : s.jobs m with
    | none => exact hsj e m (h.1.2.pend _ _ _ hp hmp) hj
    | some j =>
      unfold takeBack at ht
      rw [show (recvBase s (.stranded e m) e).pending = s.pending from recvBase_pending .., show (recvBase s (.stranded e m) e).jobs = s.jobs from recvBase_jobs ..] at ht
      simp [hp, hj, hmp] at ht
  | recvRetry e m o r s' ho hr ht =>
    obtain ⟨p, j, _, _, _, rfl⟩ := takeBack_some ht
    simp only [recvBase_trace]
    intro hf
    refine StrandInv.emit2 (e := e) (m := m) (hs hf.snoc.snoc) (fun e' m' h => ?_) (by simp)
    rcases ho with ⟨rfl, _⟩ | ⟨rfl, _⟩ <;> cases h
    exact .inr rfl
  | recvUnmet e m ok o s' ho ht =>
    obtain ⟨p, j, _, _, _, rfl⟩ := takeBack_some ht
    simp only [recvBase_trace]
    intro hf
    refine StrandInv.emit2 (e := e) (m := m) (hs hf.snoc.snoc) (fun e' m' h => ?_) (by simp)
    rcases ho with ⟨rfl, _⟩ | ⟨rfl, _, hd, _⟩ <;> cases h
    cases hd
  | recvRelay e m ok o r ho =>
    simp only [relayState, recvBase_trace]
    intro hf
    refine StrandInv.emit2 (e := e) (m := m) (hs hf.snoc.snoc) (fun e' m' h => ?_) (by simp)
    rcases ho with ⟨rfl, _⟩ | ⟨rfl, hok, _⟩ <;> cases h
    exact .inl (by rw [hok])
  | popPending => exact hs
  | complete => exact hs
  | failedBy => exact hs

theorem run_strandInv (cfg : Config) (evs : List Event) (hf : Fresh evs) (hfa : Faithful (run cfg evs).trace) : SentJob (run cfg evs) ∧ StrandInv (run cfg evs).trace := by
  have h0 : RetryInv (run cfg []).trace (run cfg []).retries := run_retryInv cfg [] ⟨by simp, by simp⟩ (by intro p e m ok dm q h; simp [run] at h)
  have := run_inv cfg evs hf _ ⟨⟨⟨⟨loadInv_init cfg, jobInv_init⟩, fun _ => h0⟩, fun e m h => by cases h⟩, fun _ p e m q h => by simp at h⟩ fun ev _ => strandInv_closed (cfg := cfg) ev
  exact ⟨this.1.2, this.2 hfa⟩

/-! ## the reply of an engine -/

/-- the trace begins with `tr` -/
theorem ext_closed (ev : Event) (tr : List Obs) : Closed cfg ev (fun s => ∃ q, s.trace = tr ++ q) := by
  rintro s s' hm ⟨q, h⟩
  have ext : ∀ {o : Obs} {t : List Obs}, t = s.trace ++ [o] → ∃ q, t = tr ++ q := by
    rintro o t rfl
    exact ⟨q ++ [o], by rw [h]; simp⟩
  have ext2 : ∀ {o o' : Obs} {t : List Obs}, t = s.trace ++ [o] ++ [o'] → ∃ q, t = tr ++ q := by
    rintro o o' t rfl
    exact ⟨q ++ [o] ++ [o'], by rw [h]; simp⟩
  cases hm with
  | book hs => exact ⟨q, hs.trace.trans h⟩
  | fail s' m why hs hok => exact ext (o := .fail m why) (by rw [← hs.trace]; rfl)
  | send m j idx target => exact ext (sentState_trace ..)
  | register e => exact ext rfl
  | unregister e => exact ext rfl
  | strand e he => exact ⟨q, h⟩
  | submit m sub => exact ext rfl
  | submitJob m sub j => exact ext rfl
  | recv e m ok dm o ho => exact ext (recvBase_trace ..)
  | recvDec e m o r ho => exact ext (recvBase_trace ..)
  | recvRetry e m o r s' ho hr ht =>
    obtain ⟨p, j, _, _, _, rfl⟩ := takeBack_some ht
    exact ext2 (o := o) (o' := .retry e m .failure) (by simp only [recvBase_trace])
  | recvUnmet e m ok o s' ho ht =>
    obtain ⟨p, j, _, _, _, rfl⟩ := takeBack_some ht
    exact ext2 (o := o) (o' := .retry e m .unmet) (by simp only [recvBase_trace])
  | recvRelay e m ok o r ho => exact ext2 (o := o) (o' := .relay e m ok) (by simp only [relayState, recvBase_trace])
  | popPending => exact ⟨q, h⟩
  | complete => exact ⟨q, h⟩
  | failedBy => exact ⟨q, h⟩

/-- right after `tr` the scheduler has taken `m` back from `e`, or passed on the reply of `e` -/
def Dealt (tr : List Obs) (e : Engine) (m : MsgId) (s : State) : Prop := (∃ c q, s.trace = tr ++ .retry e m c :: q) ∨ ∃ ok q, s.trace = tr ++ .relay e m ok :: q

theorem dealt_closed (ev : Event) (tr : List Obs) (e : Engine) (m : MsgId) : Closed cfg ev (Dealt tr e m) := by
  intro s s' hm h
  rcases h with ⟨c, q, h⟩ | ⟨ok, q, h⟩
  · obtain ⟨q', h'⟩ := ext_closed ev (tr ++ [.retry e m c]) s s' hm ⟨q, by simp [h]⟩
    exact .inl ⟨c, q', by simp [h']⟩
  · obtain ⟨q', h'⟩ := ext_closed ev (tr ++ [.relay e m ok]) s s' hm ⟨q, by simp [h]⟩
    exact .inr ⟨ok, q', by simp [h']⟩

theorem dispatchResult_dealt (n : Nat) (e : Engine) (m : MsgId) (ok dm : Bool) (p : List MsgId) (s₀ : State) (hp : s₀.pending e = some p) (hm : m ∈ p) (hj : s₀.jobs m ≠ none)
    (hr : s₀.retries m ≠ none) : Hoare (fun s => s = s₀) (dispatchResult cfg n e m ok dm) (fun _ => Dealt s₀.trace e m) (Dealt s₀.trace e m) := by
  have hI := dealt_closed (cfg := cfg) (.jobTimer 0 0) s₀.trace e m
  have unmet : ∀ c s, s.trace = s₀.trace → s.pending = s₀.pending → s.jobs = s₀.jobs → Hoare (fun s' => s' = s) (handleUnmet cfg n e m c) (fun _ => Dealt s₀.trace e m) (Dealt s₀.trace e m) := by
    intro c s h3 h1 h2
    refine handleUnmet_pres hI n e m c s (fun hn => ?_) fun s' hs' => ?_
    · cases hj' : s₀.jobs m with
      | none => exact absurd hj' hj
      | some j => simp [takeBack, h1, h2, hp, hj', hm] at hn
    · obtain ⟨p, j, _, _, _, rfl⟩ := takeBack_some hs'
      exact .inl ⟨c, [], by simp [h3]⟩
  have res : ∀ s, s.trace = s₀.trace → Hoare (fun s' => s' = s) (handleResult cfg n e m ok) (fun _ => Dealt s₀.trace e m) (Dealt s₀.trace e m) := by
    intro s h3
    exact handleResult_pres hI n e m ok s (.inr ⟨ok, [], by simp [h3]⟩)
  unfold dispatchResult
  refine Hoare.getS fun s h => ?_
  subst h
  dsimp only
  have rest : ∀ s1 : State, s1.trace = s.trace → s1.pending = s.pending → s1.jobs = s.jobs → Hoare (fun s' => s' = s1) (if dm = true then
        lookupE (s.retries m) >>= fun r =>
          if (!ok) = true ∧ r > 0 then
            modS (fun s => { s with retries := upd s.retries m (some (r - 1)) }) >>= fun _ => handleUnmet cfg n e m .failure
          else
            modS (fun s => { s with retries := upd s.retries m none }) >>= fun _ => handleResult cfg n e m ok
       else handleUnmet cfg n e m .unmet) (fun _ => Dealt s.trace e m) (Dealt s.trace e m) := by
    intro s1 h3 h1 h2
    refine Hoare.ite (fun _ => ?_) fun _ => unmet _ s1 h3 h1 h2
    refine Hoare.lookupE (fun h => absurd h hr) fun r hr => ?_
    refine Hoare.ite (fun _ => ?_) fun _ => ?_
    · exact Hoare.modS fun s' h => unmet _ _ (by subst h; exact h3) (by subst h; exact h1) (by subst h; exact h2)
    · exact Hoare.modS fun s' h => res _ (by subst h; exact h3)
  split
  · exact rest s rfl rfl rfl
  · refine Hoare.modS fun s' h' => rest _ (by subst h'; rfl) (by subst h'; rfl) (by subst h'; rfl)

/-! ## whole histories -/

theorem assigned_quiet (e : Engine) (tr : List Obs) : ∀ r : List Obs, (∀ o ∈ r, isReceived o = false) → (∀ m, Obs.stranded e m ∉ r) →
    assigned e (tr ++ r) = assigned e tr ++ r.filterMap (fun | .send e' m => if e' = e then some m else none | _ => none) := by
  intro r
  induction r using snoc_induction with
  | nil => simp
  | snoc r o ih =>
    intro h1 h2
    rw [← List.append_assoc, assigned_snoc, ih (fun x hx => h1 x (List.mem_append_left _ hx)) fun m hm => h2 m (List.mem_append_left _ hm), List.filterMap_append]
    cases o with
    | send e' m' => by_cases he : e' = e <;> simp [he]
    | received => have := h1 _ (List.mem_append_right r (List.mem_singleton.mpr rfl)); cases this
    | stranded e' m' =>
      have : e' ≠ e := fun he => h2 m' (by simp [he])
      simp [this]
    | _ => simp

theorem count_quiet (e : Engine) (m : MsgId) (r : List Obs) : (r.filterMap (fun | .send e' m => if e' = e then some m else none | _ => none)).count m = r.count (.send e m) := by
  induction r with
  | nil => rfl
  | cons o r ih =>
    cases o with
    | send e' m' =>
      by_cases he : e' = e
      · subst he
        by_cases hm : m' = m
        · subst hm; simp [ih]
        · have : (Obs.send e' m' == Obs.send e' m) = false := by simp [hm]
          simp [ih, List.count_cons, hm]
      · simp [ih, List.count_cons, he]
    | _ => simp [ih, List.count_cons]

theorem replies_mono (m : MsgId) (a b : List Obs) : replies m a ≤ replies m (a ++ b) := by unfold replies; rw [List.countP_append]; omega

theorem relay_replies {e : Engine} {m : MsgId} {ok : Bool} {tr : List Obs} (h : Obs.relay e m ok ∈ tr) : replies m tr ≠ 0 := by
  have : 0 < replies m tr := List.countP_pos_iff.2 ⟨_, h, by simp⟩
  omega

/-- where a task that was sent to `e` is -/
def Settles (tr : List Obs) : Prop := ∀ e m, Obs.send e m ∈ tr → m ∈ assigned e tr ∨ (∃ c, Obs.retry e m c ∈ tr) ∨ replies m tr ≠ 0

/-- what is sent while an event is handled is assigned afterwards -/
theorem new_sends_assigned (cfg : Config) (evs : List Event) (ev : Event) (hf : Fresh (evs ++ [ev])) :
    ∃ r, (run cfg (evs ++ [ev])).trace = (run cfg evs).trace ++ r ∧ ∀ e m, r.count (.send e m) ≤ (assigned e ((run cfg evs).trace ++ r)).count m := by
  have hb := run_base cfg evs hf.snoc
  have hfr := hf.freshIn hb.1 hb.2
  have hj' := run_jobInv cfg _ hf
  have hl' := (run_base cfg _ hf).1
  rw [run_snoc] at *
  -- the new part of the trace
  have ⟨r, htr⟩ : ∃ r, (step cfg (run cfg evs) ev).trace = (run cfg evs).trace ++ r := by
    cases adds cfg (run cfg evs) ev hfr with
    | reply e m ok dm h r ht hr => exact ⟨_, ht⟩
    | strand e h he hs => obtain ⟨r, h1, _⟩ := hs; exact ⟨r, h1⟩
    | quiet hq r ht hr => exact ⟨r, ht⟩
  have hnosend : ∀ e m, ev = .strandTimer e → e ∈ (run cfg evs).strandTimers → r.count (.send e m) = 0 := by
    intro e' m _ he
    refine List.count_eq_zero.2 fun hm' => ?_
    obtain ⟨a, b, hab⟩ := List.append_of_mem hm'
    have hsplit : (step cfg (run cfg evs) ev).trace = ((run cfg evs).trace ++ a) ++ .send e' m :: b := by rw [htr, hab]; simp
    have hreg := (hj'.sent _ _ _ _ hsplit).1
    have h3 := hl'.once e'
    have h4 : 0 < (run cfg evs).trace.count (.unregistered e') := List.count_pos_iff.2 (hb.1.strand e' he)
    rw [hsplit] at h3
    simp only [Registered, List.count_append] at hreg h3
    omega
  -- new sends stay assigned
  have hkeep : ∀ e m, r.count (.send e m) ≤ (assigned e ((run cfg evs).trace ++ r)).count m := by
    intro e m
    cases adds cfg (run cfg evs) ev hfr with
    | reply e' m' ok dm h r' ht hr =>
      have : r = .received e' m' ok dm :: r' := List.append_cancel_left (htr.symm.trans ht)
      subst this
      rw [show (run cfg evs).trace ++ .received e' m' ok dm :: r' = ((run cfg evs).trace ++ [.received e' m' ok dm]) ++ r' by simp,
        assigned_quiet e _ r' (fun o ho => by have := hr o ho; cases o <;> simp_all [isBack, isReceived]) (fun x hx => by have := hr _ hx; simp [isBack] at this), List.count_append, count_quiet,
        List.count_cons]
      simp
    | strand e' h he hs =>
      obtain ⟨r', h1, h2, h3, h4⟩ := hs
      have : r = r' := List.append_cancel_left (htr.symm.trans h1)
      subst this
      by_cases hee : e' = e
      · subst hee
        have := hnosend e' m h he
        omega
      · rw [assigned_quiet e _ r h2 fun x hx => hee (h4 _ _ hx).symm, List.count_append, count_quiet]
        omega
    | quiet hq r' ht hr =>
      have : r = r' := List.append_cancel_left (htr.symm.trans ht)
      subst this
      rw [assigned_quiet e _ r (fun o ho => by have := hr o ho; cases o <;> simp_all [isBack, isReceived]) (fun x hx => by have := hr _ hx; simp [isBack] at this), List.count_append, count_quiet]
      omega
  exact ⟨r, htr, hkeep⟩

theorem settles_and_once (cfg : Config) (evs : List Event) (hf : Fresh evs) (ho : Orderly cfg evs) (hp : Prompt cfg evs) :
    Settles (run cfg evs).trace ∧ ∀ e m, (run cfg evs).trace.count (.send e m) ≤ 1 := by
  induction evs using snoc_induction with
  | nil => exact ⟨fun e m h => (by cases h), fun e m => (by simp [run])⟩
  | snoc evs ev ih =>
    have hoS : Orderly cfg evs := Orderly.prefix ho
    obtain ⟨ih1, ih2⟩ := ih hf.snoc hoS hp.snoc
    have hI := run_inv_of_orderly hf.snoc hoS hp.snoc
    have hI' := run_inv_of_orderly hf ho hp
    have hb := run_base cfg evs hf.snoc
    have hfr := hf.freshIn hb.1 hb.2
    have hfa := hp.faithful hf
    have hsi := run_strandInv cfg _ hf hfa
    have hsi0 := run_strandInv cfg _ hf.snoc (hp.snoc.faithful hf.snoc)
    have hj' := run_jobInv cfg _ hf
    have hl' := (run_base cfg _ hf).1
    rw [run_snoc] at *
    -- the new part of the trace
    have ⟨r, htr⟩ : ∃ r, (step cfg (run cfg evs) ev).trace = (run cfg evs).trace ++ r := by
      cases adds cfg (run cfg evs) ev hfr with
      | reply e m ok dm h r ht hr => exact ⟨_, ht⟩
      | strand e h he hs => obtain ⟨r, h1, _⟩ := hs; exact ⟨r, h1⟩
      | quiet hq r ht hr => exact ⟨r, ht⟩
    have hnosend : ∀ e m, ev = .strandTimer e → e ∈ (run cfg evs).strandTimers → r.count (.send e m) = 0 := by
      intro e' m _ he
      refine List.count_eq_zero.2 fun hm' => ?_
      obtain ⟨a, b, hab⟩ := List.append_of_mem hm'
      have hsplit : (step cfg (run cfg evs) ev).trace = ((run cfg evs).trace ++ a) ++ .send e' m :: b := by rw [htr, hab]; simp
      have hreg := (hj'.sent _ _ _ _ hsplit).1
      have h3 := hl'.once e'
      have h4 : 0 < (run cfg evs).trace.count (.unregistered e') := List.count_pos_iff.2 (hb.1.strand e' he)
      rw [hsplit] at h3
      simp only [Registered, List.count_append] at hreg h3
      omega
    -- new sends stay assigned
    have hkeep : ∀ e m, r.count (.send e m) ≤ (assigned e ((run cfg evs).trace ++ r)).count m := by
      intro e m
      cases adds cfg (run cfg evs) ev hfr with
      | reply e' m' ok dm h r' ht hr =>
        have : r = .received e' m' ok dm :: r' := List.append_cancel_left (htr.symm.trans ht)
        subst this
        rw [show (run cfg evs).trace ++ .received e' m' ok dm :: r' = ((run cfg evs).trace ++ [.received e' m' ok dm]) ++ r' by simp,
          assigned_quiet e _ r' (fun o ho => by have := hr o ho; cases o <;> simp_all [isBack, isReceived]) (fun x hx => by have := hr _ hx; simp [isBack] at this), List.count_append, count_quiet,
          List.count_cons]
        simp
      | strand e' h he hs =>
        obtain ⟨r', h1, h2, h3, h4⟩ := hs
        have : r = r' := List.append_cancel_left (htr.symm.trans h1)
        subst this
        by_cases hee : e' = e
        · subst hee
          have := hnosend e' m h he
          omega
        · rw [assigned_quiet e _ r h2 fun x hx => hee (h4 _ _ hx).symm, List.count_append, count_quiet]
          omega
      | quiet hq r' ht hr =>
        have : r = r' := List.append_cancel_left (htr.symm.trans ht)
        subst this
        rw [assigned_quiet e _ r (fun o ho => by have := hr o ho; cases o <;> simp_all [isBack, isReceived]) (fun x hx => by have := hr _ hx; simp [isBack] at this), List.count_append, count_quiet]
        omega
    have hdealt : ∀ e m ok dm, ev = .result e m ok dm → m ∈ assigned e (run cfg evs).trace →
        Dealt ((run cfg evs).trace ++ [.received e m ok dm]) e m (step cfg (run cfg evs) ev) := by
      rintro e m ok dm rfl h
      obtain ⟨_, h0, j, hj, _⟩ := hI.asg m e h
      have hpend : ∃ p, (run cfg evs).pending e = some p ∧ m ∈ p := by
        cases hpe : (run cfg evs).pending e with
        | none => rw [hI.pn e hpe] at h; cases h
        | some p => exact ⟨p, rfl, hI.ps e p hpe ▸ h⟩
      obtain ⟨p, hpe, hmp⟩ := hpend
      refine Hoare.final (P := fun s' => s' = run cfg evs) (I := Dealt ((run cfg evs).trace ++ [.received e m ok dm]) e m) ?_ rfl
      show Hoare _ (emit _ >>= fun _ => dispatchResult cfg _ e m ok dm) _ _
      unfold emit
      refine Hoare.modS fun s h => ?_
      subst h
      exact dispatchResult_dealt _ e m ok dm p { run cfg evs with trace := (run cfg evs).trace ++ [.received e m ok dm] } hpe hmp
        (by show (run cfg evs).jobs m ≠ none; rw [hj]; simp) (hI.ret m j hj h0)
    have hset : Settles (step cfg (run cfg evs) ev).trace := by
      intro e m hm
      rw [htr] at hm
      rcases List.mem_append.1 hm with hm | hm
      · rcases ih1 e m hm with h | ⟨c, h⟩ | h
        · by_cases hn : m ∈ assigned e (step cfg (run cfg evs) ev).trace
          · exact .inl hn
          · right
            have hrec : (∃ ok dm, ev = .result e m ok dm) ∨ Obs.stranded e m ∈ r := by
              cases adds cfg (run cfg evs) ev hfr with
              | reply e' m' ok dm h' r' ht hr =>
                by_cases hem : e' = e ∧ m' = m
                · obtain ⟨rfl, rfl⟩ := hem; exact .inl ⟨_, _, h'⟩
                · exfalso
                  refine hn ?_
                  rw [ht, show (run cfg evs).trace ++ .received e' m' ok dm :: r' = ((run cfg evs).trace ++ [.received e' m' ok dm]) ++ r' by simp,
                    assigned_quiet e _ r' (fun o ho => by have := hr o ho; cases o <;> simp_all [isBack, isReceived]) (fun x hx => by have := hr _ hx; simp [isBack] at this), assigned_snoc]
                  refine List.mem_append_left _ ?_
                  dsimp only
                  split
                  · rename_i hee
                    exact (List.mem_erase_of_ne fun hh => hem ⟨hee, hh.symm⟩).2 h
                  · exact h
              | strand e' h' he hs =>
                obtain ⟨r', h1, h2, _⟩ := hs
                have : r = r' := List.append_cancel_left (htr.symm.trans h1)
                subst this
                exact .inr (assigned_lost e m _ r h h2 (htr ▸ hn))
              | quiet hq r' ht hr =>
                have : r = r' := List.append_cancel_left (htr.symm.trans ht)
                subst this
                exact .inr (assigned_lost e m _ r h (fun o ho => by have := hr o ho; cases o <;> simp_all [isBack, isReceived]) (htr ▸ hn))
            rcases hrec with ⟨ok, dm, rfl⟩ | hst
            · rcases hdealt e m ok dm rfl h with ⟨c, q, h1⟩ | ⟨ok', q, h1⟩
              · exact .inl ⟨c, by rw [h1]; simp⟩
              · exact .inr (relay_replies (e := e) (ok := ok') (by rw [h1]; simp))
            · obtain ⟨a, b, hab⟩ := List.append_of_mem hst
              have hsplit : (step cfg (run cfg evs) ev).trace = ((run cfg evs).trace ++ a) ++ .stranded e m :: b := by rw [htr, hab]; simp
              rcases hsi.2 _ e m _ hsplit with h1 | ⟨q', h1⟩ | ⟨q', h1⟩
              · right
                have h2 := relays_le_replies m ((run cfg evs).trace ++ a)
                have h3 := replies_mono m ((run cfg evs).trace ++ a) (.stranded e m :: b)
                rw [hsplit]
                omega
              · exact .inr (relay_replies (e := e) (ok := false) (by rw [hsplit, h1]; simp))
              · exact .inl ⟨.failure, by rw [hsplit, h1]; simp⟩
        · exact .inr (.inl ⟨c, htr ▸ List.mem_append_left _ h⟩)
        · refine .inr (.inr ?_)
          have := replies_mono m (run cfg evs).trace r
          rw [htr]; omega
      · left
        rw [htr]
        have h1 := hkeep e m
        have h2 : 0 < r.count (.send e m) := List.count_pos_iff.2 hm
        exact List.count_pos_iff.1 (by omega)
    refine ⟨hset, fun e m => ?_⟩
    rw [htr, List.count_append]
    rcases Nat.eq_zero_or_pos (r.count (.send e m)) with h0 | h0
    · have := ih2 e m; omega
    · have h1 := hkeep e m
      have h2 : (assigned e ((run cfg evs).trace ++ r)).count m ≤ 1 := htr ▸ List.nodup_iff_count.mp (hI'.nod e) m
      rcases Nat.eq_zero_or_pos ((run cfg evs).trace.count (.send e m)) with h3 | h3
      · omega
      · exfalso
        have hret : ∀ c a b, r = a ++ .send e m :: b → Obs.retry e m c ∉ (run cfg evs).trace ++ a := by
          intro c a b hab
          have hsplit : (step cfg (run cfg evs) ev).trace = ((run cfg evs).trace ++ a) ++ .send e m :: b := by rw [htr, hab]; simp
          exact (hj'.sent _ _ _ _ hsplit).2.1 c
        have hasg : m ∈ assigned e (step cfg (run cfg evs) ev).trace := by rw [htr]; exact List.count_pos_iff.1 (by omega)
        have hrep : replies m (step cfg (run cfg evs) ev).trace = 0 := (hI'.asg m e hasg).2.1
        obtain ⟨a, b, hab⟩ := List.append_of_mem (List.count_pos_iff.1 h0)
        rcases ih1 e m (List.count_pos_iff.1 h3) with h | ⟨c, h⟩ | h
        · have hcnt : 0 < (assigned e (run cfg evs).trace).count m := List.count_pos_iff.2 h
          cases adds cfg (run cfg evs) ev hfr with
          | reply e' m' ok dm h' r' ht hr =>
            by_cases hem : e' = e ∧ m' = m
            · obtain ⟨rfl, rfl⟩ := hem
              rcases hdealt e' m' ok dm h' h with ⟨c, q, h4⟩ | ⟨ok', q, h4⟩
              · have h5 : r = .received e' m' ok dm :: .retry e' m' c :: q := List.append_cancel_left (htr.symm.trans (by rw [h4]; simp))
                subst h5
                have h6 : Obs.send e' m' ∈ q := by simpa using List.count_pos_iff.1 h0
                obtain ⟨a', b', hab'⟩ := List.append_of_mem h6
                exact hret c (.received e' m' ok dm :: .retry e' m' c :: a') b' (by rw [hab']; simp) (by simp)
              · exact relay_replies (e := e') (ok := ok') (by rw [h4]; simp) hrep
            · have : r = .received e' m' ok dm :: r' := List.append_cancel_left (htr.symm.trans ht)
              subst this
              rw [show (run cfg evs).trace ++ .received e' m' ok dm :: r' = ((run cfg evs).trace ++ [.received e' m' ok dm]) ++ r' by simp,
                assigned_quiet e _ r' (fun o ho => by have := hr o ho; cases o <;> simp_all [isBack, isReceived]) (fun x hx => by have := hr _ hx; simp [isBack] at this), assigned_snoc,
                List.count_append, count_quiet] at h2
              rw [List.count_cons] at h0
              simp at h0
              dsimp only at h2
              split at h2
              · rename_i hee
                rw [List.count_erase_of_ne (fun hh => hem ⟨hee, hh.symm⟩)] at h2
                have : 0 < r'.count (.send e m) := List.count_pos_iff.2 h0
                omega
              · have : 0 < r'.count (.send e m) := List.count_pos_iff.2 h0
                omega
          | strand e' h' he hs =>
            obtain ⟨r', h4, h5, h6, h7⟩ := hs
            have : r = r' := List.append_cancel_left (htr.symm.trans h4)
            subst this
            by_cases hee : e' = e
            · subst hee
              have := hnosend e' m h' he
              omega
            · rw [assigned_quiet e _ r h5 fun x hx => hee (h7 _ _ hx).symm, List.count_append, count_quiet] at h2
              omega
          | quiet hq r' ht hr =>
            have : r = r' := List.append_cancel_left (htr.symm.trans ht)
            subst this
            rw [assigned_quiet e _ r (fun o ho => by have := hr o ho; cases o <;> simp_all [isBack, isReceived]) (fun x hx => by have := hr _ hx; simp [isBack] at this), List.count_append, count_quiet] at h2
            omega
        · exact hret c a b hab (List.mem_append_left _ h)
        · have := replies_mono m (run cfg evs).trace r
          rw [← htr] at this
          omega

/-! ## C74 -/

/-- C74: no task is sent twice to the same engine, however often engines refuse it, fail it, or die. -/
theorem sent_once_partial (cfg : Config) (evs : List Event) (hf : Fresh evs) (ho : Orderly cfg evs) (hp : Prompt cfg evs) (e : Engine) (m : MsgId) :
    (run cfg evs).trace.count (.send e m) ≤ 1 := (settles_and_once cfg evs hf ho hp).2 e m

/-- C74: once the client has the reply of a task it is not sent any more. -/
theorem not_sent_after_reply_partial (cfg : Config) (evs : List Event) (ev : Event) (hf : Fresh (evs ++ [ev])) (ho : Orderly cfg (evs ++ [ev])) (hp : Prompt cfg (evs ++ [ev])) (e : Engine) (m : MsgId)
    (h : replies m (run cfg evs).trace ≠ 0) : (run cfg (evs ++ [ev])).trace.count (.send e m) = (run cfg evs).trace.count (.send e m) := by
  have ⟨r, hr, hk⟩ := new_sends_assigned cfg evs ev hf
  have h1 : replies m (run cfg (evs ++ [ev])).trace ≠ 0 := by
    have := replies_mono m (run cfg evs).trace r
    rw [hr]; omega
  have h2 : m ∉ assigned e (run cfg (evs ++ [ev])).trace := fun hm => h1 ((run_inv_of_orderly hf ho hp).asg m e hm).2.1
  have h3 := hk e m
  rw [← hr, List.count_eq_zero.2 h2] at h3
  rw [hr, List.count_append]
  omega

/-- C74: a task that was sent to an engine is there, or was taken back from it, or the client has its reply: at all times. -/
theorem sent_accounted_partial (cfg : Config) (evs : List Event) (hf : Fresh evs) (ho : Orderly cfg evs) (hp : Prompt cfg evs) (e : Engine) (m : MsgId) (h : Obs.send e m ∈ (run cfg evs).trace) :
    m ∈ assigned e (run cfg evs).trace ∨ (∃ c, Obs.retry e m c ∈ (run cfg evs).trace) ∨ replies m (run cfg evs).trace ≠ 0 := (settles_and_once cfg evs hf ho hp).1 e m h

/-- C20: each task of a dead engine is dealt with at once: unless the client already has a reply for it, its failure is passed on, or it is taken back for another try. -/
theorem stranded_dealt_at_once (cfg : Config) (evs : List Event) (hf : Fresh evs) (hfa : Faithful (run cfg evs).trace) (p q : List Obs) (e : Engine) (m : MsgId)
    (h : (run cfg evs).trace = p ++ .stranded e m :: q) : relays m p = 1 ∨ (∃ q', q = .relay e m false :: q') ∨ ∃ q', q = .retry e m .failure :: q' := (run_strandInv cfg evs hf hfa).2 p e m q h

/-- In the example of C19 task 4 is on engine 7 when that dies, and is then sent to 8. -/
example : (run exCfg2 exHistory2).trace.count (.send 7 4) ≤ 1 ∧ (run exCfg2 exHistory2).trace.count (.send 8 4) ≤ 1 :=
  ⟨sent_once_partial _ _ exHistory2_fresh exHistory2_orderly exHistory2_prompt _ _, sent_once_partial _ _ exHistory2_fresh exHistory2_orderly exHistory2_prompt _ _⟩
example : Obs.send 7 4 ∈ (run exCfg2 exHistory2).trace ∧ Obs.stranded 7 4 ∈ (run exCfg2 exHistory2).trace ∧ Obs.retry 7 4 .failure ∈ (run exCfg2 exHistory2).trace ∧ Obs.send 8 4 ∈ (run exCfg2 exHistory2).trace := by decide

/-- C74 fails with `hwm = 0` and dependencies: task 2 is sent twice to engine 7 (task_scheduler.py:715-719, 741: a task sent by way of `graph` stays in `queue`). -/
theorem sent_twice_same_violated :
    (run { hwm := 0, pick := fun _ l => l.length - 1 } [.register 7, .submit 1 {}, .submit 2 { after := some { ids := [1] } }, .result 7 1 true true, .register 8]).trace.count (.send 7 2) = 2 := by decide

end IPP.Sched
