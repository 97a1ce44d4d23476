import Verif.Hub.MsgProps

/-! # C30: queue status -/
namespace IPP.Hub

/-! ## Specification -/

/-- messages sent to the queue of engine `u` and not answered, in the order they were sent -/
def unanswered (u : Uuid) (evs : List MEv) : List Mid :=
  evs.foldl (fun l e => match e with
    | .queueRequest u' m => if u' = u then l ++ [m] else l
    | .queueResult u' m _ => if u' = u then l.erase m else l
    | _ => l) []

/-- tasks assigned to engine `u` whose result did not arrive from `u`, in order of assignment -/
def running (u : Uuid) (evs : List MEv) : List Mid :=
  evs.foldl (fun l e => match e with
    | .taskDestination m u' => if u' = u then l ++ [m] else l
    | .taskResult m r => if r.engine = some u then l.erase m else l
    | _ => l) []

/-- everything that engine `u` answered (aborted tasks excepted) -/
def finished (u : Uuid) (evs : List MEv) : List Mid :=
  evs.foldl (fun l e => match e with
    | .queueResult u' m _ => if u' = u then l ++ [m] else l
    | .taskResult m r => if r.engine = some u ∧ r.aborted = false then l ++ [m] else l
    | _ => l) []

/-- notifications of the history so far -/
def regNotes (evs : List MEv) : List Note := (run (regEvs evs)).2

def Announced (u : Uuid) (evs : List MEv) : Prop := ∃ i, Note.registered u i ∈ regNotes evs

def Note.registers (u : Uuid) : Note → Bool
  | .registered u' _ => u' = u
  | _ => false

/-- How clients, engines and scheduler use the hub. -/
structure WellBehaved (c : MCfg) (evs : List MEv) : Prop where
  /-- one controller -/
  live : ∀ e ∈ evs, e.Live
  /-- an engine's uuid is registered once -/
  once : ∀ u, (regNotes evs).countP (Note.registers u) ≤ 1
  /-- messages are sent to engines that have been announced -/
  announcedQ : ∀ pre u m post, evs = pre ++ .queueRequest u m :: post → Announced u pre
  announcedT : ∀ pre m u post, evs = pre ++ .taskDestination m u :: post → Announced u pre
  announcedR : ∀ pre m r post, evs = pre ++ .taskResult m r :: post → ∀ u, r.engine = some u → Announced u pre
  /-- message ids are new, those of tasks are not those of queued messages -/
  newQ : ∀ pre u m post, evs = pre ++ .queueRequest u m :: post → ∀ u', .queueRequest u' m ∉ pre
  newT : ∀ pre m post, evs = pre ++ .taskRequest m :: post → .taskRequest m ∉ pre
  sep : ∀ u m, .queueRequest u m ∈ evs → .taskRequest m ∉ evs ∧ (∀ r, .taskResult m r ∉ evs) ∧ ∀ ms news, .resubmit ms news ∈ evs → m ∉ news
  /-- engines answer messages they were sent, once -/
  answersQ : ∀ pre u m r post, evs = pre ++ .queueResult u m r :: post → .queueRequest u m ∈ pre ∧ ∀ r', .queueResult u m r' ∉ pre
  answersT : ∀ pre m r post, evs = pre ++ .taskResult m r :: post → .taskRequest m ∈ pre ∧ ∀ r', .taskResult m r' ∉ pre
  /-- an engine id is not taken again before the messages of the lost engine have been dealt with -/
  timers : ∀ pre i post, evs = pre ++ .timer i :: post → ∀ e u, (mrun c pre).timers[i]? = some (e, u) → e ∉ (mrun c pre).reg.engines.map Prod.fst

theorem regNotes_snoc (evs : List MEv) (e : MEv) : regNotes (evs ++ [e]) = regNotes evs ++ (match e with
    | .reg ev => (step (run (regEvs evs)).1 ev).2
    | _ => []) := by
  cases e with
  | reg ev =>
    have : regEvs (evs ++ [.reg ev]) = regEvs evs ++ [ev] := by simp [regEvs]
    unfold regNotes
    rw [this]
    simp [run, runNotes_append, runNotes]
  | _ => simp [regNotes, regEvs, List.filterMap_append]

theorem WellBehaved.prefix {c : MCfg} {evs : List MEv} {e : MEv} (h : WellBehaved c (evs ++ [e])) : WellBehaved c evs where
  live := fun x hx => h.live x (by simp [hx])
  once := fun u => by
    have := h.once u
    rw [regNotes_snoc, List.countP_append] at this
    omega
  announcedQ := fun pre u m post he => h.announcedQ pre u m (post ++ [e]) (by simp [he])
  announcedT := fun pre m u post he => h.announcedT pre m u (post ++ [e]) (by simp [he])
  announcedR := fun pre m r post he => h.announcedR pre m r (post ++ [e]) (by simp [he])
  newQ := fun pre u m post he => h.newQ pre u m (post ++ [e]) (by simp [he])
  newT := fun pre m post he => h.newT pre m (post ++ [e]) (by simp [he])
  sep := fun u m hm => by
    obtain ⟨h1, h2, h3⟩ := h.sep u m (by simp [hm])
    exact ⟨fun hc => h1 (by simp [hc]), fun r hc => h2 r (by simp [hc]), fun ms news hc => h3 ms news (by simp [hc])⟩
  answersQ := fun pre u m r post he => h.answersQ pre u m r (post ++ [e]) (by simp [he])
  answersT := fun pre m r post he => h.answersT pre m r (post ++ [e]) (by simp [he])
  timers := fun pre i post he => h.timers pre i (post ++ [e]) (by simp [he])

theorem mem_split_of_mem {evs : List MEv} {e : MEv} (h : e ∈ evs) : ∃ pre post, evs = pre ++ e :: post := List.append_of_mem h

theorem regNotes_prefix {a b : List MEv} {n : Note} (h : n ∈ regNotes a) : n ∈ regNotes (a ++ b) := by
  have : regEvs (a ++ b) = regEvs a ++ regEvs b := by simp [regEvs]
  unfold regNotes at *
  rw [this]
  simp only [run, runNotes_append, List.mem_append]
  exact .inl h

/-! ## lists of the specification -/

theorem unanswered_snoc (u : Uuid) (evs : List MEv) (e : MEv) : unanswered u (evs ++ [e]) = match e with
    | .queueRequest u' m => if u' = u then unanswered u evs ++ [m] else unanswered u evs
    | .queueResult u' m _ => if u' = u then (unanswered u evs).erase m else unanswered u evs
    | _ => unanswered u evs := by
  simp only [unanswered, List.foldl_append, List.foldl_cons, List.foldl_nil]

theorem running_snoc (u : Uuid) (evs : List MEv) (e : MEv) : running u (evs ++ [e]) = match e with
    | .taskDestination m u' => if u' = u then running u evs ++ [m] else running u evs
    | .taskResult m r => if r.engine = some u then (running u evs).erase m else running u evs
    | _ => running u evs := by
  simp only [running, List.foldl_append, List.foldl_cons, List.foldl_nil]

theorem finished_snoc (u : Uuid) (evs : List MEv) (e : MEv) : finished u (evs ++ [e]) = match e with
    | .queueResult u' m _ => if u' = u then finished u evs ++ [m] else finished u evs
    | .taskResult m r => if r.engine = some u ∧ r.aborted = false then finished u evs ++ [m] else finished u evs
    | _ => finished u evs := by
  simp only [finished, List.foldl_append, List.foldl_cons, List.foldl_nil]

theorem mem_unanswered {u : Uuid} {evs : List MEv} {m : Mid} (h : m ∈ unanswered u evs) : .queueRequest u m ∈ evs := by
  induction evs using list_snoc_induction with
  | h0 => simp [unanswered] at h
  | h1 evs e ih =>
    rw [unanswered_snoc] at h
    cases e with
    | queueRequest u' m' =>
      simp only at h
      split at h
      · rename_i hu
        rcases List.mem_append.1 h with h | h
        · simp [ih h]
        · simp at h; simp [h, hu]
      · simp [ih h]
    | queueResult u' m' r =>
      simp only at h
      split at h
      · simp [ih (List.mem_of_mem_erase h)]
      · simp [ih h]
    | _ => simp [ih h]

theorem unanswered_of {u : Uuid} {evs : List MEv} {m : Mid} (h : .queueRequest u m ∈ evs) (hn : ∀ r, .queueResult u m r ∉ evs) : m ∈ unanswered u evs := by
  induction evs using list_snoc_induction with
  | h0 => simp at h
  | h1 evs e ih =>
    have hn' : ∀ r, .queueResult u m r ∉ evs := fun r hc => hn r (by simp [hc])
    rw [unanswered_snoc]
    rcases List.mem_append.1 h with h | h
    · have := ih h hn'
      cases e with
      | queueRequest u' m' => simp only; split <;> simp [this]
      | queueResult u' m' r =>
        simp only
        split
        · rename_i hu
          have hne : m ≠ m' := fun he => hn r (by simp [he, hu])
          exact (List.mem_erase_of_ne hne).2 this
        · exact this
      | _ => exact this
    · simp at h; subst h; simp

theorem unanswered_nil {u : Uuid} {evs : List MEv} (h : ∀ m, .queueRequest u m ∉ evs) : unanswered u evs = [] := by
  cases hu : unanswered u evs with
  | nil => rfl
  | cons m l => exact absurd (mem_unanswered (u := u) (m := m) (evs := evs) (by rw [hu]; simp)) (h m)

theorem mem_running {u : Uuid} {evs : List MEv} {m : Mid} (h : m ∈ running u evs) : .taskDestination m u ∈ evs := by
  induction evs using list_snoc_induction with
  | h0 => simp [running] at h
  | h1 evs e ih =>
    rw [running_snoc] at h
    cases e with
    | taskDestination m' u' =>
      simp only at h
      split at h
      · rename_i hu
        rcases List.mem_append.1 h with h | h
        · simp [ih h]
        · simp at h; simp [h, hu]
      · simp [ih h]
    | taskResult m' r =>
      simp only at h
      split at h
      · simp [ih (List.mem_of_mem_erase h)]
      · simp [ih h]
    | _ => simp [ih h]

theorem running_nil {u : Uuid} {evs : List MEv} (h : ∀ m, .taskDestination m u ∉ evs) : running u evs = [] := by
  cases hu : running u evs with
  | nil => rfl
  | cons m l => exact absurd (mem_running (u := u) (m := m) (evs := evs) (by rw [hu]; simp)) (h m)

theorem mem_finished {u : Uuid} {evs : List MEv} {m : Mid} (h : m ∈ finished u evs) :
    (∃ r, .queueResult u m r ∈ evs) ∨ ∃ r, .taskResult m r ∈ evs ∧ r.engine = some u := by
  induction evs using list_snoc_induction with
  | h0 => simp [finished] at h
  | h1 evs e ih =>
    have lift : ((∃ r, .queueResult u m r ∈ evs) ∨ ∃ r, .taskResult m r ∈ evs ∧ r.engine = some u) →
        (∃ r, .queueResult u m r ∈ evs ++ [e]) ∨ ∃ r, .taskResult m r ∈ evs ++ [e] ∧ r.engine = some u := by
      rintro (⟨r, hr⟩ | ⟨r, hr, hr'⟩)
      · exact .inl ⟨r, by simp [hr]⟩
      · exact .inr ⟨r, by simp [hr], hr'⟩
    rw [finished_snoc] at h
    cases e with
    | queueResult u' m' r =>
      simp only at h
      split at h
      · rename_i hu
        rcases List.mem_append.1 h with h | h
        · exact lift (ih h)
        · simp at h; exact .inl ⟨r, by simp [h, hu]⟩
      · exact lift (ih h)
    | taskResult m' r =>
      simp only at h
      split at h
      · rename_i hu
        rcases List.mem_append.1 h with h | h
        · exact lift (ih h)
        · simp at h; exact .inr ⟨r, by simp [h], hu.1⟩
      · exact lift (ih h)
    | _ => exact lift (ih h)

/-! ## one registration event -/

theorem reg_step_cases {r : Reg} (h : Inv r) {ev : Ev} (hl : ev.Live) :
    ((step r ev).1.engines = r.engines ∧ ∀ s : Hub, (step r ev).2.foldl noteEffect s = s) ∨
    (∃ u e, (step r ev).2 = [.registered u e] ∧ (step r ev).1.engines = r.engines ++ [(e, u)] ∧ e ∉ r.engines.map Prod.fst) ∨
    (∃ u e, (step r ev).2 = [.unregistered u e] ∧ (step r ev).1.engines = delKey r.engines e) := by
  have hun : ∀ e, (step r ev) = unregister r e →
    ((step r ev).1.engines = r.engines ∧ ∀ s : Hub, (step r ev).2.foldl noteEffect s = s) ∨
    (∃ u e, (step r ev).2 = [.registered u e] ∧ (step r ev).1.engines = r.engines ++ [(e, u)] ∧ e ∉ r.engines.map Prod.fst) ∨
    (∃ u e, (step r ev).2 = [.unregistered u e] ∧ (step r ev).1.engines = delKey r.engines e) := by
    intro e heq
    rw [heq]
    unfold unregister
    cases hg : getKey r.engines e with
    | none =>
      left
      simp only
      split <;> exact ⟨rfl, fun _ => rfl⟩
    | some u => exact .inr (.inr ⟨u, e, rfl, rfl⟩)
  cases ev with
  | register u q =>
    left
    simp only [step, register]
    split
    · exact ⟨rfl, fun _ => rfl⟩
    · split <;> exact ⟨rfl, fun _ => rfl⟩
  | newHeart u =>
    simp only [step]
    split
    · cases hg : getKey r.incoming u with
      | none => left; simp [finish, hg]
      | some e =>
        right; left
        rw [finish_some h hg]
        refine ⟨u, e, rfl, rfl, ?_⟩
        intro hx
        exact (List.nodup_append.1 h.ids).2.2 _ hx _ (List.mem_map.2 ⟨_, getKey_some hg, rfl⟩) rfl
    · exact .inl ⟨rfl, fun _ => rfl⟩
  | stoppedHeart u =>
    cases hg : getKey r.hearts u with
    | none => left; simp [step, hg]
    | some e => exact hun e (by simp [step, hg])
  | unregister e => exact hun e rfl
  | stall u => exact .inl ⟨rfl, fun _ => rfl⟩
  | restart => exact hl.elim
  | restartCrash k => exact hl.elim

/-! ## the invariant -/

structure Status (evs : List MEv) (s : Hub) : Prop where
  q : ∀ e u, (e, u) ∈ s.reg.engines → s.queues e = unanswered u evs
  t : ∀ e u, (e, u) ∈ s.reg.engines → s.tasks e = running u evs
  f : ∀ e u, (e, u) ∈ s.reg.engines → s.completed e = finished u evs
  idin : ∀ e u, (e, u) ∈ s.reg.engines → e ∈ s.ids
  qp : ∀ e u, (e, u) ∈ s.reg.engines → ∀ m ∈ s.queues e, m ∈ s.pending
  qn : ∀ e, (s.queues e).Nodup
  qd : ∀ e e', e ≠ e' → ∀ m ∈ s.queues e, m ∉ s.queues e'
  qo : ∀ e m, m ∈ s.queues e → ∃ u, .queueRequest u m ∈ evs
  qu : ∀ u u' m, .queueRequest u m ∈ evs → .queueRequest u' m ∈ evs → u = u'
  tp : ∀ m, .taskRequest m ∈ evs → (∀ r, .taskResult m r ∉ evs) → m ∈ s.pending

theorem engines_inj {r : Reg} (h : Inv r) {e e' : Eid} {u u' : Uuid} (h1 : (e, u) ∈ r.engines) (h2 : (e', u') ∈ r.engines) : e = e' ↔ u = u' := by
  have g1 := getKey_of_mem (List.nodup_append.1 h.ids).1 h1
  have g2 := getKey_of_mem (List.nodup_append.1 h.ids).1 h2
  have k1 := (ident_of_inv h u e).2 h1
  have k2 := (ident_of_inv h u' e').2 h2
  constructor
  · rintro rfl; rw [g1] at g2; simpa using g2
  · rintro rfl; rw [k1] at k2; simpa using k2

/-- fields that do not depend on the last event, when the specification's lists do not change -/
theorem Status.same {evs : List MEv} {s s' : Hub} {e : MEv} (h : Status evs s) (hreg : s'.reg.engines = s.reg.engines) (hq : s'.queues = s.queues)
    (ht : s'.tasks = s.tasks) (hf : s'.completed = s.completed) (hi : s'.ids = s.ids) (hp : ∀ m ∈ s.pending, m ∈ s'.pending)
    (h1 : ∀ u, unanswered u (evs ++ [e]) = unanswered u evs) (h2 : ∀ u, running u (evs ++ [e]) = running u evs) (h3 : ∀ u, finished u (evs ++ [e]) = finished u evs)
    (h4 : ∀ u m, e ≠ .queueRequest u m) (h5 : ∀ m, e = .taskRequest m → m ∈ s'.pending) : Status (evs ++ [e]) s' where
  q := fun ei u hm => by rw [hq, h1]; exact h.q ei u (hreg ▸ hm)
  t := fun ei u hm => by rw [ht, h2]; exact h.t ei u (hreg ▸ hm)
  f := fun ei u hm => by rw [hf, h3]; exact h.f ei u (hreg ▸ hm)
  idin := fun ei u hm => by rw [hi]; exact h.idin ei u (hreg ▸ hm)
  qp := fun ei u hm m hmq => hp m (h.qp ei u (hreg ▸ hm) m (hq ▸ hmq))
  qn := by rw [hq]; exact h.qn
  qd := by rw [hq]; exact h.qd
  qo := fun ei m hm => by
    obtain ⟨u, hu⟩ := h.qo ei m (hq ▸ hm)
    exact ⟨u, by simp [hu]⟩
  qu := fun u u' m hu hu' => by
    have g : ∀ u, MEv.queueRequest u m ∈ evs ++ [e] → MEv.queueRequest u m ∈ evs := by
      intro u hu
      rcases List.mem_append.1 hu with hu | hu
      · exact hu
      · simp at hu; exact absurd hu.symm (h4 u m)
    exact h.qu u u' m (g u hu) (g u' hu')
  tp := fun m hm hr => by
    rcases List.mem_append.1 hm with hm | hm
    · exact hp m (h.tp m hm (fun r hc => hr r (by simp [hc])))
    · simp at hm; exact h5 m hm.symm

theorem Status.step {c : MCfg} {evs : List MEv} {s : Hub} (hs : s = mrun c evs) (h : Status evs s) (e : MEv) (hw : WellBehaved c (evs ++ [e])) :
    Status (evs ++ [e]) (mstep c s e) := by
  have hlive := hw.live
  have hw0 := hw.prefix
  have hinv : Inv s.reg := by rw [hs]; exact hub_reg_inv c evs hw0.live
  have hel : e.Live := hw.live e (by simp)
  cases e with
  | reg ev =>
    have hu1 : ∀ u, unanswered u (evs ++ [.reg ev]) = unanswered u evs := fun u => by rw [unanswered_snoc]
    have hr1 : ∀ u, running u (evs ++ [.reg ev]) = running u evs := fun u => by rw [running_snoc]
    have hf1 : ∀ u, finished u (evs ++ [.reg ev]) = finished u evs := fun u => by rw [finished_snoc]
    simp only [mstep, regStep_live c s hel]
    rcases reg_step_cases hinv hel with ⟨he, hn⟩ | ⟨u, e, hn, he, hfr⟩ | ⟨u, e, hn, he⟩
    · rw [hn]
      exact h.same he rfl rfl rfl rfl (fun _ hm => hm) hu1 hr1 hf1 (by intro u m hc; simp at hc) (by intro m hc; simp at hc)
    · -- a new engine
      have hnot : ¬ Announced u evs := by
        rintro ⟨i, hi⟩
        have hc := hw.once u
        rw [regNotes_snoc, List.countP_append] at hc
        simp only at hc
        rw [← mrun_reg c evs hw0.live, ← hs, hn] at hc
        have h1 : 0 < (regNotes evs).countP (Note.registers u) := List.countP_pos_iff.2 ⟨_, hi, by simp [Note.registers]⟩
        have h2 : List.countP (Note.registers u) [Note.registered u e] = 1 := by simp [Note.registers]
        omega
      have e1 : ∀ m, .queueRequest u m ∉ evs := by
        intro m hm
        obtain ⟨pre, post, he⟩ := mem_split_of_mem hm
        obtain ⟨i, hi⟩ := hw0.announcedQ pre u m post he
        exact hnot ⟨i, by rw [he]; exact regNotes_prefix hi⟩
      have e2 : ∀ m, .taskDestination m u ∉ evs := by
        intro m hm
        obtain ⟨pre, post, he⟩ := mem_split_of_mem hm
        obtain ⟨i, hi⟩ := hw0.announcedT pre m u post he
        exact hnot ⟨i, by rw [he]; exact regNotes_prefix hi⟩
      have e3 : finished u evs = [] := by
        cases hfin : finished u evs with
        | nil => rfl
        | cons m l =>
          exfalso
          rcases mem_finished (u := u) (m := m) (evs := evs) (by rw [hfin]; simp) with ⟨r, hr⟩ | ⟨r, hr, hru⟩
          · obtain ⟨pre, post, he⟩ := mem_split_of_mem hr
            exact e1 m (by rw [he]; simp [(hw0.answersQ pre u m r post he).1])
          · obtain ⟨pre, post, he⟩ := mem_split_of_mem hr
            obtain ⟨i, hi⟩ := hw0.announcedR pre m r post he u hru
            exact hnot ⟨i, by rw [he]; exact regNotes_prefix hi⟩
      rw [hn]
      simp only [List.foldl_cons, List.foldl_nil, noteEffect]
      have hcase : ∀ e' u', (e', u') ∈ (Hub.step s.reg ev).1.engines → (e' = e ∧ u' = u) ∨ (e' ≠ e ∧ (e', u') ∈ s.reg.engines) := by
        intro e' u' hm
        rw [he] at hm
        rcases List.mem_append.1 hm with hm | hm
        · exact .inr ⟨fun hc => hfr (hc ▸ List.mem_map.2 ⟨_, hm, rfl⟩), hm⟩
        · simp at hm; exact .inl hm
      have hsub : ∀ e' m, m ∈ upd s.queues e [] e' → m ∈ s.queues e' := by
        intro e' m hm
        simp only [upd] at hm
        split at hm
        · simp at hm
        · exact hm
      refine { q := ?_, t := ?_, f := ?_, idin := ?_, qp := ?_, qn := ?_, qd := ?_, qo := ?_, qu := ?_, tp := ?_ }
      · intro e' u' hm
        rw [hu1]
        rcases hcase e' u' hm with ⟨rfl, rfl⟩ | ⟨h1, h2⟩
        · simp [upd, unanswered_nil e1]
        · simp only [upd, h1, if_false]; exact h.q e' u' h2
      · intro e' u' hm
        rw [hr1]
        rcases hcase e' u' hm with ⟨rfl, rfl⟩ | ⟨h1, h2⟩
        · simp [upd, running_nil e2]
        · simp only [upd, h1, if_false]; exact h.t e' u' h2
      · intro e' u' hm
        rw [hf1]
        rcases hcase e' u' hm with ⟨rfl, rfl⟩ | ⟨h1, h2⟩
        · simp [upd, e3]
        · simp only [upd, h1, if_false]; exact h.f e' u' h2
      · intro e' u' hm
        rcases hcase e' u' hm with ⟨rfl, rfl⟩ | ⟨h1, h2⟩
        · exact mem_addTo.2 (.inr rfl)
        · exact mem_addTo.2 (.inl (h.idin e' u' h2))
      · intro e' u' hm m hmq
        rcases hcase e' u' hm with ⟨rfl, rfl⟩ | ⟨h1, h2⟩
        · simp [upd] at hmq
        · exact h.qp e' u' h2 m (hsub e' m hmq)
      · intro e'
        simp only [upd]; split
        · simp
        · exact h.qn e'
      · intro e1 e2 hne m hm hm'
        exact h.qd e1 e2 hne m (hsub _ _ hm) (hsub _ _ hm')
      · intro e' m hm
        obtain ⟨u', hu'⟩ := h.qo e' m (hsub _ _ hm)
        exact ⟨u', by simp [hu']⟩
      · intro u1 u2 m h1 h2
        simp at h1 h2
        exact h.qu u1 u2 m h1 h2
      · intro m h1 h2
        simp at h1 h2
        exact h.tp m h1 h2
    · rw [hn]
      simp only [List.foldl_cons, List.foldl_nil, noteEffect]
      have hsub : ∀ x, x ∈ (Hub.step s.reg ev).1.engines → x ∈ s.reg.engines := by
        rw [he]; intro x hx; exact (mem_delKey.1 hx).1
      refine { q := ?_, t := ?_, f := ?_, idin := ?_, qp := ?_, qn := h.qn, qd := h.qd, qo := ?_, qu := ?_, tp := ?_ }
      · intro e' u' hm; rw [hu1]; exact h.q e' u' (hsub _ hm)
      · intro e' u' hm; rw [hr1]; exact h.t e' u' (hsub _ hm)
      · intro e' u' hm; rw [hf1]; exact h.f e' u' (hsub _ hm)
      · intro e' u' hm; exact h.idin e' u' (hsub _ hm)
      · intro e' u' hm; exact h.qp e' u' (hsub _ hm)
      · intro e' m hm
        obtain ⟨u', hu'⟩ := h.qo e' m hm
        exact ⟨u', by simp [hu']⟩
      · intro u1 u2 m h1 h2
        simp at h1 h2
        exact h.qu u1 u2 m h1 h2
      · intro m h1 h2
        simp at h1 h2
        exact h.tp m h1 h2
  | queueRequest u m =>
    have hnew := hw.newQ evs u m [] rfl
    have hqu : ∀ u1 u2 m', MEv.queueRequest u1 m' ∈ evs ++ [.queueRequest u m] → MEv.queueRequest u2 m' ∈ evs ++ [.queueRequest u m] → u1 = u2 := by
      intro u1 u2 m' h1 h2
      simp only [List.mem_append, List.mem_singleton, MEv.queueRequest.injEq] at h1 h2
      rcases h1 with h1 | ⟨rfl, rfl⟩
      · rcases h2 with h2 | ⟨rfl, rfl⟩
        · exact h.qu u1 u2 m' h1 h2
        · exact absurd h1 (hnew u1)
      · rcases h2 with h2 | ⟨rfl, _⟩
        · exact absurd h2 (hnew u2)
        · rfl
    have hnq : ∀ e', m ∉ s.queues e' := by
      intro e' hm
      obtain ⟨u', hu'⟩ := h.qo e' m hm
      exact hnew u' hu'
    have hr1 : ∀ u', running u' (evs ++ [.queueRequest u m]) = running u' evs := fun u' => by rw [running_snoc]
    have hf1 : ∀ u', finished u' (evs ++ [.queueRequest u m]) = finished u' evs := fun u' => by rw [finished_snoc]
    have htp : ∀ m', MEv.taskRequest m' ∈ evs ++ [.queueRequest u m] → (∀ r, .taskResult m' r ∉ evs ++ [.queueRequest u m]) → m' ∈ s.pending := by
      intro m' h1 h2
      simp at h1 h2
      exact h.tp m' h1 h2
    simp only [mstep, queueRequest]
    cases hg : getKey s.reg.byIdent u with
    | none =>
      simp only
      have hne : ∀ e' u', (e', u') ∈ s.reg.engines → u ≠ u' := by
        intro e' u' hm hc
        rw [(ident_of_inv hinv u e').2 (hc ▸ hm)] at hg; simp at hg
      refine { q := ?_, t := ?_, f := ?_, idin := h.idin, qp := h.qp, qn := h.qn, qd := h.qd, qo := ?_, qu := hqu, tp := htp }
      · intro e' u' hm
        rw [unanswered_snoc]; simp only [hne e' u' hm, if_false]; exact h.q e' u' hm
      · intro e' u' hm; rw [hr1]; exact h.t e' u' hm
      · intro e' u' hm; rw [hf1]; exact h.f e' u' hm
      · intro e' m' hm
        obtain ⟨u', hu'⟩ := h.qo e' m' hm
        exact ⟨u', by simp [hu']⟩
    | some ei =>
      have hei := (ident_of_inv hinv u ei).1 hg
      simp only
      refine { q := ?_, t := ?_, f := ?_, idin := h.idin, qp := ?_, qn := ?_, qd := ?_, qo := ?_, qu := hqu, tp := ?_ }
      · intro e' u' hm
        rw [unanswered_snoc]
        simp only [upd]
        have := engines_inj hinv hm hei
        by_cases he : e' = ei
        · have hu := this.1 he
          subst he; subst hu
          simp [h.q e' u' hm]
        · have hu : ¬ u = u' := fun hc => he (this.2 hc.symm)
          simp only [he, hu, if_false]; exact h.q e' u' hm
      · intro e' u' hm; rw [hr1]; exact h.t e' u' hm
      · intro e' u' hm; rw [hf1]; exact h.f e' u' hm
      · intro e' u' hm m' hm'
        simp only [upd] at hm'
        split at hm'
        · rename_i he
          rcases List.mem_append.1 hm' with hm' | hm'
          · exact mem_addTo.2 (.inl (h.qp e' u' hm m' (he ▸ hm')))
          · simp at hm'; exact mem_addTo.2 (.inr hm')
        · exact mem_addTo.2 (.inl (h.qp e' u' hm m' hm'))
      · intro e'
        simp only [upd]
        split
        · rw [List.nodup_append]
          refine ⟨h.qn ei, by simp, ?_⟩
          intro a ha b hb
          simp at hb; subst hb
          exact fun hc => hnq ei (hc ▸ ha)
        · exact h.qn e'
      · intro e1 e2 hne m' hm hm'
        simp only [upd] at hm hm'
        split at hm
        · rename_i he1
          have he2 : ¬ e2 = ei := fun hc => hne (he1.trans hc.symm)
          simp only [he2, if_false] at hm'
          rcases List.mem_append.1 hm with hm | hm
          · exact h.qd ei e2 (fun hc => he2 hc.symm) m' hm hm'
          · simp at hm; exact hnq e2 (hm ▸ hm')
        · split at hm'
          · rename_i he1 he2
            rcases List.mem_append.1 hm' with hm' | hm'
            · exact h.qd e1 ei he1 m' hm hm'
            · simp at hm'; exact hnq e1 (hm' ▸ hm)
          · exact h.qd e1 e2 hne m' hm hm'
      · intro e' m' hm
        simp only [upd] at hm
        split at hm
        · rcases List.mem_append.1 hm with hm | hm
          · obtain ⟨u', hu'⟩ := h.qo _ m' hm
            exact ⟨u', by simp [hu']⟩
          · simp at hm; exact ⟨u, by simp [hm]⟩
        · obtain ⟨u', hu'⟩ := h.qo _ m' hm
          exact ⟨u', by simp [hu']⟩
      · intro m' h1 h2
        exact mem_addTo.2 (.inl (htp m' h1 h2))
  | queueResult u m r =>
    obtain ⟨hreq, hfirst⟩ := hw.answersQ evs u m r [] rfl
    have hr1 : ∀ u', running u' (evs ++ [.queueResult u m r]) = running u' evs := fun u' => by rw [running_snoc]
    have hqu : ∀ u1 u2 m', MEv.queueRequest u1 m' ∈ evs ++ [.queueResult u m r] → MEv.queueRequest u2 m' ∈ evs ++ [.queueResult u m r] → u1 = u2 := by
      intro u1 u2 m' h1 h2
      simp at h1 h2
      exact h.qu u1 u2 m' h1 h2
    have hnt : ∀ m', MEv.taskRequest m' ∈ evs → m' ≠ m := by
      intro m' hm' he
      exact (hw0.sep u m hreq).1 (he ▸ hm')
    simp only [mstep, queueResult]
    cases hg : getKey s.reg.byIdent u with
    | none =>
      simp only
      have hne : ∀ e' u', (e', u') ∈ s.reg.engines → u ≠ u' := by
        intro e' u' hm hc
        rw [(ident_of_inv hinv u e').2 (hc ▸ hm)] at hg; simp at hg
      refine { q := ?_, t := ?_, f := ?_, idin := h.idin, qp := h.qp, qn := h.qn, qd := h.qd, qo := ?_, qu := hqu, tp := ?_ }
      · intro e' u' hm
        rw [unanswered_snoc]; simp only [hne e' u' hm, if_false]; exact h.q e' u' hm
      · intro e' u' hm; rw [hr1]; exact h.t e' u' hm
      · intro e' u' hm; rw [finished_snoc]; simp only [hne e' u' hm, if_false]; exact h.f e' u' hm
      · intro e' m' hm
        obtain ⟨u', hu'⟩ := h.qo e' m' hm
        exact ⟨u', by simp [hu']⟩
      · intro m' h1 h2
        simp at h1 h2
        exact h.tp m' h1 h2
    | some ei =>
      have hei := (ident_of_inv hinv u ei).1 hg
      have hmq : m ∈ s.queues ei := by rw [h.q ei u hei]; exact unanswered_of hreq hfirst
      have hmp : m ∈ s.pending := h.qp ei u hei m hmq
      simp only [hmp, hmq, if_true]
      refine { q := ?_, t := ?_, f := ?_, idin := h.idin, qp := ?_, qn := ?_, qd := ?_, qo := ?_, qu := hqu, tp := ?_ }
      · intro e' u' hm
        rw [unanswered_snoc]
        simp only [upd, remFirst]
        have := engines_inj hinv hm hei
        by_cases he : e' = ei
        · have hu := this.1 he
          subst he; subst hu
          simp [h.q e' u' hm]
        · have hu : ¬ u = u' := fun hc => he (this.2 hc.symm)
          simp only [he, hu, if_false]; exact h.q e' u' hm
      · intro e' u' hm; rw [hr1]; exact h.t e' u' hm
      · intro e' u' hm
        rw [finished_snoc]
        simp only [upd]
        have := engines_inj hinv hm hei
        by_cases he : e' = ei
        · have hu := this.1 he
          subst he; subst hu
          simp [h.f e' u' hm]
        · have hu : ¬ u = u' := fun hc => he (this.2 hc.symm)
          simp only [he, hu, if_false]; exact h.f e' u' hm
      · intro e' u' hm m' hm'
        simp only [upd, remFirst] at hm'
        split at hm'
        · rename_i he
          have := (h.qn ei).mem_erase_iff.1 hm'
          exact mem_remFrom.2 ⟨h.qp e' u' hm m' (he ▸ this.2), this.1⟩
        · rename_i he
          refine mem_remFrom.2 ⟨h.qp e' u' hm m' hm', ?_⟩
          intro hc
          exact h.qd e' ei he m' hm' (hc ▸ hmq)
      · intro e'
        simp only [upd, remFirst]
        split
        · exact (h.qn ei).erase m
        · exact h.qn e'
      · intro e1 e2 hne m' hm hm'
        have g : ∀ e m', m' ∈ upd s.queues ei (remFirst (s.queues ei) m) e → m' ∈ s.queues e := by
          intro e m' hm
          simp only [upd, remFirst] at hm
          split at hm
          · rename_i he; subst he; exact List.mem_of_mem_erase hm
          · exact hm
        exact h.qd e1 e2 hne m' (g _ _ hm) (g _ _ hm')
      · intro e' m' hm
        have g : m' ∈ s.queues e' := by
          simp only [upd, remFirst] at hm
          split at hm
          · rename_i he; subst he; exact List.mem_of_mem_erase hm
          · exact hm
        obtain ⟨u', hu'⟩ := h.qo _ m' g
        exact ⟨u', by simp [hu']⟩
      · intro m' h1 h2
        simp at h1 h2
        exact mem_remFrom.2 ⟨h.tp m' h1 h2, hnt m' h1⟩
  | taskRequest m =>
    exact h.same rfl rfl rfl rfl rfl (fun x hx => mem_addTo.2 (.inl hx)) (fun u => by rw [unanswered_snoc]) (fun u => by rw [running_snoc])
      (fun u => by rw [finished_snoc]) (by intro u m hc; simp at hc) (by intro m' hc; simp at hc; exact mem_addTo.2 (.inr hc.symm))
  | taskDestination m u =>
    have hu1 : ∀ u', unanswered u' (evs ++ [.taskDestination m u]) = unanswered u' evs := fun u' => by rw [unanswered_snoc]
    have hf1 : ∀ u', finished u' (evs ++ [.taskDestination m u]) = finished u' evs := fun u' => by rw [finished_snoc]
    have hqo : ∀ e m', m' ∈ s.queues e → ∃ u', .queueRequest u' m' ∈ evs ++ [.taskDestination m u] := by
      intro e m' hm
      obtain ⟨u', hu'⟩ := h.qo e m' hm
      exact ⟨u', by simp [hu']⟩
    have hqu : ∀ u1 u2 m', MEv.queueRequest u1 m' ∈ evs ++ [.taskDestination m u] → MEv.queueRequest u2 m' ∈ evs ++ [.taskDestination m u] → u1 = u2 := by
      intro u1 u2 m' h1 h2
      simp at h1 h2
      exact h.qu u1 u2 m' h1 h2
    have htp : ∀ m', MEv.taskRequest m' ∈ evs ++ [.taskDestination m u] → (∀ r, .taskResult m' r ∉ evs ++ [.taskDestination m u]) → m' ∈ s.pending := by
      intro m' h1 h2
      simp at h1 h2
      exact h.tp m' h1 h2
    simp only [mstep, taskDestination]
    cases hg : getKey s.reg.byIdent u with
    | none =>
      have hne : ∀ e' u', (e', u') ∈ s.reg.engines → u ≠ u' := by
        intro e' u' hm hc
        rw [(ident_of_inv hinv u e').2 (hc ▸ hm)] at hg; simp at hg
      refine { q := ?_, t := ?_, f := ?_, idin := h.idin, qp := h.qp, qn := h.qn, qd := h.qd, qo := hqo, qu := hqu, tp := htp }
      · intro e' u' hm; rw [hu1]; exact h.q e' u' hm
      · intro e' u' hm; rw [running_snoc]; simp only [hne e' u' hm, if_false]; exact h.t e' u' hm
      · intro e' u' hm; rw [hf1]; exact h.f e' u' hm
    | some ei =>
      have hei := (ident_of_inv hinv u ei).1 hg
      refine { q := ?_, t := ?_, f := ?_, idin := h.idin, qp := h.qp, qn := h.qn, qd := h.qd, qo := hqo, qu := hqu, tp := htp }
      · intro e' u' hm; rw [hu1]; exact h.q e' u' hm
      · intro e' u' hm
        rw [running_snoc]
        simp only [upd]
        have := engines_inj hinv hm hei
        by_cases he : e' = ei
        · have hu := this.1 he
          subst he; subst hu
          simp [h.t e' u' hm]
        · have hu : ¬ u = u' := fun hc => he (this.2 hc.symm)
          simp only [he, hu, if_false]; exact h.t e' u' hm
      · intro e' u' hm; rw [hf1]; exact h.f e' u' hm
  | taskResult m r =>
    obtain ⟨hreq, hfirst⟩ := hw.answersT evs m r [] rfl
    have hmp : m ∈ s.pending := h.tp m hreq hfirst
    have hmq : ∀ u, MEv.queueRequest u m ∉ evs := by
      intro u hm
      exact (hw.sep u m (by simp [hm])).2.1 r (by simp)
    have hmq' : ∀ e m', m' ∈ s.queues e → m' ≠ m := by
      intro e m' hm' he
      obtain ⟨u', hu'⟩ := h.qo e m' hm'
      exact hmq u' (he ▸ hu')
    have hu1 : ∀ u', unanswered u' (evs ++ [.taskResult m r]) = unanswered u' evs := fun u' => by rw [unanswered_snoc]
    have hqo : ∀ e m', m' ∈ s.queues e → ∃ u', .queueRequest u' m' ∈ evs ++ [.taskResult m r] := by
      intro e m' hm
      obtain ⟨u', hu'⟩ := h.qo e m' hm
      exact ⟨u', by simp [hu']⟩
    have hqu : ∀ u1 u2 m', MEv.queueRequest u1 m' ∈ evs ++ [.taskResult m r] → MEv.queueRequest u2 m' ∈ evs ++ [.taskResult m r] → u1 = u2 := by
      intro u1 u2 m' h1 h2
      simp at h1 h2
      exact h.qu u1 u2 m' h1 h2
    have htp : ∀ m', MEv.taskRequest m' ∈ evs ++ [.taskResult m r] → (∀ r', .taskResult m' r' ∉ evs ++ [.taskResult m r]) → m' ∈ remFrom s.pending m := by
      intro m' h1 h2
      refine mem_remFrom.2 ⟨h.tp m' (by simpa using h1) (fun r' hc => h2 r' (by simp [hc])), ?_⟩
      intro he
      exact h2 r (by simp [he])
    have hqp : ∀ e' u', (e', u') ∈ s.reg.engines → ∀ m' ∈ s.queues e', m' ∈ remFrom s.pending m :=
      fun e' u' hm m' hm' => mem_remFrom.2 ⟨h.qp e' u' hm m' hm', hmq' e' m' hm'⟩
    simp only [mstep, taskResult, hmp, if_true]
    cases hb : r.engine.bind (getKey s.reg.byIdent) with
    | none =>
      have hne : ∀ e' u', (e', u') ∈ s.reg.engines → r.engine ≠ some u' := by
        intro e' u' hm hc
        rw [hc] at hb
        simp only [Option.bind_some, (ident_of_inv hinv u' e').2 hm] at hb
        simp at hb
      refine { q := ?_, t := ?_, f := ?_, idin := h.idin, qp := hqp, qn := h.qn, qd := h.qd, qo := hqo, qu := hqu, tp := htp }
      · intro e' u' hm; rw [hu1]; exact h.q e' u' hm
      · intro e' u' hm; rw [running_snoc]; simp only [hne e' u' hm, if_false]; exact h.t e' u' hm
      · intro e' u' hm; rw [finished_snoc]; simp only [hne e' u' hm, false_and, if_false]; exact h.f e' u' hm
    | some ei =>
      obtain ⟨u, hu, hg⟩ := Option.bind_eq_some_iff.1 hb
      have hei := (ident_of_inv hinv u ei).1 hg
      refine { q := ?_, t := ?_, f := ?_, idin := h.idin, qp := hqp, qn := h.qn, qd := h.qd, qo := hqo, qu := hqu, tp := htp }
      · intro e' u' hm; rw [hu1]; exact h.q e' u' hm
      · intro e' u' hm
        rw [running_snoc]
        have hinj := engines_inj hinv hm hei
        simp only [hu, Option.some.injEq]
        by_cases he : e' = ei
        · have huu := hinj.1 he
          subst he; subst huu
          rw [← h.t e' u' hm]
          by_cases hin : m ∈ s.tasks e'
          · simp [hin, upd, remFirst]
          · simp [hin, List.erase_of_not_mem hin]
        · have huu : ¬ u = u' := fun hc => he (hinj.2 hc.symm)
          rw [← h.t e' u' hm]
          by_cases hin : m ∈ s.tasks ei
          · simp [hin, upd, he, huu]
          · simp [hin, huu]
      · intro e' u' hm
        rw [finished_snoc]
        have hinj := engines_inj hinv hm hei
        simp only [hu, Option.some.injEq]
        by_cases he : e' = ei
        · have huu := hinj.1 he
          subst he; subst huu
          rw [← h.f e' u' hm]
          cases ha : r.aborted <;> simp [upd]
        · have huu : ¬ u = u' := fun hc => he (hinj.2 hc.symm)
          rw [← h.f e' u' hm]
          cases ha : r.aborted <;> simp [upd, he, huu]
  | timer i =>
    simp only [mstep]
    cases ht : s.timers[i]? with
    | none =>
      exact h.same rfl rfl rfl rfl rfl (fun x hx => hx) (fun u => by rw [unanswered_snoc]) (fun u => by rw [running_snoc])
        (fun u => by rw [finished_snoc]) (by intro u m hc; simp at hc) (by intro m' hc; simp at hc)
    | some eu =>
      obtain ⟨ei, u⟩ := eu
      have hfree := hw.timers evs i [] rfl ei u (hs ▸ ht)
      rw [← hs] at hfree
      obtain ⟨-, -, -, -, g5, g6, g7, g8, g9, g10, -⟩ := strandLoop_spec u (s.queues ei) { s with timers := s.timers.eraseIdx i }
      refine { q := ?_, t := ?_, f := ?_, idin := ?_, qp := ?_, qn := ?_, qd := ?_, qo := ?_, qu := ?_, tp := ?_ }
      · intro e' u' hm; rw [g6] at hm; rw [g5, unanswered_snoc]; exact h.q e' u' hm
      · intro e' u' hm; rw [g6] at hm; rw [g7, running_snoc]; exact h.t e' u' hm
      · intro e' u' hm; rw [g6] at hm; rw [g8, finished_snoc]; exact h.f e' u' hm
      · intro e' u' hm; rw [g6] at hm; rw [g10]; exact h.idin e' u' hm
      · intro e' u' hm m hmq
        rw [g6] at hm; rw [g5] at hmq
        refine g9 m ?_ (h.qp e' u' hm m hmq)
        exact h.qd e' ei (fun hc => hfree (hc ▸ List.mem_map.2 ⟨_, hm, rfl⟩)) m hmq
      · rw [g5]; exact h.qn
      · rw [g5]; exact h.qd
      · rw [g5]
        intro e' m hm
        obtain ⟨u', hu'⟩ := h.qo e' m hm
        exact ⟨u', by simp [hu']⟩
      · intro u1 u2 m' h1 h2
        simp at h1 h2
        exact h.qu u1 u2 m' h1 h2
      · intro m' h1 h2
        simp at h1 h2
        refine g9 m' ?_ (h.tp m' h1 h2)
        intro hc
        obtain ⟨u', hu'⟩ := h.qo ei m' hc
        exact (hw0.sep u' m' hu').1 h1
  | iopub m t =>
    have : ∃ db, mstep c s (.iopub m t) = { s with db := db } := by
      simp only [mstep, iopub]; split <;> exact ⟨_, rfl⟩
    obtain ⟨db, hd⟩ := this
    rw [hd]
    exact h.same rfl rfl rfl rfl rfl (fun x hx => hx) (fun u => by rw [unanswered_snoc]) (fun u => by rw [running_snoc])
      (fun u => by rw [finished_snoc]) (by intro u m hc; simp at hc) (by intro m' hc; simp at hc)
  | resubmit ms news =>
    simp only [mstep]
    obtain ⟨g1, -, g3, g4, -⟩ := resubmit_spec s ms news
    have g5 : (resubmit s ms news).1.tasks = s.tasks ∧ (resubmit s ms news).1.completed = s.completed ∧ (resubmit s ms news).1.ids = s.ids := by
      unfold resubmit; dsimp only; split <;> exact ⟨rfl, rfl, rfl⟩
    exact h.same (by rw [g3]) g1 g5.1 g5.2.1 g5.2.2 (fun x hx => (g4 x).2 (.inl hx)) (fun u => by rw [unanswered_snoc]) (fun u => by rw [running_snoc])
      (fun u => by rw [finished_snoc]) (by intro u m hc; simp at hc) (by intro m' hc; simp at hc)
  | purge w es =>
    simp only [mstep]
    obtain ⟨g1, -, g3, g4, g5, g6, g7, -⟩ := purge_spec c s w es
    exact h.same (by rw [g3]) g1 g5 g6 g7 (fun x hx => by rw [g4]; exact hx) (fun u => by rw [unanswered_snoc]) (fun u => by rw [running_snoc])
      (fun u => by rw [finished_snoc]) (by intro u m hc; simp at hc) (by intro m' hc; simp at hc)

theorem status_run (c : MCfg) (evs : List MEv) (h : WellBehaved c evs) : Status evs (mrun c evs) := by
  induction evs using list_snoc_induction with
  | h0 => constructor <;> simp [mrun, hub0, startHub, fresh]
  | h1 evs e ih => rw [mrun_snoc]; exact (ih h.prefix).step rfl e h

/-- **C30 (4)** For a registered engine, `queue_status` reports exactly: the messages sent to its queue and not answered, the messages it answered, the tasks assigned to it and
not finished; in order. -/
theorem queue_status_exact_partial (c : MCfg) (evs : List MEv) (h : WellBehaved c evs) (e : Eid) (u : Uuid) (he : (e, u) ∈ (mrun c evs).reg.engines) :
    queueStatus (mrun c evs) e = some (unanswered u evs, finished u evs, running u evs) := by
  have hs := status_run c evs h
  unfold queueStatus
  rw [if_pos (hs.idin e u he), hs.q e u he, hs.f e u he, hs.t e u he]

/-- … and all the messages in its queue are pending. -/
theorem unanswered_pending (c : MCfg) (evs : List MEv) (h : WellBehaved c evs) (e : Eid) (u : Uuid) (he : (e, u) ∈ (mrun c evs).reg.engines) :
    ∀ m ∈ unanswered u evs, m ∈ (mrun c evs).pending := by
  have hs := status_run c evs h
  intro m hm
  exact hs.qp e u he m (by rw [hs.q e u he]; exact hm)

/-- A task is pending until its result arrives. -/
theorem task_pending (c : MCfg) (evs : List MEv) (h : WellBehaved c evs) (m : Mid) (h1 : .taskRequest m ∈ evs) (h2 : ∀ r, .taskResult m r ∉ evs) :
    m ∈ (mrun c evs).pending := (status_run c evs h).tp m h1 h2

end IPP.Hub
