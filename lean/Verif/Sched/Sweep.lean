import Verif.Sched.Work
import Verif.Sched.SweepSpec

/-!
# A pass over the queue (lemmas)

When `update_graph` goes through the whole queue, every waiting task that can run on an engine which still has a place at the end, and — if some
engine still has a place at the end — every waiting task that can never run, is sent or answered.
-/
namespace IPP.Sched

variable {cfg : Config} {s s' s'' : State} {x : MsgId}

abbrev Decision (o : Obs) : Prop := isDecision o = true

/-- `x` was sent or answered on the way from `s` to `s'`. -/
def Act (s s' : State) (x : MsgId) : Prop := ∃ tl, s'.trace = s.trace ++ tl ∧ ((∃ e, Obs.send e x ∈ tl) ∨ ∃ why, Obs.fail x why ∈ tl)

/-- The job could go to `e`, as far as engine, targets and `follow` are concerned. -/
def AbleJ (s : State) (j : Job) (e : Engine) : Prop :=
  e ∉ j.blacklist ∧ (j.targets = [] ∨ e ∈ j.targets) ∧ ∃ c f, s.completed e = some c ∧ s.failed e = some f ∧ j.follow.check c (some f) = true

/-- An ended task that counts for `follow`. -/
def RelJ (s : State) (j : Job) (a : MsgId) : Prop := a ∈ j.follow.ids ∧ ((j.follow.success = true ∧ a ∈ s.allCompleted) ∨ (j.follow.failure = true ∧ a ∈ s.allFailed))

/-- The job can go nowhere, ever: the tasks it must follow ended in two places, or its targets are gone. -/
def DeadJ (s : State) (j : Job) : Prop :=
  (j.follow.all = true ∧ ∃ a b ea eb, RelJ s j a ∧ RelJ s j b ∧ s.destinations a = some ea ∧ s.destinations b = some eb ∧ ea ≠ eb) ∨
  (j.targets ≠ [] ∧ ∀ t ∈ j.targets, t ∈ j.blacklist ∨ t ∉ s.targets)

def Able (s : State) (x : MsgId) (e : Engine) : Prop := ∃ j, s.jobs x = some j ∧ j.after.check s.allCompleted (some s.allFailed) = true ∧ AbleJ s j e

def Dead (s : State) (x : MsgId) : Prop := ∃ j, s.jobs x = some j ∧
  (j.after.unreachable s.allCompleted (some s.allFailed) = true ∨ j.follow.unreachable s.allCompleted (some s.allFailed) = true ∨
    (j.after.check s.allCompleted (some s.allFailed) = true ∧ DeadJ s j))

/-- A reason to act upon `x`, seen in `s`, if the places left are those of `s'`. -/
def Due (cfg : Config) (s s' : State) (x : MsgId) : Prop := (∃ e, Room cfg s' e ∧ Able s x e) ∨ (Dead s x ∧ ∃ e, Room cfg s' e)

def Swept (cfg : Config) (s s' : State) : Prop := ∀ x ∈ s.queue, x ∈ s.queueMap → Due cfg s s' x → Act s s' x

/-- lists of equal length, no engine twice, removed jobs are not waiting -/
structure Neat (s : State) : Prop where
  len : s.loads.length = s.targets.length
  nodup : s.targets.Nodup
  gone : ∀ x j, s.jobs x = some j → j.removed = true → x ∉ s.queueMap

/-- What decisions do to everything but the tasks that wait. -/
structure Env (s s' : State) : Prop where
  ext : ∃ tl, s'.trace = s.trace ++ tl ∧ ∀ o ∈ tl, Decision o
  loads : ∀ e l', HasLoad s' e l' → ∃ l, HasLoad s e l ∧ l ≤ l'
  tgt : ∀ t, t ∈ s'.targets → t ∈ s.targets
  ac : ∀ i, i ∈ s.allCompleted → i ∈ s'.allCompleted
  af : ∀ i, i ∈ s.allFailed → i ∈ s'.allFailed
  dst : s'.destinations = s.destinations
  com : s'.completed = s.completed
  fai : s'.failed = s.failed

/-- What they do to a job. -/
def JobStep (j j' : Job) : Prop := j'.after = j.after ∧ j'.follow = j.follow ∧ j'.blacklist = j.blacklist ∧ (j.removed = true → j'.removed = true) ∧
  (j'.removed = true ∨ ((∀ t ∈ j'.targets, t ∈ j.targets) ∧ (∀ t ∈ j.targets, t ∈ j'.targets ∨ t ∈ j.blacklist) ∧ (j.targets ≠ [] → j'.targets ≠ [])))

/-- … and to one task that waits. -/
structure Tsk (x : MsgId) (s s' : State) : Prop where
  job : ∀ j, s.jobs x = some j → ∃ j', s'.jobs x = some j' ∧ JobStep j j'
  left : x ∈ s.queueMap → x ∈ s'.queueMap ∨ Act s s' x

structure Go (s s' : State) : Prop where
  env : Env s s'
  tsk : ∀ x, Tsk x s s'
  qm : ∀ x, x ∈ s'.queueMap → x ∈ s.queueMap
  neat : Neat s → Neat s'
  rem : ∀ x j', s'.jobs x = some j' → j'.removed = true → (∃ j, s.jobs x = some j ∧ j.removed = true) ∨ x ∈ s'.allFailed

theorem Env.refl (s : State) : Env s s where
  ext := ⟨[], by simp, by simp⟩
  loads := fun _ l' h => ⟨l', h, Int.le_refl _⟩
  tgt := fun _ h => h
  ac := fun _ h => h
  af := fun _ h => h
  dst := rfl
  com := rfl
  fai := rfl

theorem Env.trans (h : Env s s') (h' : Env s' s'') : Env s s'' where
  ext := by
    obtain ⟨a, h1, h2⟩ := h.ext
    obtain ⟨b, h3, h4⟩ := h'.ext
    refine ⟨a ++ b, by rw [h3, h1, List.append_assoc], fun o ho => ?_⟩
    rcases List.mem_append.mp ho with ho | ho
    · exact h2 o ho
    · exact h4 o ho
  loads := fun e l'' hl => by
    obtain ⟨l', h1, h2⟩ := h'.loads e l'' hl
    obtain ⟨l, h3, h4⟩ := h.loads e l' h1
    exact ⟨l, h3, Int.le_trans h4 h2⟩
  tgt := fun t ht => h.tgt t (h'.tgt t ht)
  ac := fun i hi => h'.ac i (h.ac i hi)
  af := fun i hi => h'.af i (h.af i hi)
  dst := h'.dst.trans h.dst
  com := h'.com.trans h.com
  fai := h'.fai.trans h.fai

theorem Env.room (h : Env s s') {e : Engine} (hr : Room cfg s' e) : Room cfg s e := by
  obtain ⟨l', h1, h2⟩ := hr
  obtain ⟨l, h3, h4⟩ := h.loads e l' h1
  exact ⟨l, h3, h2.imp id fun h => by omega⟩

theorem Act.later (h : Act s s' x) (h' : Env s' s'') : Act s s'' x := by
  obtain ⟨a, h1, h2⟩ := h
  obtain ⟨b, h3, _⟩ := h'.ext
  refine ⟨a ++ b, by rw [h3, h1, List.append_assoc], ?_⟩
  rcases h2 with ⟨e, h2⟩ | ⟨w, h2⟩
  · exact Or.inl ⟨e, List.mem_append_left _ h2⟩
  · exact Or.inr ⟨w, List.mem_append_left _ h2⟩

theorem Act.earlier (h : Env s s') (h' : Act s' s'' x) : Act s s'' x := by
  obtain ⟨a, h1, _⟩ := h.ext
  obtain ⟨b, h3, h2⟩ := h'
  refine ⟨a ++ b, by rw [h3, h1, List.append_assoc], ?_⟩
  rcases h2 with ⟨e, h2⟩ | ⟨w, h2⟩
  · exact Or.inl ⟨e, List.mem_append_right _ h2⟩
  · exact Or.inr ⟨w, List.mem_append_right _ h2⟩

theorem JobStep.refl (j : Job) : JobStep j j := ⟨rfl, rfl, rfl, id, Or.inr ⟨fun _ h => h, fun _ h => Or.inl h, fun h => h⟩⟩

theorem JobStep.trans {j j' j'' : Job} (h : JobStep j j') (h' : JobStep j' j'') : JobStep j j'' := by
  obtain ⟨a1, a2, a3, ar, a4⟩ := h
  obtain ⟨b1, b2, b3, br, b4⟩ := h'
  refine ⟨b1.trans a1, b2.trans a2, b3.trans a3, fun h => br (ar h), ?_⟩
  rcases a4 with a4 | ⟨a4, a5, a6⟩
  · exact Or.inl (br a4)
  · rcases b4 with b4 | ⟨b4, b5, b6⟩
    · exact Or.inl b4
    · refine Or.inr ⟨fun t ht => a4 t (b4 t ht), fun t ht => ?_, fun hh => b6 (a6 hh)⟩
      rcases a5 t ht with h | h
      · rcases b5 t h with h | h
        · exact Or.inl h
        · exact Or.inr (a3 ▸ h)
      · exact Or.inr h

theorem Tsk.refl (x : MsgId) (s : State) : Tsk x s s := ⟨fun j hj => ⟨j, hj, JobStep.refl j⟩, Or.inl⟩

theorem Tsk.trans (h : Tsk x s s') (h' : Tsk x s' s'') (e : Env s s') (e' : Env s' s'') : Tsk x s s'' := by
  refine ⟨fun j hj => ?_, fun hx => ?_⟩
  · obtain ⟨j', h1, h2⟩ := h.job j hj
    obtain ⟨j'', h3, h4⟩ := h'.job j' h1
    exact ⟨j'', h3, h2.trans h4⟩
  · rcases h.left hx with a | a
    · rcases h'.left a with b | b
      · exact Or.inl b
      · exact Or.inr (b.earlier e)
    · exact Or.inr (a.later e')

theorem Go.refl (s : State) : Go s s := ⟨Env.refl s, fun x => Tsk.refl x s, fun _ h => h, id, fun _ j hj hr => Or.inl ⟨j, hj, hr⟩⟩

theorem Go.trans (h : Go s s') (h' : Go s' s'') : Go s s'' :=
  ⟨h.env.trans h'.env, fun x => (h.tsk x).trans (h'.tsk x) h.env h'.env, fun x hx => h.qm x (h'.qm x hx), fun hn => h'.neat (h.neat hn), fun x j hj hr => by
    rcases h'.rem x j hj hr with ⟨j', h1, h2⟩ | h1
    · exact (h.rem x j' h1 h2).imp id (h'.env.af x)
    · exact Or.inr h1⟩

/-- Only the graph, the queue, pending, … differ. -/
theorem Go.congr (htr : s'.trace = s.trace) (ht : s'.targets = s.targets) (hl : s'.loads = s.loads) (hj : s'.jobs = s.jobs) (hq : s'.queueMap = s.queueMap)
    (hc : s'.allCompleted = s.allCompleted) (hf : s'.allFailed = s.allFailed) (hd : s'.destinations = s.destinations) (hce : s'.completed = s.completed)
    (hfe : s'.failed = s.failed) : Go s s' where
  env := ⟨⟨[], by simp [htr], by simp⟩, by unfold HasLoad; rw [ht, hl]; exact (Env.refl s).loads, by rw [ht]; exact fun _ h => h, by rw [hc]; exact fun _ h => h,
    by rw [hf]; exact fun _ h => h, hd, hce, hfe⟩
  tsk := fun x => ⟨by rw [hj]; exact (Tsk.refl x s).job, by rw [hq]; exact Or.inl⟩
  qm := by rw [hq]; exact fun _ h => h
  neat := fun h => ⟨by rw [ht, hl]; exact h.len, by rw [ht]; exact h.nodup, by rw [hj, hq]; exact h.gone⟩
  rem := by rw [hj]; exact fun _ j hj hr => Or.inl ⟨j, hj, hr⟩

theorem check_mono {d : Dep} {c f c' f' : List MsgId} (hc : ∀ i ∈ c, i ∈ c') (hf : ∀ i ∈ f, i ∈ f') (h : d.check c (some f) = true) : d.check c' (some f') = true := by
  rw [check_iff] at *
  exact h.mono hc hf

theorem unreachable_mono {d : Dep} {c f c' f' : List MsgId} (hc : ∀ i ∈ c, i ∈ c') (hf : ∀ i ∈ f, i ∈ f') (h : d.unreachable c (some f) = true) :
    d.unreachable c' (some f') = true := by
  rw [unreachable_iff] at *
  have hb : ∀ i, ((d.success = false ∧ i ∈ c) ∨ (d.failure = false ∧ i ∈ f)) → ((d.success = false ∧ i ∈ c') ∨ (d.failure = false ∧ i ∈ f')) :=
    fun i h => h.imp (fun h => ⟨h.1, hc i h.2⟩) (fun h => ⟨h.1, hf i h.2⟩)
  refine ⟨h.1, h.2.imp ?_ ?_⟩
  · rintro ⟨ha, i, hi, h⟩; exact ⟨ha, i, hi, hb i h⟩
  · rintro ⟨ha, h⟩; exact ⟨ha, fun i hi => hb i (h i hi)⟩

theorem AbleJ.mono {j j' : Job} {e : Engine} (h : AbleJ s j e) (he : Env s s') (hj : JobStep j j') (hr : j'.removed = false) : AbleJ s' j' e := by
  obtain ⟨h1, h2, c, f, h3, h4, h5⟩ := h
  obtain ⟨_, b2, b3, _, b4⟩ := hj
  rcases b4 with b4 | ⟨b4, b5, b6⟩
  · rw [hr] at b4; cases b4
  refine ⟨by rw [b3]; exact h1, ?_, c, f, by rw [he.com]; exact h3, by rw [he.fai]; exact h4, by rw [b2]; exact h5⟩
  rcases h2 with h2 | h2
  · left
    rw [h2] at b4
    exact List.eq_nil_iff_forall_not_mem.mpr fun t ht => by cases b4 t ht
  · exact (b5 e h2).elim Or.inr fun h => absurd h h1

theorem DeadJ.mono {j j' : Job} (h : DeadJ s j) (he : Env s s') (hj : JobStep j j') (hr : j'.removed = false) : DeadJ s' j' := by
  obtain ⟨_, b2, b3, _, b4⟩ := hj
  rcases b4 with b4 | ⟨b4, b5, b6⟩
  · rw [hr] at b4; cases b4
  rcases h with ⟨h, a, b, ea, eb, ha, hb, hda, hdb, hne⟩ | ⟨h1, h2⟩
  · have rel : ∀ i, RelJ s j i → RelJ s' j' i := fun i hi => by
      unfold RelJ; rw [b2]
      exact ⟨hi.1, hi.2.imp (fun h => ⟨h.1, he.ac i h.2⟩) (fun h => ⟨h.1, he.af i h.2⟩)⟩
    exact Or.inl ⟨by rw [b2]; exact h, a, b, ea, eb, rel a ha, rel b hb, by rw [he.dst]; exact hda, by rw [he.dst]; exact hdb, hne⟩
  · refine Or.inr ⟨b6 h1, fun t ht => ?_⟩
    rw [b3]
    exact (h2 t (b4 t ht)).imp id fun h hh => h (he.tgt t hh)

/-- A reason to act stays one while the task waits. -/
theorem Due.later (h : Due cfg s s'' x) (he : Env s s') (ht : Tsk x s s') (hn : Neat s') (hx : x ∈ s'.queueMap) : Due cfg s' s'' x := by
  have hr : ∀ j', s'.jobs x = some j' → j'.removed = false := fun j' hj' => by
    cases hr : j'.removed with
    | false => rfl
    | true => exact absurd hx (hn.gone x j' hj' hr)
  rcases h with ⟨e, hroom, j, hj, hc, ha⟩ | ⟨⟨j, hj, hd⟩, hroom⟩
  · obtain ⟨j', h1, h2⟩ := ht.job j hj
    exact Or.inl ⟨e, hroom, j', h1, by rw [h2.1]; exact check_mono he.ac he.af hc, ha.mono he h2 (hr j' h1)⟩
  · obtain ⟨j', h1, h2⟩ := ht.job j hj
    refine Or.inr ⟨⟨j', h1, ?_⟩, hroom⟩
    rw [h2.1, h2.2.1]
    rcases hd with hd | hd | ⟨hc, hd⟩
    · exact Or.inl (unreachable_mono he.ac he.af hd)
    · exact Or.inr (Or.inl (unreachable_mono he.ac he.af hd))
    · exact Or.inr (Or.inr ⟨check_mono he.ac he.af hc, hd.mono he h2 (hr j' h1)⟩)

theorem Due.sooner (h : Due cfg s s'' x) (he : Env s' s'') : Due cfg s s' x := by
  rcases h with ⟨e, hr, ha⟩ | ⟨hd, e, hr⟩
  · exact Or.inl ⟨e, he.room hr, ha⟩
  · exact Or.inr ⟨hd, e, he.room hr⟩

theorem room_index' (hw : Neat s) {e : Engine} (h : Room cfg s e) : ∃ i ∈ availableEngines cfg s, s.targets[i]? = some e ∧ ¬ (cfg.hwm ≠ 0 ∧ s.loads.getD i 0 = (cfg.hwm : Int)) := by
  obtain ⟨l, h1, h2⟩ := h
  obtain ⟨i, hi⟩ := List.getElem?_of_mem h1
  rw [List.getElem?_zip_eq_some] at hi
  obtain ⟨h3, h4⟩ := hi
  have hlt : i < s.targets.length := (List.getElem?_eq_some_iff.mp h3).1
  have hget : s.loads.getD i 0 = l := by rw [List.getD_eq_getElem?_getD, h4]; rfl
  refine ⟨i, ?_, h3, ?_⟩
  · unfold availableEngines
    split
    · simpa using hlt
    · rename_i hne
      refine List.mem_filter.mpr ⟨by simpa using hlt, ?_⟩
      rw [hget]
      simpa using h2.resolve_left hne
  · rintro ⟨h5, h6⟩
    rw [hget] at h6
    rcases h2 with h2 | h2
    · exact h5 h2
    · omega

theorem no_room' (hw : Neat s) (h : availableEngines cfg s = []) (e : Engine) : ¬ Room cfg s e := fun hr => by
  obtain ⟨i, hi, _⟩ := room_index' hw hr
  rw [h] at hi; cases hi

end IPP.Sched
