import Verif.Sched.Loc5
import Verif.Sched.FailProps

/-!
# The dependency graph is exact (lemmas)

In histories whose tasks have dependencies: every waiting task is in `graph[d]` for every unfinished `d` it depends on, and `graph` contains nothing else.
Then none of the `KeyError`s of `fail_unreachable`, `update_graph` and `maybe_run` can occur.
-/
namespace IPP.Sched

variable {cfg : Config} {g : Ghost} {s : State} {K X P : List MsgId}

/-- All ids are needed, or there is at most one. -/
def Single (d : Dep) : Prop := d.all = true ∨ d.ids.length ≤ 1

/-- `maybe_run` can never find the task impossible. -/
def Hardy (j : Job) : Prop := j.targets = [] ∧ (j.follow.all = false ∨ j.follow.ids.length ≤ 1)

structure GoodJob (j : Job) : Prop where
  nd : j.dependents.Nodup
  one : (Single j.after ∧ Single j.follow) ∨ Hardy j
  fol : j.follow.failure = false ∨ j.follow.ids = []

/-- `K`: tasks that exist; `X`: the task in hand; `P`: the finished task whose dependents have not been looked at yet. -/
structure Links (K X P : List MsgId) (s : State) : Prop where
  shape : ∀ m j, s.jobs m = some j → GoodJob j
  done : ∀ d ∈ s.allDone, s.graph d = none ∨ d ∈ P
  cd : ∀ d ∈ s.allCompleted, d ∈ s.allDone ∧ s.destinations d ≠ none
  fd : ∀ d ∈ s.allFailed, d ∈ s.allDone
  ce : ∀ e l, s.completed e = some l → ∀ x ∈ l, x ∈ s.allDone
  fe : ∀ e l, s.failed e = some l → ∀ x ∈ l, x ∈ s.allDone
  inq : ∀ x ∈ s.queueMap, x ∉ X → ∀ j, s.jobs x = some j → ∀ d ∈ j.dependents, d ∉ s.allDone → ∃ l, s.graph d = some l ∧ x ∈ l
  lis : ∀ d l, s.graph d = some l → d ∈ s.allIds ∧ ∀ x ∈ l, (x ∈ s.queueMap ∨ x ∈ X) ∧ ∃ j, s.jobs x = some j ∧ d ∈ j.dependents
  kno : ∀ x j, s.jobs x = some j → replies x s.trace = 0 → x ∉ X → ∀ d ∈ j.dependents, d ∈ s.allIds
  run : ∀ e x, x ∈ assigned e s.trace → ∀ j, s.jobs x = some j → (∀ d ∈ j.dependents, d ∈ s.allDone) ∨ Hardy j
  ans : ∀ x, replies x s.trace ≠ 0 → x ∈ s.allDone
  kk : ∀ x ∈ K, s.jobs x ≠ none
  dcf : ∀ d ∈ s.allDone, d ∈ s.allCompleted ∨ d ∈ s.allFailed
  oke : ∀ i e l, s.destinations i = some e → s.completed e = some l → i ∈ s.allCompleted → i ∈ l
  dreg : ∀ i e, s.destinations i = some e → Obs.registered e ∈ s.trace
  oka : ∀ x ∈ s.allCompleted, replies x s.trace ≠ 0

/-- `fail_unreachable(m)` will find `m` wherever it looks. -/
def Gok (m : MsgId) (s : State) : Prop := ∀ j, s.jobs m = some j → ∀ d ∈ j.dependents, s.graph d = none ∨ ∃ l, s.graph d = some l ∧ m ∈ l

/-- `maybe_run` may find the task impossible — task_scheduler.py:529-546. -/
def Stuck (s : State) (j : Job) : Prop :=
  (j.follow.all = true ∧ ∃ a b ea eb, a ∈ j.follow.ids ∧ b ∈ j.follow.ids ∧ s.destinations a = some ea ∧ s.destinations b = some eb ∧ ea ≠ eb) ∨
  (j.targets ≠ [] ∧ ∀ t ∈ j.targets, t ∈ j.blacklist ∨ t ∉ s.targets)

theorem Hardy.not_stuck {j : Job} (h : Hardy j) : ¬ Stuck s j := by
  rintro (⟨ha, a, b, ea, eb, h1, h2, h3, h4, h5⟩ | ⟨hne, _⟩)
  · rcases h.2 with hf | hl
    · rw [ha] at hf; cases hf
    · cases hids : j.follow.ids with
      | nil => rw [hids] at h1; cases h1
      | cons x xs =>
        rw [hids] at hl h1 h2
        have : xs = [] := by cases xs with | nil => rfl | cons => simp at hl
        subst this
        simp at h1 h2
        rw [h1, ← h2, h4] at h3
        cases h3; exact h5 rfl
  · exact hne h.1

/-- A waiting task can be failed. -/
theorem Links.gok {m : MsgId} (h : Links K [] [] s) (hm : m ∈ s.queueMap) : Gok m s := by
  intro j hj d hd
  by_cases hdd : d ∈ s.allDone
  · rcases h.done d hdd with a | a
    · exact Or.inl a
    · cases a
  · exact Or.inr (h.inq m hm (by simp) j hj d hd hdd)

/-- A task all of whose dependencies are done can be failed. -/
theorem Links.gok_done {m : MsgId} {j : Job} (h : Links K X [] s) (hj : s.jobs m = some j) (hd : ∀ d ∈ j.dependents, d ∈ s.allDone) : Gok m s := by
  intro j' hj' d hdd
  rw [hj] at hj'; cases hj'
  rcases h.done d (hd d hdd) with a | a
  · exact Or.inl a
  · cases a

theorem Links.mono {K' X' : List MsgId} (h : Links K X P s) (hK : ∀ x ∈ K', x ∈ K) (hX : ∀ x ∈ X, x ∈ X') : Links K' X' P s where
  shape := h.shape
  dcf := h.dcf
  oke := h.oke
  dreg := h.dreg
  oka := h.oka
  done := h.done
  cd := h.cd
  fd := h.fd
  ce := h.ce
  fe := h.fe
  inq := fun x hx hn => h.inq x hx fun hh => hn (hX x hh)
  lis := fun d l hl => ⟨(h.lis d l hl).1, fun x hx => ⟨((h.lis d l hl).2 x hx).1.imp id (hX x), ((h.lis d l hl).2 x hx).2⟩⟩
  kno := fun x j hj hr hn => h.kno x j hj hr fun hh => hn (hX x hh)
  run := h.run
  ans := h.ans
  kk := fun x hx => h.kk x (hK x hx)

/-- A task in no list and not waiting need not be in hand. -/
theorem Links.release {m : MsgId} (h : Links K [m] P s) (hm : m ∉ s.queueMap) (hl : ∀ d l, s.graph d = some l → m ∉ l)
    (hk : replies m s.trace = 0 → ∀ j, s.jobs m = some j → ∀ d ∈ j.dependents, d ∈ s.allIds) : Links K [] P s where
  shape := h.shape
  dcf := h.dcf
  oke := h.oke
  dreg := h.dreg
  oka := h.oka
  done := h.done
  cd := h.cd
  fd := h.fd
  ce := h.ce
  fe := h.fe
  inq := fun x hx _ => h.inq x hx (by simp; rintro rfl; exact hm hx)
  lis := fun d l hd => ⟨(h.lis d l hd).1, fun x hx => by
    obtain ⟨a, b⟩ := (h.lis d l hd).2 x hx
    refine ⟨?_, b⟩
    rcases a with a | a
    · exact Or.inl a
    · simp at a; exact absurd (a ▸ hx) (hl d l hd)⟩
  kno := fun x j hj hr _ => by
    by_cases hxm : x = m
    · subst hxm; exact hk hr j hj
    · exact h.kno x j hj hr (by simpa using hxm)
  run := h.run
  ans := h.ans
  kk := h.kk

/-- Changes that do not matter here. -/
theorem Links.congr {s' : State} (h : Links K X P s) (hj : s'.jobs = s.jobs) (hd : s'.allDone = s.allDone) (hg : s'.graph = s.graph) (hc : s'.allCompleted = s.allCompleted)
    (hds : s'.destinations = s.destinations) (hf : s'.allFailed = s.allFailed) (hce : s'.completed = s.completed) (hfe : s'.failed = s.failed)
    (hq : s'.queueMap = s.queueMap) (hi : s'.allIds = s.allIds) (ht : ∀ x, replies x s'.trace = replies x s.trace)
    (ha : ∀ e x, x ∈ assigned e s'.trace → x ∈ assigned e s.trace) (hreg : ∀ e, Obs.registered e ∈ s.trace → Obs.registered e ∈ s'.trace := by first | exact fun _ h => h | exact fun _ h => List.mem_append_left _ h | (intro e h; simp_all)) : Links K X P s' where
  shape := by rw [hj]; exact h.shape
  dcf := by rw [hd, hc, hf]; exact h.dcf
  oke := by rw [hds, hce, hc]; exact h.oke
  dreg := by rw [hds]; exact fun i e hi => hreg e (h.dreg i e hi)
  oka := by rw [hc]; exact fun x hx => by rw [ht]; exact h.oka x hx
  done := by rw [hd, hg]; exact h.done
  cd := by rw [hc, hd, hds]; exact h.cd
  fd := by rw [hf, hd]; exact h.fd
  ce := by rw [hce, hd]; exact h.ce
  fe := by rw [hfe, hd]; exact h.fe
  inq := by rw [hq, hj, hd, hg]; exact h.inq
  lis := by rw [hg, hi, hq, hj]; exact h.lis
  kno := by
    intro x j
    rw [hj, ht, hi]; exact h.kno x j
  run := by
    intro e x hx
    rw [hj, hd]; exact h.run e x (ha e x hx)
  ans := by
    intro x
    rw [ht, hd]; exact h.ans x
  kk := by rw [hj]; exact h.kk

/-- Changing a job without changing its dependencies. -/
theorem Links.setJob {m : MsgId} {j j' : Job} (h : Links K X P s) (hj : s.jobs m = some j) (ha : j'.after = j.after) (hf : j'.follow = j.follow)
    (ht : j.targets = [] → j'.targets = []) : Links K X P { s with jobs := upd s.jobs m (some j') } := by
  have hdep : j'.dependents = j.dependents := by unfold Job.dependents; rw [ha, hf]
  have key : ∀ x jx, upd s.jobs m (some j') x = some jx → ∃ jx', s.jobs x = some jx' ∧ jx.dependents = jx'.dependents ∧ (Hardy jx' → Hardy jx) ∧ (GoodJob jx' → GoodJob jx) := by
    intro x jx hx
    by_cases hxm : x = m
    · rw [hxm, upd_self] at hx; cases hx
      have hH : Hardy j → Hardy j' := fun hh => ⟨ht hh.1, by rw [hf]; exact hh.2⟩
      exact ⟨j, by rw [hxm]; exact hj, hdep, hH, fun hh => ⟨hdep ▸ hh.nd, by rw [ha, hf]; exact hh.one.imp id hH, by rw [hf]; exact hh.fol⟩⟩
    · rw [upd_ne _ _ hxm] at hx
      exact ⟨jx, hx, rfl, id, id⟩
  have key' : ∀ x jx', s.jobs x = some jx' → ∃ jx, upd s.jobs m (some j') x = some jx ∧ jx.dependents = jx'.dependents := by
    intro x jx' hx
    by_cases hxm : x = m
    · rw [hxm, hj] at hx; cases hx
      exact ⟨j', by rw [hxm, upd_self], hdep⟩
    · exact ⟨jx', by rw [upd_ne _ _ hxm]; exact hx, rfl⟩
  refine ⟨?_, h.done, h.cd, h.fd, h.ce, h.fe, ?_, ?_, ?_, ?_, h.ans, ?_, h.dcf, h.oke, h.dreg, h.oka⟩
  · intro x jx hx
    obtain ⟨jx', a, _, _, d⟩ := key x jx hx
    exact d (h.shape x jx' a)
  · intro x hx hn jx hjx d hd hdd
    obtain ⟨jx', a, b, _⟩ := key x jx hjx
    exact h.inq x hx hn jx' a d (b ▸ hd) hdd
  · intro d l hl
    obtain ⟨a, b⟩ := h.lis d l hl
    refine ⟨a, fun x hx => ?_⟩
    obtain ⟨c, jx, e, f⟩ := b x hx
    obtain ⟨jx', a', b'⟩ := key' x jx e
    exact ⟨c, jx', a', b' ▸ f⟩
  · intro x jx hjx hr hn d hd
    obtain ⟨jx', a, b, _⟩ := key x jx hjx
    exact h.kno x jx' a hr hn d (b ▸ hd)
  · intro e x hx jx hjx
    obtain ⟨jx', a, b, c, _⟩ := key x jx hjx
    rw [b]
    exact (h.run e x hx jx' a).imp id c
  · intro x hx hn
    cases hjx : s.jobs x with
    | none => exact h.kk x hx hjx
    | some jx =>
      obtain ⟨jx', a', _⟩ := key' x jx hjx
      rw [show upd s.jobs m (some j') x = none from hn] at a'; cases a'

theorem Gok.setJob {m : MsgId} {j j' : Job} (h : Gok m s) (hj : s.jobs m = some j) (ha : j'.after = j.after) (hf : j'.follow = j.follow) :
    Gok m { s with jobs := upd s.jobs m (some j') } := by
  intro jx hjx d hd
  simp only [upd_self, Option.some.injEq] at hjx
  subst hjx
  exact h j hj d (by unfold Job.dependents at hd ⊢; rw [← ha, ← hf]; exact hd)

/-- The task in hand may be put into the queue map. -/
theorem Links.addMap {m : MsgId} (h : Links K X P s) : Links K (m :: X) P { s with queueMap := insertSet m s.queueMap } where
  shape := h.shape
  dcf := h.dcf
  oke := h.oke
  dreg := h.dreg
  oka := h.oka
  done := h.done
  cd := h.cd
  fd := h.fd
  ce := h.ce
  fe := h.fe
  inq := fun x hx hn => by
    simp only [List.mem_cons, not_or] at hn
    rcases (mem_insertSet _ _ _).mp hx with hx | hx
    · exact absurd hx hn.1
    · exact h.inq x hx hn.2
  lis := fun d l hl => ⟨(h.lis d l hl).1, fun x hx => by
    obtain ⟨a, b⟩ := (h.lis d l hl).2 x hx
    refine ⟨?_, b⟩
    rcases a with a | a
    · left; simp [a]
    · right; simp [a]⟩
  kno := fun x j hj hr hn => h.kno x j hj hr (by simp at hn; exact hn.2)
  run := h.run
  ans := h.ans
  kk := h.kk

/-- … or taken from it. -/
theorem Links.dropMap {m : MsgId} (h : Links K X P s) (hX : m ∈ X) : Links K X P { s with queueMap := s.queueMap.filter (· ≠ m) } where
  shape := h.shape
  dcf := h.dcf
  oke := h.oke
  dreg := h.dreg
  oka := h.oka
  done := h.done
  cd := h.cd
  fd := h.fd
  ce := h.ce
  fe := h.fe
  inq := fun x hx => h.inq x (List.mem_filter.mp hx).1
  lis := fun d l hl => ⟨(h.lis d l hl).1, fun x hx => by
    obtain ⟨a, b⟩ := (h.lis d l hl).2 x hx
    refine ⟨?_, b⟩
    rcases a with a | a
    · by_cases hxm : x = m
      · right; rw [hxm]; exact hX
      · left; exact List.mem_filter.mpr ⟨a, by simpa using hxm⟩
    · exact Or.inr a⟩
  kno := h.kno
  run := h.run
  ans := h.ans
  kk := h.kk

/-- Taking the task in hand out of a list. -/
theorem Links.unlink {m d : MsgId} {l : List MsgId} (h : Links K X P s) (hX : m ∈ X) (hl : s.graph d = some l) :
    Links K X P { s with graph := upd s.graph d (some (l.filter (· ≠ m))) } where
  shape := h.shape
  dcf := h.dcf
  oke := h.oke
  dreg := h.dreg
  oka := h.oka
  done := fun x hx => by
    rcases h.done x hx with a | a
    · left
      have : x ≠ d := by rintro rfl; rw [hl] at a; cases a
      show upd s.graph d _ x = none
      rw [upd_ne _ _ this]; exact a
    · exact Or.inr a
  cd := h.cd
  fd := h.fd
  ce := h.ce
  fe := h.fe
  inq := fun x hx hn j hj d' hd hdd => by
    obtain ⟨l', a, b⟩ := h.inq x hx hn j hj d' hd hdd
    by_cases hdd' : d' = d
    · rw [hdd', hl] at a
      cases a
      refine ⟨l.filter (· ≠ m), by rw [hdd']; exact upd_self _ _ _, List.mem_filter.mpr ⟨b, ?_⟩⟩
      simp
      rintro rfl; exact hn hX
    · exact ⟨l', by show upd s.graph d _ d' = _; rw [upd_ne _ _ hdd']; exact a, b⟩
  lis := fun d' l' hl' => by
    by_cases hdd' : d' = d
    · have hl' : upd s.graph d (some (l.filter (· ≠ m))) d' = some l' := hl'
      rw [hdd', upd_self] at hl'
      cases hl'
      rw [hdd']
      exact ⟨(h.lis d l hl).1, fun x hx => (h.lis d l hl).2 x (List.mem_filter.mp hx).1⟩
    · have hl' : upd s.graph d (some (l.filter (· ≠ m))) d' = some l' := hl'
      rw [upd_ne _ _ hdd'] at hl'
      exact h.lis d' l' hl'
  kno := h.kno
  run := h.run
  ans := h.ans
  kk := h.kk

/-- `removeFromGraph` raises nothing and takes the task out of every list. -/
theorem removeFromGraph_link {m : MsgId} (ms : List MsgId) (hms : ms.Nodup) (s₀ : State) (h : Links K [m] P s₀) (hg : ∀ d ∈ ms, s₀.graph d = none ∨ ∃ l, s₀.graph d = some l ∧ m ∈ l)
    (hl : ∀ d l, s₀.graph d = some l → m ∈ l → d ∈ ms) :
    HoareE (fun s => s = s₀) (removeFromGraph m ms) (fun _ s => (∃ gr, s = { s₀ with graph := gr }) ∧ Links K [m] P s ∧ ∀ d l, s.graph d = some l → m ∉ l) (fun _ _ => False) := by
  induction ms generalizing s₀ with
  | nil =>
    refine HoareE.pure fun s hs => ?_
    subst hs
    exact ⟨⟨s.graph, rfl⟩, h, fun d l hd hm => by cases hl d l hd hm⟩
  | cons d ds ih =>
    obtain ⟨hnd, hds⟩ := List.nodup_cons.mp hms
    unfold removeFromGraph
    refine HoareE.getS fun s hs => ?_
    subst hs
    cases hgd : s.graph d with
    | none =>
      refine ih hds s h (fun x hx => hg x (by simp [hx])) fun x l hx hm => ?_
      rcases List.mem_cons.mp (hl x l hx hm) with rfl | hh
      · rw [hgd] at hx; cases hx
      · exact hh
    | some l =>
      have hm : m ∈ l := by
        rcases hg d (by simp) with a | ⟨l', a, b⟩
        · rw [hgd] at a; cases a
        · rw [hgd] at a; cases a; exact b
      refine HoareE.ite (fun _ => ?_) fun hn => absurd hm hn
      refine HoareE.modS fun s' hs' => ?_
      subst hs'
      refine (ih hds _ (h.unlink (by simp) hgd) (fun x hx => ?_) fun x l' hx hm' => ?_).conseq (fun _ h => h) ?_ (fun _ _ h => h)
      · have hxd : x ≠ d := by rintro rfl; exact hnd hx
        dsimp only
        rw [upd_ne _ _ hxd]
        exact hg x (by simp [hx])
      · by_cases hxd : x = d
        · rw [hxd] at hx
          dsimp only at hx
          rw [upd_self] at hx
          cases hx
          simp at hm'
        · dsimp only at hx
          rw [upd_ne _ _ hxd] at hx
          exact (List.mem_cons.mp (hl x l' hx hm')).resolve_left hxd
      · rintro _ s ⟨⟨gr, rfl⟩, a, b⟩
        exact ⟨⟨gr, rfl⟩, a, b⟩

/-- The scheduler answers. -/
theorem Links.failReply {m : MsgId} (why : Why) (h : Links K [m] [] s) (hm : m ∉ s.queueMap) (hl : ∀ d l, s.graph d = some l → m ∉ l) :
    Links K [] [m] { s with
        allDone := insertSet m s.allDone
        allFailed := insertSet m s.allFailed
        trace := s.trace ++ [.fail m why] } := by
  have hass : ∀ e, assigned e (s.trace ++ [.fail m why]) = assigned e s.trace := fun e => by rw [assigned_snoc]
  have hrep : ∀ x, x ≠ m → replies x (s.trace ++ [.fail m why]) = replies x s.trace := fun x hx => by
    rw [replies_snoc]; simp [Ne.symm hx]
  have hrepm : replies m (s.trace ++ [.fail m why]) ≠ 0 := by rw [replies_snoc]; simp
  refine ⟨h.shape, ?_, ?_, ?_, ?_, ?_, ?_, ?_, ?_, ?_, ?_, h.kk, fun d hd => ?_, h.oke, fun i e hi => by simp [h.dreg i e hi], fun x hx => ?_⟩
  rotate_right 2
  · rcases (mem_insertSet _ _ _).mp hd with hd | hd
    · right; simp [hd]
    · rcases h.dcf d hd with a | a
      · exact Or.inl a
      · right; simp [a]
  · show replies x (s.trace ++ [.fail m why]) ≠ 0
    by_cases hxm : x = m
    · rw [hxm]; exact hrepm
    · rw [hrep x hxm]; exact h.oka x hx
  · intro d hd
    rcases (mem_insertSet _ _ _).mp hd with hd | hd
    · right; simp [hd]
    · rcases h.done d hd with a | a
      · exact Or.inl a
      · cases a
  · intro d hd; exact ⟨by simp [(h.cd d hd).1], (h.cd d hd).2⟩
  · intro d hd
    rcases (mem_insertSet _ _ _).mp hd with hd | hd
    · simp [hd]
    · simp [h.fd d hd]
  · intro e l he x hx; simp [h.ce e l he x hx]
  · intro e l he x hx; simp [h.fe e l he x hx]
  · intro x hx _ j hj d hd hdd
    have hxm : x ≠ m := by rintro rfl; exact hm hx
    exact h.inq x hx (by simpa using hxm) j hj d hd fun hh => hdd (by simp [hh])
  · intro d l hd
    obtain ⟨a, b⟩ := h.lis d l hd
    refine ⟨a, fun x hx => ?_⟩
    obtain ⟨c, e⟩ := b x hx
    refine ⟨?_, e⟩
    rcases c with c | c
    · exact Or.inl c
    · simp at c; exact absurd (c ▸ hx) (hl d l hd)
  · intro x j hj hr _ d hd
    have hxm : x ≠ m := by rintro rfl; exact hrepm hr
    dsimp only at hr
    rw [hrep x hxm] at hr
    exact h.kno x j hj hr (by simpa using hxm) d hd
  · intro e x hx j hj
    dsimp only at hx
    rw [hass] at hx
    exact (h.run e x hx j hj).imp (fun hh d hd => by simp [hh d hd]) id
  · intro x hx
    by_cases hxm : x = m
    · simp [hxm]
    · dsimp only at hx
      rw [hrep x hxm] at hx
      simp [h.ans x hx]

/-- `update_graph(d)` takes the list of the finished task. -/
theorem Links.pop {d : MsgId} (h : Links K [] [d] s) (hd : d ∈ s.allDone) : Links K [] [] { s with graph := upd s.graph d none } where
  shape := h.shape
  dcf := h.dcf
  oke := h.oke
  dreg := h.dreg
  oka := h.oka
  done := fun x hx => by
    left
    show upd s.graph d none x = none
    by_cases hxd : x = d
    · rw [hxd, upd_self]
    · rw [upd_ne _ _ hxd]
      rcases h.done x hx with a | a
      · exact a
      · simp at a; exact absurd a hxd
  cd := h.cd
  fd := h.fd
  ce := h.ce
  fe := h.fe
  inq := fun x hx hn j hj d' hd' hdd => by
    have : d' ≠ d := by rintro rfl; exact hdd hd
    obtain ⟨l, a, b⟩ := h.inq x hx hn j hj d' hd' hdd
    exact ⟨l, by show upd s.graph d none d' = _; rw [upd_ne _ _ this]; exact a, b⟩
  lis := fun d' l hl => by
    have hl : upd s.graph d none d' = some l := hl
    by_cases hdd : d' = d
    · rw [hdd, upd_self] at hl; cases hl
    · rw [upd_ne _ _ hdd] at hl; exact h.lis d' l hl
  kno := h.kno
  run := h.run
  ans := h.ans
  kk := h.kk

/-- The task in hand is sent. -/
theorem Links.send {m : MsgId} {idx : Nat} {t : Engine} (h : Links K X P s)
    (hr : ∀ j, s.jobs m = some j → (∀ d ∈ j.dependents, d ∈ s.allDone) ∨ Hardy j) : Links K X P (sentState s m idx t) := by
  have htr : (sentState s m idx t).trace = s.trace ++ [.send t m] := by simp
  have hrep : ∀ x, replies x (s.trace ++ [.send t m]) = replies x s.trace := fun x => by rw [replies_snoc]; simp
  have hd : (sentState s m idx t).allDone = s.allDone := by
    unfold sentState addJob; dsimp only; split <;> split <;> rfl
  refine ⟨?_, ?_, ?_, ?_, ?_, ?_, ?_, ?_, ?_, ?_, ?_, ?_, ?_, ?_, ?_, ?_⟩
  all_goals simp only [htr, hrep, hd, sentState_jobs, sentState_graph, sentState_allCompleted, sentState_destinations, sentState_allFailed, sentState_completed, sentState_failed, sentState_queueMap, sentState_allIds]
  · exact h.shape
  · exact h.done
  · exact h.cd
  · exact h.fd
  · exact h.ce
  · exact h.fe
  · exact h.inq
  · exact h.lis
  · exact h.kno
  · intro e x hx j hj
    rw [assigned_snoc] at hx
    dsimp only at hx
    split at hx
    · rcases List.mem_append.mp hx with hx | hx
      · exact h.run e x hx j hj
      · simp at hx; exact hr j (hx ▸ hj)
    · exact h.run e x hx j hj
  · exact h.ans
  · exact h.kk
  · exact h.dcf
  · exact h.oke
  · exact fun i e hi => by simp [h.dreg i e hi]
  · exact h.oka

theorem check_done {d : Dep} {c f : List MsgId} {D : List MsgId} (h : d.check c (some f) = true) (hs : Single d) (hc : ∀ x ∈ c, x ∈ D) (hf : ∀ x ∈ f, x ∈ D) :
    ∀ i ∈ d.ids, i ∈ D := by
  rw [check_iff] at h
  unfold Satisfied Acceptable at h
  have acc : ∀ i, (d.success = true ∧ i ∈ c) ∨ (d.failure = true ∧ i ∈ f) → i ∈ D := by
    rintro i (⟨_, h⟩ | ⟨_, h⟩)
    · exact hc i h
    · exact hf i h
  rcases h with h | ⟨_, h⟩ | ⟨ha, i, hi, h⟩
  · intro i hi; rw [h] at hi; cases hi
  · exact fun i hi => acc i (h i hi)
  · rcases hs with hs | hs
    · rw [hs] at ha; cases ha
    · intro x hx
      have : x = i := by
        cases hids : d.ids with
        | nil => rw [hids] at hx; cases hx
        | cons y ys =>
          rw [hids] at hs hx hi
          have : ys = [] := by cases ys with | nil => rfl | cons => simp at hs
          subst this
          simp at hx hi
          rw [hx, hi]
      rw [this]; exact acc i h

end IPP.Sched
