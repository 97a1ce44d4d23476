import Verif.Sched.PickInv
import Verif.Sched.Fuel

/-!
# Where every task is (lemmas)

The invariant that a task is waiting, or assigned to one engine, or answered; in histories where a task in the queue cannot be sent by the
path that bypasses the queue (`loopJobs`): `hwm = 1`, or no dependencies.
-/
namespace IPP.Sched

theorem assigned_snoc (e : Engine) (tr : List Obs) (o : Obs) : assigned e (tr ++ [o]) = (match o with
    | .send e' m => if e' = e then assigned e tr ++ [m] else assigned e tr
    | .received e' m _ _ => if e' = e then (assigned e tr).erase m else assigned e tr
    | .stranded e' m => if e' = e then (assigned e tr).erase m else assigned e tr
    | _ => assigned e tr) := by
  unfold assigned
  rw [List.foldl_append]
  cases o <;> rfl

theorem replies_snoc (m : MsgId) (tr : List Obs) (o : Obs) : replies m (tr ++ [o]) = replies m tr + (match o with
    | .relay _ m' _ => if m' = m then 1 else 0
    | .fail m' _ => if m' = m then 1 else 0
    | _ => 0) := by
  unfold replies
  rw [List.countP_append]
  cases o <;> simp [List.countP_cons, List.countP_nil]

/-- Ghost parameters. -/
structure Ghost where
  /-- is nothing lost -/
  full : Prop
  /-- no engine is available -/
  F : Prop
  /-- engines whose stranded tasks are being handled, and the tasks left -/
  S : List Engine
  A : List MsgId
  /-- tasks known to be answered by the scheduler -/
  R : List MsgId
  /-- tasks held in `to_restore` lists -/
  H : List MsgId
  /-- the task in hand -/
  X : List MsgId

structure Inv (cfg : Config) (D : Prop) (g : Ghost) (s : State) : Prop where
  pn : ∀ e, s.pending e = none → assigned e s.trace = []
  ps : ∀ e p, s.pending e = some p → p = assigned e s.trace
  nod : ∀ e, (assigned e s.trace).Nodup
  excl : ∀ m e e', m ∈ assigned e s.trace → m ∈ assigned e' s.trace → e = e'
  asg : ∀ m e, m ∈ assigned e s.trace → m ∉ s.queueMap ∧ replies m s.trace = 0 ∧ ∃ j, s.jobs m = some j ∧ j.removed = false
  tnd : s.targets.Nodup
  reg : ∀ e ∈ s.targets, s.pending e ≠ none ∧ s.completed e ≠ none ∧ s.failed e ≠ none
  load : s.loads = s.targets.map (fun e => ((assigned e s.trace).length : Int))
  dead : ∀ e, assigned e s.trace ≠ [] → s.completed e ≠ none ∧ s.failed e ≠ none
  tim : ∀ e, assigned e s.trace ≠ [] → e ∉ s.targets → e ∈ s.strandTimers ∨ e ∈ g.S
  stt : ∀ e ∈ s.strandTimers, e ∉ s.targets ∧ e ∉ g.S ∧ s.completed e ≠ none ∧ s.failed e ≠ none ∧ s.pending e ≠ none
  stn : s.strandTimers.Nodup
  sin : ∀ e ∈ g.S, e ∉ s.targets ∧ s.completed e ≠ none ∧ s.failed e ≠ none ∧ s.pending e ≠ none ∧ ∀ x ∈ assigned e s.trace, x ∈ g.A
  fre : ∀ e, Obs.registered e ∉ s.trace → s.pending e = none ∧ e ∉ s.targets ∧ e ∉ s.strandTimers
  qm : ∀ m ∈ s.queueMap, replies m s.trace = 0 ∧ ∃ j, s.jobs m = some j ∧ j.removed = false
  rep : ∀ m, replies m s.trace ≤ 1
  unk : ∀ m, s.jobs m = none → replies m s.trace = 0
  alf : ∀ m ∈ s.allFailed, replies m s.trace ≠ 0
  ret : ∀ m j, s.jobs m = some j → replies m s.trace = 0 → s.retries m ≠ none
  dep : D → (∀ d, s.graph d = none) ∧ ∀ m j, s.jobs m = some j → j.after.ids = [] ∧ j.follow.ids = []
  sub : ∀ m j, s.jobs m = some j → ∃ sub, Obs.submitted m sub ∈ s.trace ∧ (∀ sub', Obs.submitted m sub' ∈ s.trace → sub' = sub) ∧
    (∀ t ∈ j.targets, t ∈ sub.targets) ∧ (j.removed = false → m ∉ g.X → sub.targets ≠ [] → j.targets ≠ [])
  sent : ∀ p e m q, s.trace = p ++ .send e m :: q → ∀ sub, Obs.submitted m sub ∈ p → sub.targets = [] ∨ e ∈ sub.targets
  fe : g.F → availableEngines cfg s = []
  rr : ∀ m ∈ g.R, m ∈ s.allFailed ∧ replies m s.trace ≠ 0 ∧ ∃ j, s.jobs m = some j ∧ j.removed = true
  que : (g.H ++ s.queue).Nodup
  qin : ∀ m ∈ g.H ++ s.queue, (∀ e, m ∉ assigned e s.trace) ∧ ∃ j, s.jobs m = some j ∧ (j.removed = true ∨ m ∈ s.queueMap)
  lost : g.full → ∀ m j, s.jobs m = some j → replies m s.trace = 0 → m ∈ s.queueMap ∨ (∃ e, m ∈ assigned e s.trace) ∨ m ∈ g.X
  wait : g.full → ∀ m ∈ s.queueMap, m ∈ g.H ++ s.queue
  rem : g.full → ∀ m j, s.jobs m = some j → j.removed = true → m ∈ g.X ∨ replies m s.trace ≠ 0

variable {cfg : Config} {D : Prop} {g : Ghost} {s : State}

/-- The parameters after an exception: what was held is lost. -/
def weak (g : Ghost) : Ghost := { g with
  full := False
  F := False
  R := []
  H := []
  X := [] }

/-- State after an exception: only outside the exception-free class, and then tasks may be lost. -/
def Bad (cfg : Config) (D : Prop) (g : Ghost) (s : State) : Prop := ¬ D ∧ Inv cfg D (weak g) s

/-- The task's targets, if it had any, are not exhausted. -/
def TgtOk (s : State) (m : MsgId) : Prop := ∀ j, s.jobs m = some j → j.removed = false → ∀ sub, Obs.submitted m sub ∈ s.trace → sub.targets ≠ [] → j.targets ≠ []

theorem Inv.weaken (h : Inv cfg D g s) (hX : ∀ m ∈ g.X, TgtOk s m) : Inv cfg D (weak g) s where
  pn := h.pn
  ps := h.ps
  nod := h.nod
  excl := h.excl
  asg := h.asg
  tnd := h.tnd
  reg := h.reg
  load := h.load
  dead := h.dead
  tim := h.tim
  stt := h.stt
  stn := h.stn
  sin := h.sin
  fre := h.fre
  qm := h.qm
  rep := h.rep
  unk := h.unk
  alf := h.alf
  ret := h.ret
  dep := h.dep
  sub := fun m j hj => by
    obtain ⟨sub, a, b, c, d⟩ := h.sub m j hj
    refine ⟨sub, a, b, c, fun hr _ => ?_⟩
    by_cases hm : m ∈ g.X
    · exact hX m hm j hj hr sub a
    · exact d hr hm
  sent := h.sent
  fe := fun h => h.elim
  rr := by simp [weak]
  que := by simpa [weak] using (List.nodup_append.mp h.que).2.1
  qin := fun m hm => h.qin m (by simpa [weak] using List.mem_append_right g.H (by simpa [weak] using hm))
  lost := fun h => h.elim
  wait := fun h => h.elim
  rem := fun h => h.elim

/-- Changing the ghosts only. -/
theorem Inv.reghost {g' : Ghost} (h : Inv cfg D g s) (hS : g'.S = g.S) (hA : ∀ x ∈ g.A, x ∈ g'.A) (hF : g'.F → availableEngines cfg s = []) (hR : ∀ m ∈ g'.R, m ∈ g.R) (hH : g'.H = g.H) (hX : g'.X = g.X) (hf : g'.full → g.full) : Inv cfg D g' s where
  pn := h.pn
  ps := h.ps
  nod := h.nod
  excl := h.excl
  asg := h.asg
  tnd := h.tnd
  reg := h.reg
  load := h.load
  dead := h.dead
  tim := hS ▸ h.tim
  stt := hS ▸ h.stt
  stn := h.stn
  sin := fun e he => by
    obtain ⟨a, b, c, d, f⟩ := h.sin e (hS ▸ he)
    exact ⟨a, b, c, d, fun x hx => hA x (f x hx)⟩
  fre := h.fre
  qm := h.qm
  rep := h.rep
  unk := h.unk
  alf := h.alf
  ret := h.ret
  dep := h.dep
  sub := fun m j hj => by rw [hX]; exact h.sub m j hj
  sent := h.sent
  fe := hF
  rr := fun m hm => h.rr m (hR m hm)
  que := hH ▸ h.que
  qin := hH ▸ h.qin
  lost := fun hh => hX ▸ h.lost (hf hh)
  wait := fun hh => hH ▸ h.wait (hf hh)
  rem := fun hh => hX ▸ h.rem (hf hh)


/-- The task is taken from the queue map and marked as removed — the first lines of fail_unreachable. -/
theorem Inv.failing (h : Inv cfg D g s) {m : MsgId} {j : Job} (hX : ∀ x ∈ g.X, x = m) (hj : s.jobs m = some j) (hna : ∀ e, m ∉ assigned e s.trace) :
    Inv cfg D { g with X := [m] } { s with
        queueMap := s.queueMap.filter (· ≠ m)
        jobs := upd s.jobs m (some { j with removed := true }) } where
  pn := h.pn
  ps := h.ps
  nod := h.nod
  excl := h.excl
  asg := fun x e hx => by
    obtain ⟨a, b, j', hj', hr⟩ := h.asg x e hx
    have hxm : x ≠ m := fun hh => hna e (hh ▸ hx)
    exact ⟨fun hh => a (List.mem_filter.mp hh).1, b, j', by simp [upd, hxm, hj'], hr⟩
  tnd := h.tnd
  reg := h.reg
  load := h.load
  dead := h.dead
  tim := h.tim
  stt := h.stt
  stn := h.stn
  sin := h.sin
  fre := h.fre
  qm := fun x hx => by
    obtain ⟨hx, hxm⟩ := List.mem_filter.mp hx
    simp at hxm
    obtain ⟨a, j', hj', hr⟩ := h.qm x hx
    exact ⟨a, j', by simp [upd, hxm, hj'], hr⟩
  rep := h.rep
  unk := fun x hx => by
    by_cases hxm : x = m
    · subst hxm; simp [upd] at hx
    · simp only [upd, hxm, if_false] at hx; exact h.unk x hx
  alf := h.alf
  ret := fun x j' hj' hr => by
    by_cases hxm : x = m
    · subst hxm; exact h.ret x j hj hr
    · simp only [upd, hxm, if_false] at hj'; exact h.ret x j' hj' hr
  dep := fun hd => ⟨(h.dep hd).1, fun x j' hj' => by
    by_cases hxm : x = m
    · subst hxm
      simp only [upd, if_true, Option.some.injEq] at hj'
      subst hj'
      exact (h.dep hd).2 x j hj
    · simp only [upd, hxm, if_false] at hj'; exact (h.dep hd).2 x j' hj'⟩
  sub := fun x j' hj' => by
    by_cases hxm : x = m
    · subst hxm
      simp only [upd, if_true, Option.some.injEq] at hj'
      subst hj'
      obtain ⟨sub, a, b, c, d⟩ := h.sub x j hj
      exact ⟨sub, a, b, c, by simp⟩
    · simp only [upd, hxm, if_false] at hj'
      obtain ⟨sub, a, b, c, d⟩ := h.sub x j' hj'
      exact ⟨sub, a, b, c, fun hr _ => d hr fun hh => hxm (hX x hh)⟩
  sent := h.sent
  fe := h.fe
  rr := fun x hx => by
    obtain ⟨a, b, j', hj', hr⟩ := h.rr x hx
    refine ⟨a, b, ?_⟩
    by_cases hxm : x = m
    · subst hxm; exact ⟨{ j with removed := true }, by simp [upd], rfl⟩
    · exact ⟨j', by simp [upd, hxm, hj'], hr⟩
  que := h.que
  qin := fun x hx => by
    obtain ⟨a, j', hj', hr⟩ := h.qin x hx
    refine ⟨a, ?_⟩
    by_cases hxm : x = m
    · subst hxm; exact ⟨{ j with removed := true }, by simp [upd], Or.inl rfl⟩
    · refine ⟨j', by simp [upd, hxm, hj'], hr.imp id fun hh => List.mem_filter.mpr ⟨hh, by simpa using hxm⟩⟩
  lost := fun hf x j' hj' hr => by
    by_cases hxm : x = m
    · subst hxm; simp
    · simp only [upd, hxm, if_false] at hj'
      rcases h.lost hf x j' hj' hr with a | a | a
      · exact Or.inl (List.mem_filter.mpr ⟨a, by simpa using hxm⟩)
      · exact Or.inr (Or.inl a)
      · exact absurd (hX x a) hxm
  wait := fun hf x hx => h.wait hf x (List.mem_filter.mp hx).1
  rem := fun hf x j' hj' hr => by
    by_cases hxm : x = m
    · subst hxm; simp
    · simp only [upd, hxm, if_false] at hj'
      rcases h.rem hf x j' hj' hr with a | a
      · exact absurd (hX x a) hxm
      · exact Or.inr a

theorem replies_le_snoc (m : MsgId) (tr : List Obs) (o : Obs) : replies m tr ≤ replies m (tr ++ [o]) := by rw [replies_snoc]; omega

/-- The scheduler answers — task_scheduler.py:476-486. -/
theorem Inv.failReply (h : Inv cfg D g s) {m : MsgId} (why : Why) (hX : g.X = [m]) (hj : ∃ j, s.jobs m = some j ∧ j.removed = true) (hm : m ∉ s.queueMap) (hr0 : replies m s.trace = 0) :
    Inv cfg D { g with
      R := m :: g.R
      X := [] } { s with
        allDone := insertSet m s.allDone
        allFailed := insertSet m s.allFailed
        trace := s.trace ++ [.fail m why] } := by
  have hass : ∀ e, assigned e (s.trace ++ [.fail m why]) = assigned e s.trace := fun e => by rw [assigned_snoc]
  have hrep : ∀ x, x ≠ m → replies x (s.trace ++ [.fail m why]) = replies x s.trace := fun x hx => by
    rw [replies_snoc]; simp [Ne.symm hx]
  have hrepm : replies m (s.trace ++ [.fail m why]) = 1 := by rw [replies_snoc, hr0]; simp
  have hmem : ∀ x sub, Obs.submitted x sub ∈ s.trace ++ [.fail m why] ↔ Obs.submitted x sub ∈ s.trace := by intro x sub; simp
  obtain ⟨jm, hjm, hrm⟩ := hj
  have hna : ∀ e, m ∉ assigned e s.trace := fun e he => by
    obtain ⟨_, _, j, hj, hr⟩ := h.asg m e he
    rw [hjm] at hj; cases hj; rw [hrm] at hr; cases hr
  refine { pn := ?_, ps := ?_, nod := ?_, excl := ?_, asg := ?_, tnd := h.tnd, reg := h.reg, load := ?_, dead := ?_, tim := ?_, stt := h.stt, stn := h.stn, sin := ?_, fre := ?_, qm := ?_, rep := ?_, unk := ?_, alf := ?_, ret := ?_, dep := h.dep, sub := ?_, sent := ?_, fe := h.fe, rr := ?_, que := h.que, qin := ?_, lost := ?_, wait := h.wait, rem := ?_ }
  all_goals simp only [hass]
  · exact h.pn
  · exact h.ps
  · exact h.nod
  · exact h.excl
  · intro x e hx
    have hxm : x ≠ m := fun hh => hna e (hh ▸ hx)
    rw [hrep x hxm]; exact h.asg x e hx
  · exact h.load
  · exact h.dead
  · exact h.tim
  · exact h.sin
  · intro e he; exact h.fre e fun hh => he (by simp [hh])
  · intro x hx
    have hxm : x ≠ m := fun hh => hm (hh ▸ hx)
    rw [hrep x hxm]; exact h.qm x hx
  · intro x
    by_cases hxm : x = m
    · rw [hxm, hrepm]; exact Nat.le_refl _
    · rw [hrep x hxm]; exact h.rep x
  · intro x hx
    have hxm : x ≠ m := fun hh => by rw [hh, hjm] at hx; cases hx
    rw [hrep x hxm]; exact h.unk x hx
  · intro x hx
    by_cases hxm : x = m
    · rw [hxm, hrepm]; simp
    · rw [hrep x hxm]
      rcases (mem_insertSet _ _ _).mp hx with hx | hx
      · exact absurd hx hxm
      · exact h.alf x hx
  · intro x j hj hr
    have hxm : x ≠ m := fun hh => by rw [hh, hrepm] at hr; cases hr
    rw [hrep x hxm] at hr; exact h.ret x j hj hr
  · intro x j hj
    obtain ⟨sub, a, b, c, d⟩ := h.sub x j hj
    refine ⟨sub, by simp [a], fun sub' hs => b sub' ((hmem _ _).mp hs), c, fun hr _ => ?_⟩
    refine d hr ?_
    rw [hX]
    intro hh
    simp at hh
    rw [hh, hjm] at hj; cases hj; rw [hrm] at hr; cases hr
  · intro p e x q hq
    rcases snoc_split hq with ⟨_, _, h2⟩ | ⟨q', _, hq'⟩
    · cases h2
    · exact h.sent p e x q' hq'
  · intro x hx
    rcases List.mem_cons.mp hx with rfl | hx
    · exact ⟨by simp, by rw [hrepm]; simp, jm, hjm, hrm⟩
    · obtain ⟨a, b, c⟩ := h.rr x hx
      refine ⟨by simp [a], ?_, c⟩
      have := replies_le_snoc x s.trace (.fail m why)
      omega
  · exact h.qin
  · intro hf x j hj hr
    have hxm : x ≠ m := fun hh => by rw [hh, hrepm] at hr; cases hr
    rw [hrep x hxm] at hr
    rcases h.lost hf x j hj hr with a | a | a
    · exact Or.inl a
    · exact Or.inr (Or.inl a)
    · rw [hX] at a; simp at a; exact absurd a hxm
  · intro hf x j hj hr
    right
    rcases h.rem hf x j hj hr with a | a
    · rw [hX] at a; simp at a; rw [a, hrepm]; simp
    · have := replies_le_snoc x s.trace (.fail m why)
      omega

/-- Changing the graph. -/
theorem Inv.setGraph (h : Inv cfg D g s) (gr : MsgId → Option (List MsgId)) (hg : ∀ d, s.graph d = none → gr d = none) :
    Inv cfg D g { s with graph := gr } := { h with
  dep := fun hd => ⟨fun d => hg d ((h.dep hd).1 d), (h.dep hd).2⟩ }

/-- The state without `m` in the queue map. -/
def drop (m : MsgId) (s : State) : State := { s with queueMap := s.queueMap.filter (· ≠ m) }

/-- `m` was taken out of the queue, or is new. -/
structure InHand (cfg : Config) (D : Prop) (g : Ghost) (m : MsgId) (s : State) : Prop where
  inv : Inv cfg D { g with X := [m] } (drop m s)
  out : m ∉ g.H ++ s.queue
  job : ∃ j, s.jobs m = some j ∧ j.removed = false
  rep : replies m s.trace = 0
  una : ∀ e, m ∉ assigned e s.trace

theorem filter_ne_self {m : MsgId} {l : List MsgId} (h : m ∉ l) : l.filter (· ≠ m) = l := by
  refine List.filter_eq_self.mpr fun x hx => ?_
  simp
  intro hh; exact h (hh ▸ hx)

theorem drop_self {m : MsgId} {s : State} (h : m ∉ s.queueMap) : drop m s = s := by
  unfold drop; rw [filter_ne_self h]

/-- Put it back into the list of held tasks. -/
theorem InHand.putBack {m : MsgId} (h : InHand cfg D g m s) (hm : m ∈ s.queueMap) (ht : TgtOk s m) : Inv cfg D { g with H := g.H ++ [m] } s := by
  obtain ⟨jm, hjm, hrm⟩ := h.job
  have hI := h.inv
  refine { hI with asg := ?_, qm := ?_, sub := ?_, que := ?_, qin := ?_, lost := ?_, wait := ?_, rem := ?_ }
  · intro x e hx
    obtain ⟨a, b, c⟩ := hI.asg x e hx
    refine ⟨fun hh => a (List.mem_filter.mpr ⟨hh, ?_⟩), b, c⟩
    simp
    intro hh'; exact h.una e (hh' ▸ hx)
  · intro x hx
    by_cases hxm : x = m
    · subst hxm; exact ⟨h.rep, jm, hjm, hrm⟩
    · exact hI.qm x (List.mem_filter.mpr ⟨hx, by simpa using hxm⟩)
  · intro x j hj
    obtain ⟨sub, a, b, c, d⟩ := hI.sub x j hj
    refine ⟨sub, a, b, c, fun hr _ => ?_⟩
    by_cases hxm : x = m
    · subst hxm; exact ht j hj hr sub a
    · exact d hr (by simpa using hxm)
  · have := hI.que
    have hout := h.out
    simp only [drop] at this
    show (g.H ++ [m] ++ s.queue).Nodup
    rw [List.nodup_append] at this ⊢
    simp only [List.mem_append, not_or] at hout
    refine ⟨List.nodup_append.mpr ⟨this.1, by simp, ?_⟩, this.2.1, ?_⟩
    · intro a ha b hb hab
      simp at hb
      exact hout.1 (by rw [← hb, ← hab]; exact ha)
    · intro a ha b hb hab
      rcases List.mem_append.mp ha with ha | ha
      · exact this.2.2 a ha b hb hab
      · simp at ha
        exact hout.2 (by rw [← ha, hab]; exact hb)
  · intro x hx
    have hx' : x = m ∨ x ∈ g.H ++ s.queue := by
      simp at hx ⊢
      rcases hx with a | a | a
      · exact Or.inr (Or.inl a)
      · exact Or.inl a
      · exact Or.inr (Or.inr a)
    rcases hx' with rfl | hx'
    · exact ⟨h.una, jm, hjm, Or.inr hm⟩
    · obtain ⟨a, j, hj, hr⟩ := hI.qin x hx'
      exact ⟨a, j, hj, hr.imp id fun hh => (List.mem_filter.mp hh).1⟩
  · intro hf x j hj hr
    by_cases hxm : x = m
    · subst hxm; exact Or.inl hm
    · rcases hI.lost hf x j hj hr with a | a | a
      · exact Or.inl (List.mem_filter.mp a).1
      · exact Or.inr (Or.inl a)
      · simp at a; exact absurd a hxm
  · intro hf x hx
    by_cases hxm : x = m
    · subst hxm; simp
    · have := hI.wait hf x (List.mem_filter.mpr ⟨hx, by simpa using hxm⟩)
      simp only [drop] at this
      rcases List.mem_append.mp this with a | a
      · simp [a]
      · simp [a]
  · intro hf x j hj hr
    rcases hI.rem hf x j hj hr with a | a
    · simp at a
      subst a
      have hjm' : s.jobs x = some j := hj
      rw [hjm] at hjm'; cases hjm'; rw [hrm] at hr; cases hr
    · exact Or.inr a

theorem InHand.weaken {m : MsgId} (h : InHand cfg D g m s) (ht : TgtOk s m) (hX : g.X = []) : Inv cfg D (weak g) s := by
  by_cases hm : m ∈ s.queueMap
  · have := (h.putBack hm ht).weaken (by simp [hX])
    exact this
  · have hI := h.inv
    rw [drop_self hm] at hI
    have := hI.weaken (by intro x hx; simp at hx; subst hx; exact ht)
    exact this


/-- A task that is not waiting need not be held. -/
theorem Inv.release {m : MsgId} (h : Inv cfg D { g with H := g.H ++ [m] } s) (hm : m ∉ s.queueMap) : Inv cfg D g s := { h with
  que := by
    have := h.que
    refine this.sublist ?_
    show (g.H ++ s.queue).Sublist (g.H ++ [m] ++ s.queue)
    exact List.Sublist.append (List.sublist_append_left _ _) (List.Sublist.refl _)
  qin := fun x hx => h.qin x (by
    show x ∈ g.H ++ [m] ++ s.queue
    simp at hx ⊢
    rcases hx with a | a
    · exact Or.inl a
    · exact Or.inr (Or.inr a))
  wait := fun hf x hx => by
    have := h.wait hf x hx
    simp at this ⊢
    rcases this with a | a | a
    · exact Or.inl a
    · exact absurd (a ▸ hx) hm
    · exact Or.inr a }

/-- A held task that is not removed is waiting: take it. -/
theorem Inv.take {m : MsgId} {j : Job} (h : Inv cfg D { g with H := g.H ++ [m] } s) (hX : g.X = []) (hj : s.jobs m = some j) (hr : j.removed = false) :
    InHand cfg D g m s ∧ TgtOk s m ∧ m ∈ s.queueMap := by
  have hmem : m ∈ g.H ++ [m] ++ s.queue := by simp
  obtain ⟨hna, j', hj', hq⟩ := h.qin m hmem
  rw [hj] at hj'; cases hj'
  have hq : m ∈ s.queueMap := by rcases hq with a | a; (rw [hr] at a; cases a); exact a
  have hnd : m ∉ g.H ++ s.queue := by
    have := h.que
    rw [List.append_assoc, List.nodup_append] at this
    obtain ⟨_, h2, h3⟩ := this
    simp only [List.singleton_append, List.nodup_cons] at h2
    simp only [List.mem_append, not_or]
    exact ⟨fun hh => h3 m hh m (by simp) rfl, h2.1⟩
  have ht : TgtOk s m := fun j' hj' hr' sub hs => by
    obtain ⟨sub', a, b, c, d⟩ := h.sub m j' hj'
    rw [b sub hs]
    exact d hr' (by simp [hX])
  refine ⟨⟨?_, hnd, ⟨j, hj, hr⟩, (h.qm m hq).1, hna⟩, ht, hq⟩
  refine { h with asg := ?_, qm := ?_, sub := ?_, que := ?_, qin := ?_, lost := ?_, wait := ?_, rem := ?_ }
  · intro x e hx
    obtain ⟨a, b⟩ := h.asg x e hx
    exact ⟨fun hh => a (List.mem_filter.mp hh).1, b⟩
  · intro x hx; exact h.qm x (List.mem_filter.mp hx).1
  · intro x jx hx
    obtain ⟨sub, a, b, c, d⟩ := h.sub x jx hx
    exact ⟨sub, a, b, c, fun hr _ => d hr (by simp [hX])⟩
  · refine h.que.sublist ?_
    exact List.Sublist.append (List.sublist_append_left _ _) (List.Sublist.refl _)
  · intro x hx
    have hx' : x ∈ g.H ++ s.queue := hx
    have hxm : x ≠ m := fun hh => hnd (hh ▸ hx')
    obtain ⟨a, jx, hjx, hqx⟩ := h.qin x (by
      show x ∈ g.H ++ [m] ++ s.queue
      simp at hx' ⊢
      rcases hx' with a | a
      · exact Or.inl a
      · exact Or.inr (Or.inr a))
    exact ⟨a, jx, hjx, hqx.imp id fun hh => List.mem_filter.mpr ⟨hh, by simpa using hxm⟩⟩
  · intro hf x jx hjx hrx
    by_cases hxm : x = m
    · subst hxm; simp
    · rcases h.lost hf x jx hjx hrx with a | a | a
      · exact Or.inl (List.mem_filter.mpr ⟨a, by simpa using hxm⟩)
      · exact Or.inr (Or.inl a)
      · simp [hX] at a
  · intro hf x hx
    obtain ⟨hx, hxm⟩ := List.mem_filter.mp hx
    simp at hxm
    have := h.wait hf x hx
    simp [hxm] at this
    simpa [drop] using this
  · intro hf x jx hjx hrx
    rcases h.rem hf x jx hjx hrx with a | a
    · simp [hX] at a
    · exact Or.inr a

/-- Moving tasks between the queue and the held ones. -/
theorem Inv.requeue {g' : Ghost} {q' : List MsgId} (h : Inv cfg D g s) (hH : g' = { g with H := g'.H }) (hp : (g'.H ++ q').Perm (g.H ++ s.queue)) :
    Inv cfg D g' { s with queue := q' } := by
  rw [hH]
  exact { h with
    que := hp.nodup_iff.mpr h.que
    qin := fun x hx => h.qin x (hp.mem_iff.mp hx)
    wait := fun hf x hx => hp.mem_iff.mpr (h.wait hf x hx) }

/-- A removed task may be held. -/
theorem Inv.hold {m : MsgId} {j : Job} (h : Inv cfg D g s) (hj : s.jobs m = some j) (hr : j.removed = true) (hna : ∀ e, m ∉ assigned e s.trace)
    (hout : m ∉ g.H ++ s.queue) : Inv cfg D { g with H := g.H ++ [m] } s := { h with
  que := by
    show (g.H ++ [m] ++ s.queue).Nodup
    have hp : (g.H ++ [m] ++ s.queue).Perm (m :: (g.H ++ s.queue)) := by
      rw [List.append_assoc]; exact List.perm_middle
    exact hp.nodup_iff.mpr (List.nodup_cons.mpr ⟨hout, h.que⟩)
  qin := fun x hx => by
    have hx : x ∈ g.H ++ [m] ++ s.queue := hx
    by_cases hxm : x = m
    · subst hxm; exact ⟨hna, j, hj, Or.inl hr⟩
    · exact h.qin x (by simpa [hxm] using hx)
  wait := fun hf x hx => by
    have := h.wait hf x hx
    simp at this ⊢
    rcases this with a | a
    · exact Or.inl a
    · exact Or.inr (Or.inr a) }

/-- The state in which fail_unreachable can do its work. -/
def FailPre (cfg : Config) (D : Prop) (g : Ghost) (m : MsgId) (s : State) : Prop :=
  m ∈ s.queueMap ∧ replies m s.trace = 0 ∧ ∃ j, s.jobs m = some j ∧ Inv cfg D { g with X := [m] } { s with
        queueMap := s.queueMap.filter (· ≠ m)
        jobs := upd s.jobs m (some { j with removed := true }) }

theorem Inv.failPre {m : MsgId} (h : Inv cfg D g s) (hX : g.X = []) (hm : m ∈ s.queueMap) : FailPre cfg D g m s := by
  obtain ⟨hr, j, hj, hjr⟩ := h.qm m hm
  refine ⟨hm, hr, j, hj, h.failing (by simp [hX]) hj fun e he => (h.asg m e he).1 hm⟩

theorem filter_filter_ne (m : MsgId) (l : List MsgId) : (l.filter (· ≠ m)).filter (· ≠ m) = l.filter (· ≠ m) :=
  List.filter_eq_self.mpr fun _ hx => (List.mem_filter.mp hx).2

theorem InHand.failPre {m : MsgId} (h : InHand cfg D g m s) (hm : m ∈ s.queueMap) : FailPre cfg D { g with H := g.H ++ [m] } m s := by
  obtain ⟨j, hj, hjr⟩ := h.job
  refine ⟨hm, h.rep, j, hj, ?_⟩
  have h1 := h.inv.failing (m := m) (j := j) (by simp) hj h.una
  have h2 := h1.hold (m := m) (j := { j with removed := true }) (upd_self _ _ _) rfl h.una h.out
  simp only [drop, filter_filter_ne] at h2
  exact h2

theorem InHand.addMap {m : MsgId} (h : InHand cfg D g m s) : InHand cfg D g m { s with queueMap := insertSet m s.queueMap } where
  inv := by
    have : drop m { s with queueMap := insertSet m s.queueMap } = drop m s := by
      unfold drop insertSet
      split
      · rfl
      · simp [List.filter_append]
    rw [this]; exact h.inv
  out := h.out
  job := h.job
  rep := h.rep
  una := h.una

/-- Changing the job in hand. -/
theorem InHand.setJob {m : MsgId} {j j' : Job} (h : InHand cfg D g m s) (hj : s.jobs m = some j) (hr : j'.removed = false)
    (hd : j'.after = j.after ∧ j'.follow = j.follow) (ht : ∀ t ∈ j'.targets, t ∈ j.targets) :
    InHand cfg D g m { s with jobs := upd s.jobs m (some j') } := by
  refine ⟨?_, h.out, ⟨j', upd_self _ _ _, hr⟩, h.rep, h.una⟩
  have hI := h.inv
  have other : ∀ x, x ≠ m → upd s.jobs m (some j') x = s.jobs x := fun x hx => upd_ne _ _ hx
  refine { hI with asg := ?_, qm := ?_, unk := ?_, ret := ?_, dep := ?_, sub := ?_, rr := ?_, qin := ?_, lost := ?_, rem := ?_ }
  all_goals simp only [drop]
  · intro x e hx
    obtain ⟨a, b, jx, c, d⟩ := hI.asg x e hx
    have hxm : x ≠ m := fun hh => h.una e (hh ▸ hx)
    exact ⟨a, b, jx, by rw [other x hxm]; exact c, d⟩
  · intro x hx
    obtain ⟨a, jx, c, d⟩ := hI.qm x hx
    have hxm : x ≠ m := by simpa using (List.mem_filter.mp hx).2
    exact ⟨a, jx, by rw [other x hxm]; exact c, d⟩
  · intro x hx
    by_cases hxm : x = m
    · rw [hxm, upd_self] at hx; cases hx
    · rw [other x hxm] at hx; exact hI.unk x hx
  · intro x jx hx hrx
    by_cases hxm : x = m
    · rw [hxm]; exact hI.ret m j hj h.rep
    · rw [other x hxm] at hx; exact hI.ret x jx hx hrx
  · intro hD
    refine ⟨(hI.dep hD).1, fun x jx hx => ?_⟩
    by_cases hxm : x = m
    · rw [hxm, upd_self] at hx; cases hx; rw [hd.1, hd.2]; exact (hI.dep hD).2 m j hj
    · rw [other x hxm] at hx; exact (hI.dep hD).2 x jx hx
  · intro x jx hx
    by_cases hxm : x = m
    · rw [hxm, upd_self] at hx; cases hx
      rw [hxm]
      obtain ⟨sub, a, b, c, _⟩ := hI.sub m j hj
      exact ⟨sub, a, b, fun t htt => c t (ht t htt), by simp⟩
    · rw [other x hxm] at hx; exact hI.sub x jx hx
  · intro x hx
    obtain ⟨a, b, jx, c, d⟩ := hI.rr x hx
    have hxm : x ≠ m := fun hh => b (hh ▸ h.rep)
    exact ⟨a, b, jx, by rw [other x hxm]; exact c, d⟩
  · intro x hx
    obtain ⟨a, jx, c, d⟩ := hI.qin x hx
    have hxm : x ≠ m := fun hh => h.out (hh ▸ hx)
    exact ⟨a, jx, by rw [other x hxm]; exact c, d⟩
  · intro hf x jx hx hrx
    by_cases hxm : x = m
    · rw [hxm]; simp
    · rw [other x hxm] at hx; exact hI.lost hf x jx hx hrx
  · intro hf x jx hx hrx
    by_cases hxm : x = m
    · rw [hxm]; simp
    · rw [other x hxm] at hx; exact hI.rem hf x jx hx hrx

end IPP.Sched
