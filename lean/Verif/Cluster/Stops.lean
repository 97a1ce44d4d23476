import Verif.Cluster.Orphans
/-!
# Stopping and dying components (properties C62, C63)
-/
namespace IPP.Cluster

theorem update_fields (c : Cfg) (s : St) : (update c s).objs = s.objs ∧ (update c s).engines = s.engines ∧ (update c s).ctl = s.ctl ∧ (update c s).live = s.live ∧
    (c.enabled = true → (update c s).file = if isRunning s then some (toDict c s) else none) := by
  unfold update
  split
  · rename_i h; simp
  · rename_i h; simp [h]

/-- **`stop_engines` is complete**: when its processes have ended, the set is in the cluster object no more, nor in the file; the other sets still are in the object. -/
theorem stop_removes_set {c : Cfg} (hen : c.enabled = true) {s : St} (hs : Start c s) (h : List Ev) (hid : Along IdUnused c s h) (k : Nat) (id : String) (a : Nat) (ps : List Nat)
    (hk : (run c s h).stopping[k]? = some (id, a, ps)) (hd : ∀ p ∈ ps, p ∉ (run c s h).live) (hin : id ∈ (run c s h).engines.map (·.1)) :
    let r := step c (run c s h) (.stopEnd k)
    id ∉ r.engines.map (·.1) ∧ id ∉ (fileSets r.file).map (·.1) ∧ ∀ e ∈ (run c s h).engines, e.1 ≠ id → e ∈ r.engines := by
  generalize run c s h = q at *
  intro r
  have hall : (ps.all (fun p => decide (p ∉ q.live))) = true := by rw [List.all_eq_true]; intro p hp; simpa using hd p hp
  have hget : (dget id q.engines).isSome = true := by
    cases hx : dget id q.engines with
    | none => exact absurd hin (dget_none.1 hx)
    | some _ => rfl
  have hr : r = update c { q with stopping := q.stopping.eraseIdx k, engines := dpop id q.engines } := by
    show step c q (.stopEnd k) = _
    simp only [step, hk, hall, if_true, hget]
  have hnot : id ∉ (dpop id q.engines).map (·.1) := by
    intro hm
    obtain ⟨e, he, hi⟩ := List.mem_map.1 hm
    exact (mem_dpop.1 he).2 hi
  obtain ⟨_, h2, _, _, h5⟩ := update_fields c { q with stopping := q.stopping.eraseIdx k, engines := dpop id q.engines }
  rw [hr]
  refine ⟨by rw [h2]; exact hnot, ?_, fun e he hne => by rw [h2]; exact mem_dpop.2 ⟨he, hne⟩⟩
  rw [h5 hen]
  split
  · intro hm
    simp only [fileSets, toDict, List.map_map] at hm
    obtain ⟨e, he, hi⟩ := List.mem_map.1 hm
    exact hnot (List.mem_map.2 ⟨e, (List.mem_filter.1 he).1, hi⟩)
  · simp [fileSets]

/-- **`stop_controller` is complete**: when its process has ended, there is no controller in the cluster object nor in the file. -/
theorem stop_removes_controller {c : Cfg} (hen : c.enabled = true) (s : St) (k : Nat) (ps : List Nat)
    (hk : s.ctlStopping[k]? = some ps) (hd : ∀ p ∈ ps, p ∉ s.live) :
    let r := step c s (.stopCtlEnd k)
    r.ctl = none ∧ (∀ d, r.file = some d → d.ctl = none) ∧ r.engines = s.engines := by
  intro r
  have hall : (ps.all (fun p => decide (p ∉ s.live))) = true := by rw [List.all_eq_true]; intro p hp; simpa using hd p hp
  have hr : r = update c { s with ctlStopping := s.ctlStopping.eraseIdx k, ctl := none } := by
    show step c s (.stopCtlEnd k) = _
    simp only [step, hk, hall, if_true]
  obtain ⟨_, h2, h3, _, h5⟩ := update_fields c { s with ctlStopping := s.ctlStopping.eraseIdx k, ctl := none }
  rw [hr]
  refine ⟨h3, fun d hdf => ?_, h2⟩
  rw [h5 hen] at hdf
  split at hdf
  · cases hdf; rfl
  · cases hdf

/-- **What is said to have stopped is dead** -/
theorem stopped_is_dead {c : Cfg} (hen : c.enabled = true) {s : St} (hs : Start c s) (h : List Ev) (hid : Along IdUnused c s h) (a i p : Nat)
    (hst : ((run c s h).objs a).state = .after) (hp : (i, some p) ∈ ((run c s h).objs a).procs) : p ∉ (run c s h).live :=
  (Inv.run hen h (hs.inv hen) hid).wf.afterDead a hst i p hp

/-! ### what is dead is said to have stopped, once the exits have been noticed -/

/-- a file that lists no running component without processes, but sets that were started with zero engines -/
def FullSnap (d : Snap) : Prop := (∀ l, d.ctl = some l → l.state = .running → l.pids ≠ []) ∧ ∀ e ∈ d.sets, e.2.state = .running → e.2.pids ≠ [] ∨ e.2.n = 0

/-- running launchers have children -/
structure Act (s : St) : Prop where
  main : ∀ a, (s.objs a).state = .running → (s.objs a).procs ≠ [] ∨ (s.objs a).n = 0
  ctlN : ∀ a, s.ctl = some a → (s.objs a).state = .running → (s.objs a).procs ≠ []
  file : ∀ d, s.file = some d → FullSnap d

theorem Act.update {c : Cfg} {s : St} (h : Act s) : Act (update c s) := by
  unfold Cluster.update
  split
  · refine ⟨h.main, h.ctlN, fun d hd => ?_⟩
    simp only at hd
    split at hd
    · cases hd
      refine ⟨fun l hl hr => ?_, fun e he hr => ?_⟩
      · simp only [toDict] at hl
        split at hl
        · rename_i a ha
          split at hl
          · cases hl
          · cases hl
            have := h.ctlN a ha hr
            simpa [lsnap] using this
        · cases hl
      · simp only [toDict] at he
        obtain ⟨x, _, rfl⟩ := List.mem_map.1 he
        have := h.main x.2 hr
        simpa [lsnap] using this
    · cases hd
  · exact h

theorem Act.ofObj {s s' : St} {a : Nat} {l : Launcher} (h : Act s) (ho : s'.objs = setObj s.objs a l) (hf : s'.file = s.file)
    (hl : l.state = .running → l.procs ≠ [] ∨ l.n = 0) (hc : ∀ b, s'.ctl = some b → s.ctl = some b ∧ b ≠ a ∨ (b = a ∧ (l.state = .running → l.procs ≠ []))) : Act s' := by
  refine ⟨fun b => ?_, fun b hb => ?_, fun d hd => h.file d (hf ▸ hd)⟩
  · rw [ho]
    simp only [setObj]
    split
    · exact hl
    · exact h.main b
  · rw [ho]
    simp only [setObj]
    rcases hc b hb with ⟨h1, h2⟩ | ⟨h1, h2⟩
    · rw [if_neg h2]; exact h.ctlN b h1
    · rw [if_pos h1]; exact h2

theorem Act.frame {s s' : St} (h : Act s) (ho : s'.objs = s.objs) (hf : s'.file = s.file) (hc : ∀ b, s'.ctl = some b → s.ctl = some b) : Act s' :=
  ⟨by rw [ho]; exact h.main, fun b hb => by rw [ho]; exact h.ctlN b (hc b hb), by rw [hf]; exact h.file⟩

theorem Act.step {c : Cfg} {s : St} (hi : Inv c s) (h : Act s) (e : Ev) : Act (step c s e) := by
  have hctlne : ∀ b, s.ctl = some b → b ≠ s.next := fun b hb => by have := hi.wf.ltCtl b hb; omega
  cases e with
  | startCtl r =>
    simp only [Cluster.step]
    split
    · exact h
    · cases r with
      | none => exact h.ofObj (a := s.next) rfl rfl (by simp) (fun b hb => .inr ⟨by simpa using hb.symm, by simp⟩)
      | some p =>
        simp only
        split
        · exact Act.update (h.ofObj (a := s.next) rfl rfl (by simp) (fun b hb => .inr ⟨by simpa [spawn] using hb.symm, by simp⟩))
        · exact h
  | createSet id t => exact h.ofObj (a := s.next) rfl rfl (by simp) (fun b hb => .inl ⟨hb, hctlne b hb⟩)
  | startSet a n ps ok =>
    simp only [Cluster.step]
    split
    · rename_i hcond
      have hst := hi.wf.pend a hcond.1
      have : Act (spawn ps { s with objs := setObj s.objs a (startLauncher n ps ok (s.objs a)), pending := s.pending.filter (· ≠ a) }) := by
        refine h.ofObj rfl rfl ?_ (fun b hb => .inl ⟨hb, fun he => hi.pendCtl a hcond.1 (he ▸ hb)⟩)
        intro hr
        have hok : ok = true := by
          cases ok with
          | true => rfl
          | false => unfold startLauncher at hr; split at hr <;> simp [hst.1] at hr
        subst hok
        have hcnt := hcond.2.2
        unfold startCount at hcnt
        unfold startLauncher
        split
        · rename_i hm
          simp only [hm, if_true, decide_eq_true_eq] at hcnt
          cases ps with
          | nil => right; simpa using hcnt.symm
          | cons x t => left; simp [List.range_succ_eq_map]
        · rename_i hm
          simp only [hm] at hcnt
          left
          cases ps with
          | nil => simp at hcnt
          | cons x t => simp
      split
      · exact this.update
      · exact this
    · exact h
  | abandon a => exact h.frame rfl rfl (fun _ h => h)
  | exit p => exact h.frame rfl rfl (fun _ h => h)
  | other p =>
    simp only [Cluster.step]; split
    · exact h.frame rfl rfl (fun _ h => h)
    · exact h
  | notice a i =>
    simp only [Cluster.step]
    split
    · rename_i j p hf
      split
      · exact h
      · have hl : (noticed i p (s.objs a)).state = .running → (noticed i p (s.objs a)).procs ≠ [] := by
          unfold noticed
          split
          · intro hr hc
            simp only at hr hc
            rw [if_pos hc] at hr
            cases hr
          · intro hr; cases hr
        have : Act { s with objs := setObj s.objs a (noticed i p (s.objs a)) } :=
          h.ofObj rfl rfl (fun hr => .inl (hl hr)) (fun b hb => by
            by_cases he : b = a
            · exact .inr ⟨he, hl⟩
            · exact .inl ⟨hb, he⟩)
        split
        · exact this.update
        · exact this
    · exact h
  | stopBegin id =>
    simp only [Cluster.step]; split
    · exact h.frame rfl rfl (fun _ h => h)
    · exact h
  | stopEnd k =>
    simp only [Cluster.step]
    split
    · split
      · split
        · exact Act.update (h.frame rfl rfl (fun _ h => h))
        · exact h.frame rfl rfl (fun _ h => h)
      · exact h
    · exact h
  | stopFail k => exact h.frame rfl rfl (fun _ h => h)
  | stopCtlBegin =>
    simp only [Cluster.step]
    split
    · split
      · exact h.frame rfl rfl (fun _ h => h)
      · exact Act.update (h.frame rfl rfl (fun _ h => by cases h))
    · exact Act.update (h.frame rfl rfl (fun _ h => by cases h))
  | stopCtlEnd k =>
    simp only [Cluster.step]
    split
    · split
      · exact Act.update (h.frame rfl rfl (fun _ h => by cases h))
      · exact h
    · exact h
  | stopCtlFail k => exact h.frame rfl rfl (fun _ h => h)

theorem Act.run {c : Cfg} (hen : c.enabled = true) : ∀ (h : List Ev) {s : St}, Inv c s → Act s → Along IdUnused c s h → Act (run c s h)
  | [], _, _, ha, _ => ha
  | e :: t, _, hi, ha, hal => Act.run hen t (hi.step hen e hal.1) (ha.step hi e) hal.2

theorem restoreMulti_act {c : Cfg} {live : List Nat} {d : LSnap} {l : Launcher} (h : restoreMulti c live d = some l) : l.procs ≠ [] ∧ l.n = l.procs.length := by
  unfold restoreMulti at h
  split at h
  · cases h
  · rename_i hne; cases h; exact ⟨hne, rfl⟩

theorem restoreSingle_act {c : Cfg} {live : List Nat} {d : LSnap} {l : Launcher} (h : restoreSingle c live d = some l) : l.state = d.state ∧ l.n = d.n ∧ l.procs.length = d.pids.length := by
  unfold restoreSingle at h
  split at h
  · rename_i hl; cases h; exact ⟨rfl, rfl, hl⟩
  · cases h

theorem restoreSets_act {c : Cfg} {live : List Nat} : ∀ (l : List (String × LSnap)) (s : St), (∀ e ∈ l, e.2.state = .running → e.2.pids ≠ [] ∨ e.2.n = 0) →
    (∀ a, s.ctl = some a → a < s.next) → Act s → Act (restoreSets c live l s)
  | [], _, _, _, h => h
  | (id, d) :: t, s, hd, hlt, h => by
    simp only [restoreSets]
    apply restoreSets_act t _ (fun e he => hd e (List.mem_cons_of_mem _ he))
    · split
      · exact fun a ha => Nat.lt_succ_of_lt (hlt a ha)
      · exact hlt
    · split
      · rename_i l hl
        refine h.ofObj (a := s.next) (l := l) rfl rfl (fun hr => ?_) (fun b hb => .inl ⟨hb, fun he => by have := hlt b hb; omega⟩)
        unfold restoreSet at hl
        split at hl
        · exact .inl (restoreMulti_act hl).1
        · obtain ⟨h1, h2, h3⟩ := restoreSingle_act hl
          rcases hd (id, d) List.mem_cons_self (h1 ▸ hr) with hp | hn
          · left
            intro hc
            rw [hc] at h3
            exact hp (List.length_eq_zero_iff.1 h3.symm)
          · right; rw [h2]; exact hn
      · exact h

theorem load_act {c : Cfg} {d : Snap} {live seen : List Nat} (hd : FullSnap d) : Act (load c d live seen) := by
  have h0 : Act { file := some d, live := live, seen := seen : St } := ⟨by simp, by simp, fun x hx => by cases hx; exact hd⟩
  unfold load
  have key : ∀ s3 : St, Act s3 → Act (if toDict c s3 ≠ d then update c s3 else s3) := by
    intro s3 h3
    split
    · exact h3.update
    · exact h3
  apply key
  suffices hA : Act (restoreSets c live d.sets (match d.ctl with
    | none => { file := some d, live := live, seen := seen }
    | some l => match restoreSingle c live l with
      | some a => { file := some d, live := live, seen := seen, objs := setObj (fun _ => {}) 0 a, ctl := some 0, next := 1 }
      | none => { file := some d, live := live, seen := seen })) from hA.frame rfl rfl (fun _ h => h)
  apply restoreSets_act _ _ hd.2
  · split
    · simp
    · split
      · intro a ha; cases ha; exact Nat.lt_succ_self _
      · simp
  · split
    · exact h0
    · rename_i l hl
      split
      · rename_i x hx
        have hne : x.state = .running → x.procs ≠ [] := by
          intro hr hc
          obtain ⟨h1, _, h3⟩ := restoreSingle_act hx
          rw [hc] at h3
          exact hd.1 l hl (h1 ▸ hr) (List.length_eq_zero_iff.1 h3.symm)
        exact h0.ofObj (a := 0) (l := x) rfl rfl (fun hr => .inl (hne hr)) (fun b hb => .inr ⟨by cases hb; rfl, hne⟩)
      · exact h0

/-- clusters that are newly made, or loaded from a file as clusters write them -/
inductive FullStart (c : Cfg) : St → Prop where
  | new (live seen : List Nat) (h : ∀ p ∈ live, p ∈ seen) : FullStart c { live := live, seen := seen }
  | loaded (d : Snap) (live seen : List Nat) (h : ∀ p ∈ live, p ∈ seen) (hd : WfSnap c d) (hf : FullSnap d) : FullStart c (load c d live seen)

theorem FullStart.start {c : Cfg} {s : St} (h : FullStart c s) : Start c s := by
  cases h with
  | new live seen h => exact .new live seen h
  | loaded d live seen h hd _ => exact .loaded d live seen h hd

theorem FullStart.act {c : Cfg} {s : St} (h : FullStart c s) : Act s := by
  cases h with
  | new live seen h => exact ⟨by simp, by simp, by simp⟩
  | loaded d live seen h hd hf => exact load_act hf

/-- the files clusters write are such files -/
theorem file_full {c : Cfg} (hen : c.enabled = true) {s : St} (hs : FullStart c s) (h : List Ev) (hid : Along IdUnused c s h) : FullStart c (fromFile c (run c s h)) := by
  have hi := Inv.run hen h (hs.start.inv hen) hid
  have ha := Act.run hen h (hs.start.inv hen) hs.act hid
  unfold fromFile
  cases hf : (run c s h).file with
  | none => exact .new _ _ hi.wf.liveSeen
  | some d => exact .loaded d _ _ hi.wf.liveSeen (hi.fileWf d hf) (ha.file d hf)

/-- all exits of the launcher's processes have been noticed -/
def Noticed (s : St) (a : Nat) : Prop := ∀ i p, (i, some p) ∈ (s.objs a).procs → p ∉ s.live → (s.objs a).state = .after

/-- **What is dead has stopped**: once the exits of its processes have been noticed, a component that counts as running has a living process — unless it was started with no engines,
or has a child whose process was never started. So the file does not go on listing a component that has died. -/
theorem running_is_alive {c : Cfg} (hen : c.enabled = true) {s : St} (hs : FullStart c s) (h : List Ev) (hid : Along IdUnused c s h) (a : Nat)
    (hn : Noticed (run c s h) a) (hr : ((run c s h).objs a).state = .running) (h0 : ((run c s h).objs a).n ≠ 0) (hsome : ∀ e ∈ ((run c s h).objs a).procs, e.2 ≠ none) :
    ∃ i p, (i, some p) ∈ ((run c s h).objs a).procs ∧ p ∈ (run c s h).live := by
  have ha := Act.run hen h (hs.start.inv hen) hs.act hid
  rcases ha.main a hr with hne | hz
  · obtain ⟨e, he⟩ := List.exists_mem_of_ne_nil _ hne
    obtain ⟨i, o⟩ := e
    cases o with
    | none => exact absurd rfl (hsome _ he)
    | some p =>
      refine ⟨i, p, he, ?_⟩
      apply Classical.byContradiction
      intro hl
      have := hn i p he hl
      rw [hr] at this; cases this
  · exact absurd hz h0

/-- Every notification counts: one for a dead process that has not been noticed takes the process out of its launcher, or the launcher stops. -/
theorem notice_counts {c : Cfg} (s : St) (a i p : Nat) (hf : ((s.objs a).procs.find? (fun e => e.1 = i)) = some (i, some p)) (hl : p ∉ s.live) (hst : (s.objs a).state ≠ .after) :
    let r := step c s (.notice a i)
    (r.objs a).state = .after ∨ ((i, some p) ∉ (r.objs a).procs ∧ (r.objs a).procs.length < (s.objs a).procs.length ∧ ∀ e ∈ (r.objs a).procs, e ∈ (s.objs a).procs) := by
  intro r
  have hobj : r.objs = setObj s.objs a (noticed i p (s.objs a)) := by
    show (step c s (.notice a i)).objs = _
    simp only [step, hf]
    rw [if_neg (by simp [hl, hst])]
    split
    · exact (update_fields c _).1
    · rfl
  rw [hobj]
  simp only [setObj, if_true]
  unfold noticed
  split
  · right
    have hm := List.mem_of_find?_eq_some hf
    refine ⟨by simp, ?_, fun e he => (List.mem_filter.1 he).1⟩
    apply Nat.lt_of_le_of_ne (List.length_filter_le _ _)
    intro he
    have := List.length_filter_eq_length_iff.1 he (i, some p) hm
    simp at this
  · left; rfl

/-- **The number of engines of a loaded set** is the number of its engines that were found. -/
theorem loaded_set_size {c : Cfg} (hen : c.enabled = true) {s : St} (hs : Start c s) (h : List Ev) (hid : Along IdUnused c s h) (hm : c.multi = true) :
    ∀ e ∈ (fromFile c (run c s h)).engines, ((fromFile c (run c s h)).objs e.2).n = ((fromFile c (run c s h)).objs e.2).procs.length := by
  have hi := Inv.run hen h (hs.inv hen) hid
  unfold fromFile
  cases hf : (run c s h).file with
  | none => simp
  | some d =>
    obtain ⟨_, _, _, _, _, _, _, l3, _⟩ := load_spec hen hi.wf.liveSeen (hi.fileWf d hf)
    intro e he
    simp only at he ⊢
    have : (e.1, (load c d (run c s h).live (run c s h).seen).objs e.2) ∈ found c (run c s h).live d.sets := by
      rw [← l3]; exact List.mem_map.2 ⟨e, he, rfl⟩
    obtain ⟨x, _, hx⟩ := List.mem_filterMap.1 this
    obtain ⟨l, hl, he2⟩ := Option.map_eq_some_iff.1 hx
    have h2 : l = (load c d (run c s h).live (run c s h).seen).objs e.2 := (Prod.mk.inj he2).2
    rw [← h2]
    unfold restoreSet at hl
    rw [if_pos hm] at hl
    exact (restoreMulti_act hl).2

/-- **A successful `start_engines`** leaves a running set of `n` engines whose processes are exactly the new ones, and they are alive. -/
theorem started_set_runs {c : Cfg} (s : St) (a n : Nat) (ps : List Nat) (hp : a ∈ s.pending) (hsp : spawnable c s ps = true) (hc : startCount (s.objs a).multi n true ps.length = true) :
    let s' := step c s (.startSet a n ps true)
    (s'.objs a).state = .running ∧ (s'.objs a).n = n ∧ (s'.objs a).procs.filterMap (·.2) = ps ∧ (∀ p ∈ ps, p ∈ s'.live) ∧ a ∉ s'.pending := by
  have e : step c s (.startSet a n ps true) = update c (spawn ps { s with objs := setObj s.objs a (startLauncher n ps true (s.objs a)), pending := s.pending.filter (· ≠ a) }) := by
    simp only [Cluster.step]
    rw [if_pos ⟨hp, hsp, hc⟩]; rfl
  simp only [e]
  obtain ⟨h1, _, _, h4, _⟩ := update_fields c (spawn ps { s with objs := setObj s.objs a (startLauncher n ps true (s.objs a)), pending := s.pending.filter (· ≠ a) })
  have hpend : (update c (spawn ps { s with objs := setObj s.objs a (startLauncher n ps true (s.objs a)), pending := s.pending.filter (· ≠ a) })).pending = s.pending.filter (· ≠ a) := by
    unfold update; split <;> (try split) <;> rfl
  rw [h1, h4, hpend]
  have ho : (spawn ps { s with objs := setObj s.objs a (startLauncher n ps true (s.objs a)), pending := s.pending.filter (· ≠ a) }).objs a = startLauncher n ps true (s.objs a) := by
    simp [spawn, setObj]
  rw [ho]
  have hzip : ∀ (l : List Nat) (k : Nat), ((List.range' k l.length).zip (l.map some)).filterMap (·.2) = l := by
    intro l
    induction l with
    | nil => intro k; rfl
    | cons x l ih => intro k; simp [List.range'_succ, ih]
  refine ⟨?_, ?_, ?_, ?_, by simp⟩
  · unfold startLauncher; split <;> rfl
  · unfold startLauncher; split <;> rfl
  · unfold startLauncher
    split
    · simp only [if_true, List.append_nil, List.range_eq_range']
      exact hzip ps 0
    · simp only [List.filterMap_map]
      rw [show ((fun x : Nat × Option Nat => x.2) ∘ fun p => (0, some p)) = some from rfl, List.filterMap_some]
  · intro p hm; simp [spawn, hm]

example : (fun s : St => (s.objs 0).state) (run ⟨false, true, id⟩ {} [.createSet (some "e") 0, .startSet 0 1 [5] true]) = .running := by decide +kernel

/-- A set that is being started stays so until its start succeeds, fails or is given up, whatever else happens. -/
theorem pending_kept {c : Cfg} (s : St) (b : Nat) (hb : b ∈ s.pending) (e : Ev) (h1 : ∀ n ps ok, e ≠ .startSet b n ps ok) (h2 : e ≠ .abandon b) : b ∈ (step c s e).pending := by
  have hu : ∀ s : St, (update c s).pending = s.pending := by intro s; unfold update; split <;> (try split) <;> rfl
  cases e with
  | startCtl r => simp only [Cluster.step]; split <;> (try split) <;> (try split) <;> simp_all [spawn]
  | createSet id t => simp [Cluster.step, hb]
  | startSet a n ps ok =>
    have hne : b ≠ a := fun h => h1 n ps ok (by rw [h])
    simp only [Cluster.step]
    split
    · split
      · rw [hu]; simp [spawn, hb, hne]
      · simp [spawn, hb, hne]
    · exact hb
  | abandon a =>
    have hne : b ≠ a := fun h => h2 (by rw [h])
    simp [Cluster.step, hb, hne]
  | exit p => exact hb
  | other p => simp only [Cluster.step]; split <;> exact hb
  | notice a i =>
    simp only [Cluster.step]
    split
    · split
      · exact hb
      · split
        · rw [hu]; exact hb
        · exact hb
    · exact hb
  | stopBegin id => simp only [Cluster.step]; split <;> exact hb
  | stopEnd k =>
    simp only [Cluster.step]
    split
    · split
      · split
        · rw [hu]; exact hb
        · exact hb
      · exact hb
    · exact hb
  | stopFail k => exact hb
  | stopCtlBegin =>
    simp only [Cluster.step]
    split
    · split
      · exact hb
      · rw [hu]; exact hb
    · rw [hu]; exact hb
  | stopCtlEnd k =>
    simp only [Cluster.step]
    split
    · split
      · rw [hu]; exact hb
      · exact hb
    · exact hb
  | stopCtlFail k => exact hb

end IPP.Cluster
