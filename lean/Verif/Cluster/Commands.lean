import Verif.Cluster.Stops
/-!
# The commands `ipcluster start`, `ipcluster engines` and `ipcluster stop` and the cluster file (property C86)

cluster/app.py:160-203 (`ipcluster stop`), 398-405, 507-519 (`ipcluster engines`), 589-626 (`ipcluster start`). The `Cluster` object is that of `Model.lean`; here another process, with an object of its own, meets the file.
-/
namespace IPP.Cluster

/-- the machine as a command finds it: the cluster file (`some none`: there is one that cannot be loaded) and the processes -/
structure Machine where
  file : Option (Option Snap) := none
  live : List Nat := []
  seen : List Nat := []

/-- `ipcluster start` looks for the file: is the start refused (exit code 10)? Loading it may rewrite or remove it — app.py:589-609 -/
def startCheck (c : Cfg) (m : Machine) : Bool × Machine := match m.file with
  | some (some d) => (true, { m with file := (load c d m.live m.seen).file.map some })
  | _ => (false, m)

/-- `init_cluster`: a new `Cluster` object, that has not read the file — app.py:398-405 -/
def fresh (s : St) : St := { file := s.file, live := s.live, seen := s.seen }

/-- what `ipcluster stop` does — app.py:160-203 -/
inductive StopCmd where
  /-- `self.exit(code)` -/
  | exit (code : Nat)
  /-- an exception from `from_file` -/
  | crash
  /-- `stop_cluster` of all these -/
  | stops (l : List (String × St))

/-- `ipcluster stop ids…`: the files are loaded one by one, the first that is missing ends the command; the effect of the loads on the files is not in the result — app.py:171-203 -/
def stopCmd (c : Cfg) (live seen : List Nat) (files : String → Option (Option Snap)) : List String → List (String × St) → StopCmd
  | [], acc => match acc with
    | [] => .exit 0
    | _ => .stops acc.reverse
  | id :: t, acc => match files id with
    | none => .exit 11
    | some none => .crash
    | some (some d) => stopCmd c live seen files t ((id, load c d live seen) :: acc)

/-- **C86 (start is refused)** `ipcluster start` is refused exactly when there is a cluster file that can be loaded. -/
theorem start_refused_iff (c : Cfg) (m : Machine) : (startCheck c m).1 = true ↔ ∃ d, m.file = some (some d) := by
  unfold startCheck
  split
  · rename_i d h; simp [h]
  · rename_i h; simp; exact fun d hd => h d hd

/-- the processes of the file are gone -/
def Dead (c : Cfg) (live : List Nat) (l : LSnap) : Prop := l.pids ≠ [] ∧ ∀ x ∈ l.pids, ∃ q, x.2 = some q ∧ ∀ p ∈ live, c.pid p ≠ q

theorem findKids_dead {c : Cfg} {live : List Nat} : ∀ l : List (Nat × Option Nat), (∀ x ∈ l, ∃ q, x.2 = some q ∧ ∀ p ∈ live, c.pid p ≠ q) → findKids c live l = []
  | [], _ => rfl
  | x :: t, h => by
    have h1 := findKids_dead t (fun y hy => h y (List.mem_cons_of_mem _ hy))
    rcases h x (List.mem_cons_self ..) with ⟨q, hq, hp⟩
    unfold findKids at h1 ⊢
    have e : findProc c live x.2 = none := by
      rw [hq]
      simp only [findProc, Option.map_eq_none_iff, List.find?_eq_none]
      intro p hx
      simpa using hp p hx
    simp [List.filterMap_cons, e, h1]

theorem restoreSingle_dead {c : Cfg} {live : List Nat} {d : LSnap} (h : Dead c live d) : restoreSingle c live d = none := by
  unfold restoreSingle
  rw [findKids_dead d.pids h.2, if_neg]
  intro hx
  exact h.1 (List.eq_nil_of_length_eq_zero hx.symm)

theorem restoreSet_dead {c : Cfg} {live : List Nat} {d : LSnap} (h : Dead c live d) : restoreSet c live d = none := by
  unfold restoreSet
  split
  · unfold restoreMulti; rw [findKids_dead d.pids h.2]; simp
  · exact restoreSingle_dead h

theorem restoreSets_dead {c : Cfg} {live : List Nat} : ∀ (l : List (String × LSnap)) (s : St), (∀ e ∈ l, Dead c live e.2) → restoreSets c live l s = s
  | [], _, _ => rfl
  | (id, d) :: t, s, h => by
    simp only [restoreSets, restoreSet_dead (h (id, d) (List.mem_cons_self ..))]
    exact restoreSets_dead t s (fun e he => h e (List.mem_cons_of_mem _ he))

/-- **C86 (start is refused)** VIOLATED: "`ipcluster start` is refused only if the cluster is running". All processes of the file may be gone (a crash of the machine): the start is refused all the same — once: the file is removed, the next start is not refused. -/
theorem start_refused_dead_violated (c : Cfg) (hen : c.enabled = true) (m : Machine) (d : Snap) (hf : m.file = some (some d)) (hne : d.ctl ≠ none ∨ d.sets ≠ []) (h1 : ∀ l, d.ctl = some l → Dead c m.live l) (h2 : ∀ e ∈ d.sets, Dead c m.live e.2) :
    (startCheck c m).1 = true ∧ (startCheck c m).2.file = none ∧ (startCheck c (startCheck c m).2).1 = false := by
  have e : startCheck c m = (true, { m with file := (load c d m.live m.seen).file.map some }) := by simp [startCheck, hf]
  have hl : (load c d m.live m.seen).file = none := by
    have e1 : load c d m.live m.seen = if toDict c { file := some d, live := m.live, seen := m.seen } ≠ d then update c { file := some d, live := m.live, seen := m.seen } else { file := some d, live := m.live, seen := m.seen } := by
      cases hc : d.ctl with
      | none => simp [load, hc, restoreSets_dead _ _ h2]
      | some l => simp [load, hc, restoreSingle_dead (h1 l hc), restoreSets_dead _ _ h2]
    rw [e1]
    rw [if_pos]
    · simp [update, hen, isRunning]
    · intro hx
      simp only [toDict] at hx
      rcases hne with h | h
      · apply h; rw [← hx]
      · apply h; rw [← hx]; rfl
  rw [e, hl]
  exact ⟨rfl, rfl, rfl⟩

theorem ite_update (c : Cfg) (P : Prop) [Decidable P] (s : St) : (if P then update c s else s).objs = s.objs ∧ (if P then update c s else s).ctl = s.ctl ∧ (if P then update c s else s).engines = s.engines := by
  split
  · exact ⟨(update_fields c s).1, (update_fields c s).2.2.1, (update_fields c s).2.1⟩
  · exact ⟨rfl, rfl, rfl⟩

/-- what a loaded object tracks is in the file -/
theorem tracks_in_file {c : Cfg} {d : Snap} {live seen : List Nat} {p : Nat} (h : Tracks (load c d live seen) p) :
    ∃ l, (d.ctl = some l ∨ ∃ e ∈ d.sets, e.2 = l) ∧ ∃ x ∈ l.pids, x.2 = some (c.pid p) := by
  have kids : ∀ (l : List (Nat × Option Nat)) i, (i, some p) ∈ findKids c live l → ∃ x ∈ l, x.2 = some (c.pid p) := by
    intro l i hi
    simp only [findKids, List.mem_filterMap] at hi
    rcases hi with ⟨x, hx, he⟩
    refine ⟨x, hx, ?_⟩
    cases hx2 : x.2 with
    | none => simp [findProc, hx2] at he
    | some q =>
      simp only [findProc, hx2, Option.map_map, Option.map_eq_some_iff] at he
      rcases he with ⟨r, hr, heq⟩
      have := List.find?_some hr
      simp only [Function.comp, Prod.mk.injEq, Option.some.injEq] at heq
      rw [← heq.2]
      simp only [decide_eq_true_eq] at this
      rw [this]
  have single : ∀ (l : LSnap) a, restoreSingle c live l = some a → ∀ i, (i, some p) ∈ a.procs → ∃ x ∈ l.pids, x.2 = some (c.pid p) := by
    intro l a ha i hi
    unfold restoreSingle at ha
    split at ha
    · cases ha; exact kids _ i hi
    · cases ha
  have hset : ∀ (l : LSnap) a, restoreSet c live l = some a → ∀ i, (i, some p) ∈ a.procs → ∃ x ∈ l.pids, x.2 = some (c.pid p) := by
    intro l a ha i hi
    unfold restoreSet at ha
    split at ha
    · unfold restoreMulti at ha
      split at ha
      · cases ha
      · cases ha; exact kids _ i hi
    · exact single l a ha i hi
  -- what the loops have made
  let G : St → Prop := fun s => (∀ a, (s.ctl = some a ∨ ∃ id, (id, a) ∈ s.engines) → a < s.next ∧ ∀ i, (i, some p) ∈ (s.objs a).procs → ∃ l, (d.ctl = some l ∨ ∃ e ∈ d.sets, e.2 = l) ∧ ∃ x ∈ l.pids, x.2 = some (c.pid p))
  have hsets : ∀ (l : List (String × LSnap)) (s : St), (∀ e ∈ l, e ∈ d.sets) → G s → G (restoreSets c live l s) := by
    intro l
    induction l with
    | nil => exact fun _ _ h => h
    | cons e t ih =>
      intro s hl hs
      rcases e with ⟨id, sn⟩
      simp only [restoreSets]
      refine ih _ (fun e he => hl e (List.mem_cons_of_mem _ he)) ?_
      cases hr : restoreSet c live sn with
      | none => exact hs
      | some o =>
        intro a ha
        by_cases hx : a = s.next
        · subst hx
          refine ⟨Nat.lt_succ_self _, fun i hi => ⟨sn, .inr ⟨_, hl _ (List.mem_cons_self ..), rfl⟩, hset sn o hr i ?_⟩⟩
          simpa [setObj] using hi
        · have ha' : s.ctl = some a ∨ ∃ id, (id, a) ∈ s.engines := by
            rcases ha with ha | ⟨id', ha⟩
            · exact .inl ha
            · right
              refine ⟨id', ?_⟩
              have : ∀ (k : String) (v : Nat) (l : List (String × Nat)) (y : String × Nat), y ∈ dset k v l → y = (k, v) ∨ y ∈ l := by
                intro k v l
                induction l with
                | nil => intro y hy; simp [dset] at hy; exact .inl hy
                | cons z w ihw =>
                  intro y hy
                  simp only [dset] at hy
                  split at hy
                  · rcases List.mem_cons.1 hy with h | h
                    · exact .inl h
                    · exact .inr (List.mem_cons_of_mem _ h)
                  · rcases List.mem_cons.1 hy with h | h
                    · exact .inr (h ▸ List.mem_cons_self ..)
                    · exact (ihw y h).imp (fun h => h) (List.mem_cons_of_mem _)
              rcases this _ _ _ _ ha with h | h
              · cases h; exact absurd rfl hx
              · exact h
          have := hs a ha'
          refine ⟨Nat.lt_succ_of_lt this.1, fun i hi => this.2 i ?_⟩
          simpa [setObj, hx] using hi
  have h0 : G (match d.ctl with
      | none => ({ file := some d, live := live, seen := seen } : St)
      | some l => match restoreSingle c live l with
        | some a => { file := some d, live := live, seen := seen, objs := setObj (fun _ => {}) 0 a, ctl := some 0, next := 1 }
        | none => { file := some d, live := live, seen := seen }) := by
    cases hc : d.ctl with
    | none => intro a ha; simp at ha
    | some l =>
      cases hr : restoreSingle c live l with
      | none => intro a ha; simp [hr] at ha
      | some o =>
        intro a ha
        simp [hr] at ha
        subst ha
        refine ⟨by simp [hr], fun i hi => ⟨l, .inl hc, single l o hr i ?_⟩⟩
        simpa [hr, setObj] using hi
  have h1 := hsets d.sets _ (fun _ h => h) h0
  rcases h with ⟨a, ha, i, hi⟩
  have e : ∃ s2 : St, G s2 ∧ (load c d live seen).objs = s2.objs ∧ (load c d live seen).ctl = s2.ctl ∧ (load c d live seen).engines = s2.engines := by
    refine ⟨_, h1, ?_⟩
    unfold load
    exact ⟨(ite_update c _ _).1, (ite_update c _ _).2.1, (ite_update c _ _).2.2⟩
  rcases e with ⟨s2, g, e1, e2, e3⟩
  rw [e2, e3] at ha
  rw [e1] at hi
  exact (g a ha).2 i hi

/-- **C86 (engines)** VIOLATED: "`ipcluster stop` stops the cluster that is running, after engines were added by `ipcluster engines`". `ipcluster engines` starts its engines with a `Cluster` object of its own,
which writes the cluster's file: it lists the new engines only, no controller. A program that loads the file finds no process that was running before. -/
theorem engines_hide_cluster_violated (c : Cfg) (hen : c.enabled = true) (s : St) (t n : Nat) (ps : List Nat) (hsp : spawnable c s ps = true) (hn : startCount c.multi n true ps.length = true) :
    ∃ d, (run c (fresh s) [.createSet none t, .startSet 0 n ps true]).file = some d ∧ d.ctl = none ∧ d.sets.length = 1 ∧
      ∀ live seen, ∀ p ∈ s.live, ¬ Tracks (load c d live seen) p := by
  have e1 : step c (fresh s) (.createSet none t) = { fresh s with objs := setObj (fun _ => {}) 0 { multi := c.multi }, engines := [(toString t, 0)], pending := [0], next := 1 } := by
    simp [step, fresh, newSetId, dset]
  have hsp' : spawnable c { fresh s with objs := setObj (fun _ => {}) 0 { multi := c.multi }, engines := [(toString t, 0)], pending := [0], next := 1 } ps = true := hsp
  have hst : (startLauncher n ps true { multi := c.multi }).state = .running := by unfold startLauncher; split <;> rfl
  have hrun : (run c (fresh s) [.createSet none t, .startSet 0 n ps true]).file = some { ctl := none, sets := [(toString t, lsnap c.pid (startLauncher n ps true { multi := c.multi }))] } := by
    simp only [run, List.foldl_cons, List.foldl_nil, e1]
    simp only [step]
    rw [if_pos ⟨by simp, hsp', by simpa [setObj] using hn⟩]
    simp [update, hen, isRunning, spawn, setObj, hst, toDict, fresh]
  refine ⟨_, hrun, rfl, rfl, fun live seen p hp hx => ?_⟩
  rcases tracks_in_file hx with ⟨l, hl, x, hx1, hx2⟩
  rcases hl with hl | ⟨e, he, rfl⟩
  · cases hl
  · simp only [List.mem_singleton] at he
    subst he
    have : ∃ q ∈ ps, c.pid q = c.pid p := by
      simp only [lsnap, startLauncher] at hx1
      split at hx1
      · simp only [if_true, List.append_nil, List.mem_map] at hx1
        rcases hx1 with ⟨y, hy, rfl⟩
        have := (List.of_mem_zip hy).2
        rcases List.mem_map.1 this with ⟨q, hq, hqe⟩
        refine ⟨q, hq, ?_⟩
        simp only [← hqe, Option.map_some, Option.some.injEq] at hx2
        exact hx2
      · simp only [List.map_map, List.mem_map] at hx1
        rcases hx1 with ⟨q, hq, rfl⟩
        exact ⟨q, hq, by simpa using hx2⟩
    rcases this with ⟨q, hq, hqe⟩
    unfold spawnable at hsp
    simp only [Bool.and_eq_true, List.all_eq_true, decide_eq_true_eq] at hsp
    exact (hsp.1.1 q hq).2 (hqe ▸ List.mem_map_of_mem hp)

/-- **C86 (engines)** VIOLATED: "the cluster's file exists while the cluster is running": when the added engine ends, the file goes, though the controller goes on; `ipcluster stop` then finds nothing (exit code 11) and a second `ipcluster start` is not refused. -/
theorem engines_end_removes_file_violated (c : Cfg) (hen : c.enabled = true) (s : St) (t p : Nat) (hsp : spawnable c s [p] = true) :
    (run c (fresh s) [.createSet none t, .startSet 0 1 [p] true, .exit p, .notice 0 0]).file = none ∧
    (∀ q ∈ s.live, q ∈ (run c (fresh s) [.createSet none t, .startSet 0 1 [p] true, .exit p, .notice 0 0]).live) ∧
    ∀ live seen, (startCheck c { file := ((run c (fresh s) [.createSet none t, .startSet 0 1 [p] true, .exit p, .notice 0 0]).file).map some, live := live, seen := seen }).1 = false := by
  have e1 : step c (fresh s) (.createSet none t) = { fresh s with objs := setObj (fun _ => {}) 0 { multi := c.multi }, engines := [(toString t, 0)], pending := [0], next := 1 } := by
    simp [step, fresh, newSetId, dset]
  have hsp' : spawnable c { fresh s with objs := setObj (fun _ => {}) 0 { multi := c.multi }, engines := [(toString t, 0)], pending := [0], next := 1 } [p] = true := hsp
  have hps : p ∉ s.seen ∧ c.pid p ∉ s.live.map c.pid := by
    unfold spawnable at hsp
    simp only [Bool.and_eq_true, List.all_eq_true, decide_eq_true_eq] at hsp
    exact hsp.1.1 p (by simp)
  have hpl : p ∉ s.live := fun h => hps.2 (List.mem_map_of_mem h)
  have hcnt : startCount c.multi 1 true 1 = true := by cases c.multi <;> rfl
  have key : (run c (fresh s) [.createSet none t, .startSet 0 1 [p] true, .exit p, .notice 0 0]).file = none ∧ (run c (fresh s) [.createSet none t, .startSet 0 1 [p] true, .exit p, .notice 0 0]).live = s.live := by
    simp only [run, List.foldl_cons, List.foldl_nil, e1]
    rw [show step c { fresh s with objs := setObj (fun _ => {}) 0 { multi := c.multi }, engines := [(toString t, 0)], pending := [0], next := 1 } (.startSet 0 1 [p] true) =
      update c (spawn [p] { fresh s with objs := setObj (setObj (fun _ => {}) 0 { multi := c.multi }) 0 (startLauncher 1 [p] true { multi := c.multi }), engines := [(toString t, 0)], pending := [], next := 1 }) from by
        simp only [step]
        rw [if_pos ⟨by simp, hsp', by simpa [setObj] using hcnt⟩]
        simp [setObj]]
    have hfil : s.live.filter (fun x => !decide (x = p)) = s.live := by
      rw [List.filter_eq_self]
      intro x hx
      have : x ≠ p := fun h => hpl (h ▸ hx)
      simpa using this
    cases hm : c.multi <;> simp [step, update, hen, isRunning, spawn, setObj, startLauncher, hm, fresh, noticed, hpl, hfil]
  refine ⟨key.1, fun q hq => by rw [key.2]; exact hq, fun live seen => by rw [key.1]; rfl⟩

/-- **C86 (stop)** `ipcluster stop` with nothing to stop exits with code 0. -/
theorem stop_nothing (c : Cfg) (live seen : List Nat) (files : String → Option (Option Snap)) : stopCmd c live seen files [] [] = .exit 0 := rfl

/-- **C86 (stop)** If all named clusters have files that can be loaded, `ipcluster stop` loads and stops each of them. -/
theorem stop_stops_named (c : Cfg) (live seen : List Nat) (files : String → Option (Option Snap)) (ids : List String) (hne : ids ≠ []) (h : ∀ id ∈ ids, ∃ d, files id = some (some d)) :
    ∃ l, stopCmd c live seen files ids [] = .stops l ∧ l.map (·.1) = ids ∧ ∀ e ∈ l, ∃ d, files e.1 = some (some d) ∧ e.2 = load c d live seen := by
  have gen : ∀ (ids : List String) (acc : List (String × St)), (∀ id ∈ ids, ∃ d, files id = some (some d)) → (∀ e ∈ acc, ∃ d, files e.1 = some (some d) ∧ e.2 = load c d live seen) → (ids ≠ [] ∨ acc ≠ []) →
      ∃ l, stopCmd c live seen files ids acc = .stops l ∧ l.map (·.1) = acc.reverse.map (·.1) ++ ids ∧ ∀ e ∈ l, ∃ d, files e.1 = some (some d) ∧ e.2 = load c d live seen := by
    intro ids
    induction ids with
    | nil =>
      intro acc _ ha hne
      cases acc with
      | nil => simp at hne
      | cons x t => exact ⟨_, rfl, by simp, fun e he => ha e (List.mem_reverse.1 he)⟩
    | cons id t ih =>
      intro acc hi ha _
      rcases hi id (List.mem_cons_self ..) with ⟨d, hd⟩
      rcases ih ((id, load c d live seen) :: acc) (fun x hx => hi x (List.mem_cons_of_mem _ hx)) (fun e he => by
        rcases List.mem_cons.1 he with rfl | he
        · exact ⟨d, hd, rfl⟩
        · exact ha e he) (.inr (by simp)) with ⟨l, h1, h2, h3⟩
      exact ⟨l, by simp only [stopCmd, hd]; exact h1, by rw [h2]; simp, h3⟩
  simpa using gen ids [] h (by simp) (.inl hne)

/-- **C86 (stop)** VIOLATED: "`ipcluster stop a b` stops the named clusters that are running": if one of the files is missing, nothing is stopped at all. -/
theorem stop_missing_violated (c : Cfg) (live seen : List Nat) (files : String → Option (Option Snap)) (ids : List String) (id : String) (hid : id ∈ ids) (hm : files id = none) : ∀ l, stopCmd c live seen files ids [] ≠ .stops l := by
  have gen : ∀ (ids : List String) (acc : List (String × St)), id ∈ ids → ∀ l, stopCmd c live seen files ids acc ≠ .stops l := by
    intro ids
    induction ids with
    | nil => intro _ h; cases h
    | cons x t ih =>
      intro acc h l
      simp only [stopCmd]
      split
      · simp
      · simp
      · rename_i d hd
        rcases List.mem_cons.1 h with rfl | h
        · rw [hm] at hd; cases hd
        · exact ih _ h l
  exact gen ids [] hid

/-- a running cluster (controller 1, engines 2 and 3), to which one engine (4) is added by `ipcluster engines`: the file then lists only that one, and is gone after its end -/
example :
    let c : Cfg := { multi := true, enabled := true, pid := id }
    let s := run c {} [.startCtl (some 1), .createSet none 100, .startSet 1 2 [2, 3] true]
    s.file = some { ctl := some ⟨.running, 1, [(0, some 1)]⟩, sets := [("100", ⟨.running, 2, [(0, some 2), (1, some 3)]⟩)] } ∧ spawnable c s [4] = true ∧
    (run c (fresh s) [.createSet none 101, .startSet 0 1 [4] true]).file = some { ctl := none, sets := [("101", ⟨.running, 1, [(0, some 4)]⟩)] } := by decide +kernel

/-- … and a file whose processes are all gone -/
example : (startCheck { multi := true, enabled := true, pid := id } { file := some (some { ctl := some ⟨.running, 1, [(0, some 1)]⟩, sets := [] }), live := [7], seen := [1, 7] }).1 = true := rfl

end IPP.Cluster
