import Verif.Cluster.Stops
/-!
# Examples and violations for C62 and C63
-/
namespace IPP.Cluster

def exCfg : Cfg := { multi := true, enabled := true, pid := id }
def exStart : Start exCfg {} := .new [] [] (by simp)

/-- a cluster with a controller and two engine sets, one of which loses an engine -/
def exHist : List Ev :=
  [.startCtl (some 1), .createSet none 100, .startSet 1 2 [2, 3] true, .createSet none 100, .startSet 2 1 [4] true, .exit 3, .notice 1 1, .exit 4, .notice 2 0]

instance (s : St) (e : Ev) : Decidable (Calm s e) := by
  unfold Calm
  split
  · rename_i id t
    have h1 : Decidable (∀ a, (id, a) ∈ s.engines → (s.objs a).state = .after) :=
      decidable_of_iff (∀ e ∈ s.engines, e.1 = id → (s.objs e.2).state = .after) ⟨fun h a ha => h _ ha rfl, fun h e he hk => h e.2 (by rw [← hk]; exact he)⟩
    exact instDecidableAnd
  · rename_i id
    have h1 : Decidable (∀ a, (id, a) ∈ s.engines → a ∉ s.pending) :=
      decidable_of_iff (∀ e ∈ s.engines, e.1 = id → e.2 ∉ s.pending) ⟨fun h a ha => h _ ha rfl, fun h e he hk => h e.2 (by rw [← hk]; exact he)⟩
    exact instDecidableAnd
  · exact inferInstance
  · exact isTrue trivial

instance instAlong (P : St → Ev → Prop) [∀ s e, Decidable (P s e)] (c : Cfg) : ∀ (h : List Ev) (s : St), Decidable (Along P c s h)
  | [], _ => isTrue trivial
  | e :: t, s => match (inferInstance : Decidable (P s e)), instAlong P c t (step c s e) with
    | isTrue h1, isTrue h2 => isTrue ⟨h1, h2⟩
    | isFalse h1, _ => isFalse (fun h => h1 h.1)
    | _, isFalse h2 => isFalse (fun h => h2 h.2)

theorem exCalm : Along Calm exCfg {} exHist := by decide +kernel

/-- the history meets the hypotheses of the theorems -/
example : tracked (fromFile exCfg (run exCfg {} exHist)) = tracked (run exCfg {} exHist) :=
  load_restores_partial rfl exStart exHist (exCalm.mono (fun _ _ => Calm.idUnused)) (fun _ _ _ _ h => h)
example : tracked (run exCfg {} exHist) = [(none, 0, 1), (some "100", 0, 2)] := by decide +kernel
example : ∀ p ∈ (run exCfg {} exHist).mine, p ∈ (run exCfg {} exHist).live → Tracks (run exCfg {} exHist) p := no_process_forgotten_partial rfl exStart exHist exCalm
example : (run exCfg {} exHist).mine = [1, 2, 3, 4] ∧ (run exCfg {} exHist).live = [1, 2] := by decide +kernel
example : ((run exCfg {} exHist).engines).map (·.1) = ["100", "100-1"] := by decide +kernel
/-- the number of engines of the first set is still two; the loaded cluster knows only of one -/
example : ((run exCfg {} exHist).objs 1).n = 2 ∧ (((fromFile exCfg (run exCfg {} exHist)).engines.map (fun e => (e.1, ((fromFile exCfg (run exCfg {} exHist)).objs e.2).n)))) = [("100", 1)] := by decide +kernel

/-- everything is stopped, with a restart in between -/
def exStopped : List Ev := exHist ++
  [.stopBegin "100", .exit 2, .notice 1 0, .stopEnd 0, .createSet (some "100") 101, .startSet 3 2 [12, 13] true,
   .stopCtlBegin, .stopBegin "100", .stopBegin "100-1", .exit 1, .stopEnd 1, .exit 12, .exit 13, .stopEnd 0, .stopCtlEnd 0]
theorem exStoppedCalm : Along Calm exCfg {} exStopped := by decide +kernel
example : (∀ p ∈ (run exCfg {} exStopped).mine, p ∉ (run exCfg {} exStopped).live) ∧ (run exCfg {} exStopped).file = none :=
  stopped_cluster_partial rfl exStart exStopped exStoppedCalm (by decide +kernel) (by decide +kernel)
example : (run exCfg {} exStopped).mine = [1, 2, 3, 4, 12, 13] := by decide +kernel

/-- the hypotheses of the theorems on stopping are met -/
def exBefore : List Ev := exHist ++ [.stopBegin "100", .exit 2]
theorem exBeforeCalm : Along Calm exCfg {} exBefore := by decide +kernel
example : "100" ∉ (step exCfg (run exCfg {} exBefore) (.stopEnd 0)).engines.map (·.1) :=
  (stop_removes_set rfl exStart exBefore (exBeforeCalm.mono (fun _ _ => Calm.idUnused)) 0 "100" 1 [2] (by decide +kernel) (by decide +kernel) (by decide +kernel)).1
example : (step exCfg (run exCfg {} [.startCtl (some 1), .stopCtlBegin, .exit 1]) (.stopCtlEnd 0)).ctl = none :=
  (stop_removes_controller rfl _ 0 [1] (by decide +kernel) (by decide +kernel)).1
/-- the first set has lost an engine and still runs; its other engine is found to be alive -/
example : ∃ i p, (i, some p) ∈ ((run exCfg {} exHist).objs 1).procs ∧ p ∈ (run exCfg {} exHist).live := by
  have h1 : ((run exCfg {} exHist).objs 1).procs = [(0, some 2)] := by decide +kernel
  refine running_is_alive rfl (.new [] [] (by simp)) exHist (exCalm.mono (fun _ _ => Calm.idUnused)) 1 ?_ (by decide +kernel) (by decide +kernel) (by rw [h1]; simp)
  intro i p hm hl
  rw [h1] at hm
  simp only [List.mem_singleton, Prod.mk.injEq, Option.some.injEq] at hm
  rw [hm.2] at hl
  exact absurd (by decide +kernel : 2 ∈ (run exCfg {} exHist).live) hl
/-- the second has stopped -/
example : 4 ∉ (run exCfg {} exHist).live ∧ ((run exCfg {} exHist).objs 2).state = .after := by decide +kernel

/-! ### violations -/

/-- A start that fails leaves its launcher in the state "before", which counts as running: the file stays although nothing runs, and nothing the user does but stopping the (never started) component removes it. -/
theorem failed_start_keeps_file_violated : ∃ h, Along IdUnused exCfg {} h ∧ (run exCfg {} h).file ≠ none ∧ ¬ hasComponent (run exCfg {} h) .running ∧ (run exCfg {} h).live = [] := by
  refine ⟨[.startCtl none, .createSet none 5, .startSet 1 1 [7] true, .exit 7, .notice 1 0], ⟨trivial, trivial, trivial, trivial, trivial, trivial⟩, by decide +kernel, ?_, by decide +kernel⟩
  rintro (⟨a, ha, hr⟩ | ⟨e, he, hr⟩)
  · have : (run exCfg {} [.startCtl none, .createSet none 5, .startSet 1 1 [7] true, .exit 7, .notice 1 0]).ctl = some 0 := by decide +kernel
    rw [this] at ha; cases ha
    revert hr; decide +kernel
  · have : (run exCfg {} [.startCtl none, .createSet none 5, .startSet 1 1 [7] true, .exit 7, .notice 1 0]).engines = [("5", 1)] := by decide +kernel
    rw [this] at he
    rw [List.mem_singleton.1 he] at hr
    revert hr; decide +kernel

instance (s : St) (p : Nat) : Decidable (Tracks s p) :=
  decidable_of_iff ((∃ a ∈ s.ctl.toList, p ∈ procsOf (s.objs a)) ∨ ∃ e ∈ s.engines, p ∈ procsOf (s.objs e.2)) (by
    unfold Tracks
    constructor
    · rintro (⟨a, ha, hp⟩ | ⟨e, he, hp⟩)
      · exact ⟨a, .inl (by simpa using ha), mem_procsOf.1 hp⟩
      · exact ⟨e.2, .inr ⟨e.1, he⟩, mem_procsOf.1 hp⟩
    · rintro ⟨a, ha | ⟨id, ha⟩, hp⟩
      · exact .inl ⟨a, by simpa using ha, mem_procsOf.2 hp⟩
      · exact .inr ⟨(id, a), ha, mem_procsOf.2 hp⟩)

/-- some process the cluster has started lives, and the cluster object does not know it any more -/
def Forgets (s : St) : Prop := ∃ p ∈ s.mine, p ∈ s.live ∧ ¬ Tracks s p
instance (s : St) : Decidable (Forgets s) := inferInstanceAs (Decidable (∃ p ∈ s.mine, p ∈ s.live ∧ ¬ Tracks s p))

/-- `start_engines(engine_set_id="a")` twice: the first set's engines are forgotten. -/
theorem duplicate_id_violated : Forgets (run exCfg {} [.createSet (some "a") 0, .startSet 0 1 [7] true, .createSet (some "a") 0, .startSet 1 1 [8] true]) := by decide +kernel

/-- `stop_engines()` (or `stop_cluster()`) while `start_engines` waits for the controller's connection file: the stop succeeds, then the engines are started and forgotten. -/
theorem stop_during_start_violated : Forgets (run exCfg {} [.startCtl (some 1), .createSet none 0, .stopCtlBegin, .stopBegin "0", .stopEnd 0, .exit 1, .stopCtlEnd 0, .startSet 1 1 [7] true]) ∧
    (run exCfg {} [.startCtl (some 1), .createSet none 0, .stopCtlBegin, .stopBegin "0", .stopEnd 0, .exit 1, .stopCtlEnd 0, .startSet 1 1 [7] true]).file = none := by decide +kernel

/-- Two overlapping `restart_engines()`: the second stop takes away the set the first restart has just made, whose engines are then started and forgotten. -/
theorem overlapping_restarts_violated : Forgets (run exCfg {} [.createSet (some "a") 0, .startSet 0 1 [7] true, .stopBegin "a", .stopBegin "a", .exit 7, .stopEnd 0,
    .createSet (some "a") 1, .stopEnd 0, .createSet (some "a") 1, .startSet 1 1 [8] true, .startSet 2 1 [9] true]) := by decide +kernel

/-- A process id that has been used again: the loaded cluster takes a process of somebody else for its controller (and will kill it when it is stopped). -/
theorem reused_pid_violated : ∃ (c : Cfg) (h : List Ev) (p : Nat), c.enabled = true ∧ Along Calm c {} h ∧ p ∉ (run c {} h).mine ∧
    tracked (fromFile c (run c {} h)) = [(none, 0, p)] ∧ tracked (run c {} h) = [] :=
  ⟨{ multi := true, enabled := true, pid := (· % 10) }, [.startCtl (some 7), .exit 7, .other 17], 17, rfl, by decide +kernel, by decide +kernel, by decide +kernel, by decide +kernel⟩

/-- If `Popen` of the second engine fails, the first engine runs, but no file is written: another program cannot find it. -/
theorem partial_start_unsaved_violated : (run exCfg {} [.createSet none 0, .startSet 0 2 [7] false]).live = [7] ∧ (run exCfg {} [.createSet none 0, .startSet 0 2 [7] false]).mine = [7] ∧
    (run exCfg {} [.createSet none 0, .startSet 0 2 [7] false]).file = none := by decide +kernel

end IPP.Cluster
