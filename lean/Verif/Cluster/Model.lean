/-!
# The `Cluster` object and its file (cluster/cluster.py, cluster/launcher.py)

One `Cluster` object, the launchers it made (on a heap, since coroutines keep references to launchers that are no longer in
`cluster.engines`), the cluster file, and the processes of the machine.

* A process is an *instance* (a number that is never used again); the operating system gives it a process id, `Cfg.pid`, which may be used again
  after its exit. Launchers hold instances (`psutil.Process` compares creation times), files hold process ids.
* An event is the code between two points where other coroutines, callbacks of the loop or other processes may run (`await`s). The local, MPI and SSH
  launchers have a synchronous `start`, so `Popen`, `notify_start`, `on_stop` and `update_cluster_file` are one event; `start_engines` awaits
  `get_connection_info` between the creation of its launcher and its start; `stop_*` awaits the end of the processes.
* Not modelled: the constant fields of the file (profile, id, arguments, launcher classes), logging, output files, `delay`, signals other than by their effect
  (a process may exit at any time), `Popen` of a launcher with zero processes (batch systems), and connection files.
-/
namespace IPP.Cluster

/-- `BaseLauncher.state` (launcher.py:132) -/
inductive LState where
  | before | running | after
deriving DecidableEq, Repr

/-- A launcher: one process (`LocalProcessLauncher`, launcher.py:443-682: controllers, MPI and proxy engine sets) or, if `multi`, a set of
single launchers (`LocalEngineSetLauncher`, launcher.py:705-846). `procs` are the identifiers and processes of the set's `launchers`
(`none`: a launcher whose `Popen` failed, `pid = -1`); for a single launcher the list is empty until `Popen` has succeeded and then `[(0, some process)]`.
`watched`: the cluster's callback has been registered with `on_stop`. -/
structure Launcher where
  multi : Bool := false
  state : LState := .before
  n : Nat := 1
  procs : List (Nat × Option Nat) := []
  watched : Bool := false
deriving DecidableEq, Repr

/-- `BaseLauncher.to_dict`, `LocalEngineSetLauncher.to_dict` (launcher.py:136-142, 727-730): state, n, process ids -/
structure LSnap where
  state : LState
  n : Nat
  pids : List (Nat × Option Nat)
deriving DecidableEq, Repr

/-- the variable part of `Cluster.to_dict` (cluster.py:433-462) -/
structure Snap where
  ctl : Option LSnap
  sets : List (String × LSnap)
deriving DecidableEq, Repr

/-- what does not change: the engine launcher class, whether `cluster_file` is non-empty, the process ids — cluster/cluster.py:76-260 -/
structure Cfg where
  multi : Bool
  enabled : Bool
  pid : Nat → Nat

/-- the cluster object, its file, the machine, and the coroutines that are waiting.
`mine` (not in the code): the processes this cluster has started. -/
structure St where
  objs : Nat → Launcher := fun _ => {}
  next : Nat := 0
  ctl : Option Nat := none
  engines : List (String × Nat) := []
  file : Option Snap := none
  live : List Nat := []
  seen : List Nat := []
  mine : List Nat := []
  /-- launchers whose `start_engines` waits for connection info (cluster.py:697-701) -/
  pending : List Nat := []
  /-- `stop_engines` coroutines: set id, launcher, processes being waited for (cluster.py:797-806) -/
  stopping : List (String × Nat × List Nat) := []
  /-- `stop_controller` coroutines: processes being waited for (cluster.py:858-864) -/
  ctlStopping : List (List Nat) := []

/-- mutation of a launcher object — cluster/launcher.py:86-340 -/
def setObj (f : Nat → Launcher) (a : Nat) (l : Launcher) : Nat → Launcher := fun b => if b = a then l else f b

/-- `d[k] = v` of a Python dict — e.g. `self.engines[id] = …` — cluster/cluster.py:680-714 -/
def dset (k : String) (v : Nat) : List (String × Nat) → List (String × Nat)
  | [] => [(k, v)]
  | e :: t => if e.1 = k then (k, v) :: t else e :: dset k v t

/-- `d[k]` — e.g. `self.engines[id]` — cluster/cluster.py:785-856 -/
def dget (k : String) : List (String × Nat) → Option Nat
  | [] => none
  | e :: t => if e.1 = k then some e.2 else dget k t

/-- `d.pop(k)` — e.g. `self.engines.pop(id)` — cluster/cluster.py:716-722 -/
def dpop (k : String) (d : List (String × Nat)) : List (String × Nat) := d.filter (fun e => e.1 ≠ k)

/-- launcher.py:136-142, 727-730 -/
def lsnap (pid : Nat → Nat) (l : Launcher) : LSnap :=
  { state := l.state, n := l.n, pids := l.procs.map (fun c => (c.1, c.2.map pid)) }

/-- `Cluster.to_dict` (cluster.py:443-462) -/
def toDict (c : Cfg) (s : St) : Snap :=
  { ctl := match s.ctl with
      | some a => if (s.objs a).state = .after then none else some (lsnap c.pid (s.objs a))
      | none => none
    sets := (s.engines.filter (fun e => (s.objs e.2).state ≠ .after)).map (fun e => (e.1, lsnap c.pid (s.objs e.2))) }

/-- `Cluster._is_running` (cluster.py:577-583) -/
def isRunning (s : St) : Bool :=
  (match s.ctl with
    | some a => (s.objs a).state ≠ .after
    | none => false) || s.engines.any (fun e => (s.objs e.2).state ≠ .after)

/-- `Cluster.update_cluster_file` (cluster.py:585-598), with `write_cluster_file` and `remove_cluster_file` -/
def update (c : Cfg) (s : St) : St :=
  if c.enabled then { s with file := if isRunning s then some (toDict c s) else none } else s

/-- `Cluster._new_engine_set_id` (cluster.py:671-678): `base`, then `base-1`, `base-2`, … -/
def newIdFrom (base : String) (keys : List String) : Nat → Nat → String
  | 0, i => base ++ ("-" ++ toString i)
  | fuel + 1, i => if base ++ ("-" ++ toString i) ∈ keys then newIdFrom base keys fuel (i + 1) else base ++ ("-" ++ toString i)

/-- cluster/cluster.py:671-678 -/
def newSetId (t : Nat) (keys : List String) : String :=
  if toString t ∈ keys then newIdFrom (toString t) keys keys.length 1 else toString t

/-- the operating system gives a new process a process id that no living process has — the operating system under cluster/launcher.py:533-562 -/
def spawnable (c : Cfg) (s : St) (ps : List Nat) : Bool :=
  ps.all (fun p => p ∉ s.seen ∧ c.pid p ∉ s.live.map c.pid) && decide ((ps.map c.pid).Nodup) && decide ps.Nodup

/-- cluster/launcher.py:533-562 -/
def spawn (ps : List Nat) (s : St) : St := { s with live := s.live ++ ps, seen := s.seen ++ ps, mine := s.mine ++ ps }

/-- the calls and callbacks of cluster/cluster.py:600-870 -/
inductive Ev where
  /-- `start_controller()`; `none`: `Popen` raises -/
  | startCtl (p : Option Nat)
  /-- `start_engines(engine_set_id=…)` at time `t`, up to its first `await` -/
  | createSet (id : Option String) (t : Nat)
  /-- `start_engines` goes on with the launcher `a`: `n` engines are to be started, the processes `ps` are; `ok`: no exception -/
  | startSet (a : Nat) (n : Nat) (ps : List Nat) (ok : Bool)
  /-- `get_connection_info` raises in `start_engines` -/
  | abandon (a : Nat)
  /-- a process ends -/
  | exit (p : Nat)
  /-- a process that has nothing to do with the cluster starts -/
  | other (p : Nat)
  /-- the loop runs `notify_stop` of the `i`th launcher of `a` (put there by its waiting thread) -/
  | notice (a : Nat) (i : Nat)
  | stopBegin (id : String)
  /-- the `k`th waiting `stop_engines` goes on -/
  | stopEnd (k : Nat)
  /-- the `k`th waiting `stop_engines` raises `TimeoutError` -/
  | stopFail (k : Nat)
  | stopCtlBegin
  | stopCtlEnd (k : Nat)
  | stopCtlFail (k : Nat)
deriving DecidableEq

/-- the processes a launcher's `stop()` signals and waits for (launcher.py:619-640, 791-799) -/
def procsOf (l : Launcher) : List Nat := l.procs.filterMap (·.2)

/-- `engine_set.start(n)` (launcher.py:533-562, 752-782; 893-896, 986-989 for MPI) -/
def startLauncher (n : Nat) (ps : List Nat) (ok : Bool) (l : Launcher) : Launcher :=
  if l.multi then
    { l with n := n, state := if ok then .running else l.state, watched := ok,
             procs := (List.range ps.length).zip (ps.map some) ++ (if ok then [] else [(ps.length, none)]) }
  else { l with n := n, state := if ok then .running else l.state, watched := ok, procs := (ps.map (fun p => (0, some p))) }

/-- how many processes `start(n)` starts when it succeeds or fails — cluster/launcher.py:752-782 -/
def startCount (multi : Bool) (n : Nat) (ok : Bool) (k : Nat) : Bool :=
  if multi then (if ok then k = n else k < n) else (if ok then k = 1 else k = 0)

/-- `notify_stop` of a child (launcher.py:282-298, 801-821): a set forgets the child and stops when it has none left -/
def noticed (i p : Nat) (l : Launcher) : Launcher :=
  if l.multi then
    { l with procs := l.procs.filter (fun c => c ≠ (i, some p)),
             state := if l.procs.filter (fun c => c ≠ (i, some p)) = [] then .after else l.state }
  else { l with state := .after }

def step (c : Cfg) (s : St) : Ev → St
  | .startCtl r =>   -- cluster.py:600-660
    if s.ctl.isSome then s
    else match r with
      | none => { s with objs := setObj s.objs s.next { watched := true }, ctl := some s.next, next := s.next + 1 }
      | some p =>
        if spawnable c s [p] then
          update c (spawn [p] { s with
            objs := setObj s.objs s.next { state := .running, procs := [(0, some p)], watched := true }
            ctl := some s.next, next := s.next + 1 })
        else s
  | .createSet id t =>   -- cluster.py:680-696
    { s with
      objs := setObj s.objs s.next { multi := c.multi }
      engines := dset (match id with | some i => i | none => newSetId t (s.engines.map (·.1))) s.next s.engines
      pending := s.pending ++ [s.next]
      next := s.next + 1 }
  | .startSet a n ps ok =>   -- cluster.py:703-714
    if a ∈ s.pending ∧ spawnable c s ps = true ∧ startCount (s.objs a).multi n ok ps.length = true then
      let s' := spawn ps { s with objs := setObj s.objs a (startLauncher n ps ok (s.objs a)), pending := s.pending.filter (· ≠ a) }
      if ok then update c s' else s'
    else s
  | .abandon a => { s with pending := s.pending.filter (· ≠ a) }
  | .exit p => { s with live := s.live.filter (· ≠ p) }
  | .other p => if spawnable c s [p] then { s with live := s.live ++ [p], seen := s.seen ++ [p] } else s
  | .notice a i =>
    match (s.objs a).procs.find? (fun e => e.1 = i) with
    | some (_, some p) =>
      if p ∈ s.live ∨ (s.objs a).state = .after then s
      else
        let l := noticed i p (s.objs a)
        let s' := { s with objs := setObj s.objs a l }
        if l.state = .after ∧ (s.objs a).watched = true then update c s' else s'   -- cluster.py:662-669, 716-722
    | _ => s
  | .stopBegin id =>   -- cluster.py:797-799
    match dget id s.engines with
    | some a => { s with stopping := s.stopping ++ [(id, a, procsOf (s.objs a))] }
    | none => s
  | .stopEnd k =>   -- cluster.py:800-806
    match s.stopping[k]? with
    | some (id, _, ps) =>
      if ps.all (fun p => p ∉ s.live) then
        let s' := { s with stopping := s.stopping.eraseIdx k }
        if (dget id s'.engines).isSome then update c { s' with engines := dpop id s'.engines } else s'
      else s
    | none => s
  | .stopFail k => { s with stopping := s.stopping.eraseIdx k }
  | .stopCtlBegin =>   -- cluster.py:858-864, 869-870
    match s.ctl with
    | some a =>
      if (s.objs a).state = .running then { s with ctlStopping := s.ctlStopping ++ [procsOf (s.objs a)] }
      else update c { s with ctl := none }
    | none => update c { s with ctl := none }
  | .stopCtlEnd k =>   -- cluster.py:866-870
    match s.ctlStopping[k]? with
    | some ps =>
      if ps.all (fun p => p ∉ s.live) then update c { s with ctlStopping := s.ctlStopping.eraseIdx k, ctl := none } else s
    | none => s
  | .stopCtlFail k => { s with ctlStopping := s.ctlStopping.eraseIdx k }

/-- a sequence of calls and callbacks of cluster/cluster.py:600-870 -/
def run (c : Cfg) (s : St) (h : List Ev) : St := h.foldl (step c) s

/-! ### loading -/

/-- `LocalProcessLauncher._reconstruct_process` (launcher.py:497-504): outer `none` is `NotRunning` -/
def findProc (c : Cfg) (live : List Nat) : Option Nat → Option (Option Nat)
  | none => some none
  | some q => (live.find? (fun p => c.pid p = q)).map some

/-- the children a set finds again (launcher.py:735-744) -/
def findKids (c : Cfg) (live : List Nat) (l : List (Nat × Option Nat)) : List (Nat × Option Nat) :=
  l.filterMap (fun e => (findProc c live e.2).map (fun p => (e.1, p)))

/-- `from_dict` of a launcher with one process (launcher.py:145-166, 491-495); `none` is `NotRunning` -/
def restoreSingle (c : Cfg) (live : List Nat) (d : LSnap) : Option Launcher :=
  if (findKids c live d.pids).length = d.pids.length then
    some { state := d.state, n := d.n, procs := findKids c live d.pids, watched := true }
  else none

/-- `LocalEngineSetLauncher.from_dict` (launcher.py:732-749) -/
def restoreMulti (c : Cfg) (live : List Nat) (d : LSnap) : Option Launcher :=
  if findKids c live d.pids = [] then none
  else some { multi := true, state := d.state, n := (findKids c live d.pids).length, procs := findKids c live d.pids, watched := true }

/-- cluster/launcher.py:733-750 -/
def restoreSet (c : Cfg) (live : List Nat) (d : LSnap) : Option Launcher :=
  if c.multi then restoreMulti c live d else restoreSingle c live d

/-- the loop over the sets of the file (cluster.py:507-520) -/
def restoreSets (c : Cfg) (live : List Nat) : List (String × LSnap) → St → St
  | [], s => s
  | (id, d) :: t, s =>
    restoreSets c live t (match restoreSet c live d with
      | some l => { s with objs := setObj s.objs s.next l, engines := dset id s.next s.engines, next := s.next + 1 }
      | none => s)

/-- `Cluster.from_dict` (cluster.py:464-525), by a program that runs on the machine of `s` -/
def load (c : Cfg) (d : Snap) (live seen : List Nat) : St :=
  let s0 : St := { file := some d, live := live, seen := seen }
  let s1 := match d.ctl with
    | none => s0
    | some l => match restoreSingle c live l with
      | some a => { s0 with objs := setObj s0.objs s0.next a, ctl := some s0.next, next := s0.next + 1 }
      | none => s0
  let s2 := restoreSets c live d.sets s1
  let s3 := { s2 with mine := (match s2.ctl with | some a => procsOf (s2.objs a) | none => []) ++ s2.engines.flatMap (fun e => procsOf (s2.objs e.2)) }
  if toDict c s3 ≠ d then update c s3 else s3

end IPP.Cluster
