import Verif.Dependency.Model

/-!
# Model of `controller/task_scheduler.py:TaskScheduler`

Every handler is modelled, branch by branch, in a state + exception monad: an exception that escapes a handler leaves the state as
mutated so far (`@util.log_errors`, tornado's callback logging).

Simplifications:
* A message id is fresh for every submission (uuid4), so a `Job` object is identified with its message id: `jobs` is the heap
  of `Job` objects, `queue`/`queueMap`/`pending` hold ids.
* Python sets and dict key sets are lists; iteration order of sets is list order.
* Message contents (buffers, code) and signature checking are not modelled; malformed messages are not events.
* Everything the scheduler receives and sends is recorded in `trace`.
* The random choices of the scheme are given by an arbitrary function of the trace so far (`Config.pick`).
* Engine identities are uuids; `handle_stranded_tasks` keeps a reference to the old `pending[engine]` dict, which is the current
  one unless the same uuid registered again in between.
* Real time: job timeouts and the 5 s grace period are events that may happen at any time after they were scheduled.
* The mutual recursion fail_unreachable → update_graph → maybe_run → fail_unreachable takes a fuel argument (recursion depth);
  running out of fuel is the artificial exception `Err.fuel`.  Safety theorems hold for every amount of fuel.
-/
namespace IPP.Sched

/-- identities of engines (`uid` of task_scheduler.py:259) as numbers -/
abbrev Engine := Nat

/-- Exceptions escaping a handler. — KeyError/ValueError/TypeError that task_scheduler.py:217-790 may raise; `fuel` is an artefact of the model, shown never to occur -/
inductive Err where
  | keyError
  | valueError
  | fuel
  deriving DecidableEq, Repr

/-- Why the scheduler itself answers a task: task_scheduler.py:455 (default), 419, 453. -/
inductive Why where
  | impossible
  | invalid
  | timeout
  deriving DecidableEq, Repr

/-- Why a task is taken back from an engine: dispatch_result 628-632 (failure with retries left) or 639-640 (unmet dependency). — task_scheduler.py:607-641 -/
inductive Cause where
  | failure
  | unmet
  deriving DecidableEq, Repr

/-- The metadata of a submission that matters for scheduling — dispatch_submission 354-412. — task_scheduler.py:354-412 -/
structure Submission where
  targets : List Engine := []
  retries : Nat := 0
  after : Option Dep := none
  follow : Dep := { ids := [] }
  hasTimeout : Bool := false
  timestamp : Nat := 0
  deriving DecidableEq, Repr, Inhabited

/-- Observable events, in order of occurrence: what the scheduler receives and what it sends. — the `send_multipart` calls of task_scheduler.py:301-689 and the messages read at 217, 235, 339, 607 -/
inductive Obs where
  /-- a registration / unregistration notification was processed -/
  | registered (e : Engine)
  | unregistered (e : Engine)
  /-- a task arrived from a client -/
  | submitted (m : MsgId) (sub : Submission)
  /-- a reply arrived from engine `e` -/
  | received (e : Engine) (m : MsgId) (ok depsMet : Bool)
  /-- a fake EngineError reply was made for a task stranded on dead engine `e` -/
  | stranded (e : Engine) (m : MsgId)
  /-- the task was taken back from `e`, to be tried elsewhere -/
  | retry (e : Engine) (m : MsgId) (cause : Cause)
  /-- the task was sent to engine `e` -/
  | send (e : Engine) (m : MsgId)
  /-- the (real or fake) reply of `e` was sent to the client -/
  | relay (e : Engine) (m : MsgId) (ok : Bool)
  /-- the scheduler itself answered the client with an error -/
  | fail (m : MsgId) (why : Why)
  deriving DecidableEq, Repr

/-- `Job` — task_scheduler.py:92-130. -/
structure Job where
  targets : List Engine
  after : Dep
  follow : Dep
  hasTimeout : Bool
  timestamp : Nat
  removed : Bool := false
  timeoutId : Nat := 0
  blacklist : List Engine := []
  deriving DecidableEq, Repr, Inhabited

/-- Configuration: `hwm` (task_scheduler.py:141-157) and the scheme with its random choices. -/
structure Config where
  hwm : Nat
  pick : List Obs → List Int → Nat

/-- The scheduler's state — task_scheduler.py:181-200, scheduler.py (all_* sets). -/
structure State where
  targets : List Engine := []
  loads : List Int := []
  jobs : MsgId → Option Job := fun _ => none
  queue : List MsgId := []
  queueMap : List MsgId := []
  graph : MsgId → Option (List MsgId) := fun _ => none
  retries : MsgId → Option Nat := fun _ => none
  pending : Engine → Option (List MsgId) := fun _ => none
  completed : Engine → Option (List MsgId) := fun _ => none
  failed : Engine → Option (List MsgId) := fun _ => none
  destinations : MsgId → Option Engine := fun _ => none
  allCompleted : List MsgId := []
  allFailed : List MsgId := []
  allDone : List MsgId := []
  allIds : List MsgId := []
  /-- scheduled callbacks: stranded-task handling and job timeouts -/
  strandTimers : List Engine := []
  jobTimers : List (MsgId × Nat) := []
  trace : List Obs := []

/-- Function update (dict assignment / deletion). — the dicts of task_scheduler.py:136-168 -/
def upd {α β : Type _} [DecidableEq α] (f : α → β) (a : α) (b : β) : α → β := fun x => if x = a then b else f x

/-- The handler monad: state survives exceptions. — Python's exceptions and attributes; not itself code of /repo, used for every function of task_scheduler.py:217-790 -/
def M (α : Type) := State → Except Err α × State

instance : Monad M where
  pure a := fun s => (.ok a, s)
  bind m f := fun s => match m s with
    | (.ok a, s') => f a s'
    | (.error e, s') => (.error e, s')

/-- read the state — reading attributes of `TaskScheduler`, task_scheduler.py:132-200 -/
def getS : M State := fun s => (.ok s, s)
/-- mutate the state — assigning attributes of `TaskScheduler`, task_scheduler.py:132-200 -/
def modS (f : State → State) : M Unit := fun s => (.ok (), f s)
/-- raise — `raise`, task_scheduler.py:217-790 -/
def throwE (e : Err) : M α := fun s => (.error e, s)
/-- a dict lookup: KeyError if absent — `self.pending[engine]`, `self.queue_map[msg_id]` and the like, task_scheduler.py:607-767 -/
def lookupE (o : Option α) : M α := match o with
  | some a => pure a
  | none => throwE .keyError

/-- The `Job` object for a message id. — attributes of `Job`, task_scheduler.py:92-122 -/
def getJob (m : MsgId) : M Job := do
  let s ← getS
  lookupE (s.jobs m)

/-- Mutate a `Job` object. — task_scheduler.py:92-122 -/
def setJob (m : MsgId) (j : Job) : M Unit := modS fun s => { s with jobs := upd s.jobs m (some j) }

/-- set insertion — `set.add`, e.g. `self.all_ids.add(msg_id)`, task_scheduler.py:339-432 -/
def insertSet (x : MsgId) (l : List MsgId) : List MsgId := if x ∈ l then l else l ++ [x]

/-- set equality (used on engine sets) — `==` of sets, task_scheduler.py:757-767 -/
def setEq (a b : List Engine) : Bool := subset a b && subset b a

/-- record an observation — ghost: makes `send_multipart` of task_scheduler.py:301-689 observable -/
def emit (o : Obs) : M Unit := modS fun s => { s with trace := s.trace ++ [o] }

/-- `self.queue_map[msg_id] = job` — task_scheduler.py:416, 420, 557-574 -/
def addQueueMap (m : MsgId) : M Unit := modS fun s => { s with queueMap := insertSet m s.queueMap }

/-- `add_job(idx)` — task_scheduler.py:769-775: increment the load, move the engine to the end of both lists. -/
def addJob (idx : Nat) (s : State) : State :=
  match s.targets[idx]?, s.loads[idx]? with
  | some t, some l =>
    { s with targets := s.targets.eraseIdx idx ++ [t], loads := s.loads.eraseIdx idx ++ [l + 1] }
  | _, _ => s

/-- `available_engines()` — task_scheduler.py:490-498. -/
def availableEngines (cfg : Config) (s : State) : List Nat :=
  if cfg.hwm = 0 then List.range s.targets.length
  else (List.range s.targets.length).filter (fun i => decide (s.loads.getD i 0 < (cfg.hwm : Int)))

/-- `can_run(idx)` — task_scheduler.py:511-523. -/
def canRun (cfg : Config) (j : Job) (idx : Nat) : M Bool := do
  let s ← getS
  if cfg.hwm ≠ 0 ∧ s.loads.getD idx 0 = (cfg.hwm : Int) then return false
  match s.targets[idx]? with
  | none => throwE .valueError -- idx comes from availableEngines: cannot happen
  | some target =>
    if target ∈ j.blacklist then return false
    if j.targets ≠ [] ∧ target ∉ j.targets then return false
    let c ← lookupE (s.completed target)
    let f ← lookupE (s.failed target)
    return j.follow.check c (some f)

/-- `list(filter(can_run, available))` — task_scheduler.py:525. -/
def filterCanRun (cfg : Config) (j : Job) : List Nat → M (List Nat)
  | [] => return []
  | i :: is => do
    let b ← canRun cfg j i
    let rest ← filterCanRun cfg j is
    return if b then i :: rest else rest

/-- `submit_task(job, indices)` — task_scheduler.py:576-600. `indices = []` is Python's falsy `None`/`[]`. -/
def submitTask (cfg : Config) (m : MsgId) (indices : List Nat) : M Unit := do
  let s ← getS
  let loads := if indices ≠ [] then indices.map (fun i => s.loads.getD i 0) else s.loads
  let k := cfg.pick s.trace loads
  let idx? := if indices ≠ [] then indices[k]? else some k
  match idx? with
  | none => throwE .valueError -- the scheme returned an index out of range (IndexError)
  | some idx =>
    match s.targets[idx]? with
    | none => throwE .valueError
    | some target =>
      -- send job to the engine
      emit (.send target m)
      -- update load
      modS (addJob idx)
      -- self.pending[target][job.msg_id] = job
      let p ← lookupE (s.pending target)
      modS fun s => { s with pending := upd s.pending target (some (insertSet m p)) }

/-- The loop `for mid in dependents: if mid in self.graph: self.graph[mid].remove(msg_id)` —
task_scheduler.py:464-466 and 743-745. `set.remove` raises KeyError. -/
def removeFromGraph (m : MsgId) : List MsgId → M Unit
  | [] => return ()
  | mid :: mids => do
    let s ← getS
    match s.graph mid with
    | none => pure ()
    | some l =>
      if m ∈ l then modS fun s => { s with graph := upd s.graph mid (some (l.filter (· ≠ m))) }
      else throwE .keyError
    removeFromGraph m mids

/-- `job.dependents` — task_scheduler.py:127-129: `follow.union(after)`. -/
def Job.dependents (j : Job) : List MsgId := j.follow.ids ++ j.after.ids.filter (fun x => x ∉ j.follow.ids)

/-- Stable insertion by timestamp (`sorted` uses `Job.__lt__`, task_scheduler.py:124-125). -/
def insertByTime (t : MsgId → Nat) (x : MsgId) : List MsgId → List MsgId
  | [] => [x]
  | y :: ys => if t x ≤ t y then x :: y :: ys else y :: insertByTime t x ys

/-- `sorted(...)` — `sorted` by `Job.__lt__`, task_scheduler.py:124-126, 720 -/
def sortByTime (t : MsgId → Nat) : List MsgId → List MsgId
  | [] => []
  | x :: xs => insertByTime t x (sortByTime t xs)

/-- The destinations loop — task_scheduler.py:537-538; KeyError if a task has no destination. -/
def destsOf : List MsgId → M (List Engine)
  | [] => return []
  | m :: ms => do
    let s ← getS
    let d ← lookupE (s.destinations m)
    let rest ← destsOf ms
    return insertSet d rest

/-- The check of `follow` for impossibility — task_scheduler.py:529-539 (without the final fail). -/
def followImpossible (j : Job) : M Bool := do
  let s ← getS
  if j.follow.all then
    let relevant := if j.follow.success then s.allCompleted else []
    let relevant := if j.follow.failure then relevant ++ s.allFailed else relevant
    let dests ← destsOf (j.follow.ids.filter (fun m => m ∈ relevant))
    return dests.length > 1
  else return false

/-- The check of blacklist + targets — task_scheduler.py:543-546 (without the final fail); mutates `job.targets`. -/
def targetsImpossible (m : MsgId) (j : Job) : M Bool := do
  if j.targets ≠ [] then
    let t := j.targets.filter (fun e => e ∉ j.blacklist)
    setJob m { j with targets := t }
    let s ← getS
    return t = [] ∨ (t.filter (fun e => e ∈ s.targets)) = []
  else return false

/-- What happens to a job taken from the list in update_graph. — task_scheduler.py:691-767 -/
inductive Outcome where
  /-- `continue`, or it ran or failed -/
  | gone
  /-- `put_it_back` -/
  | keep
  /-- it ran and no engine is available any more: `break` -/
  | stop
  deriving DecidableEq, Repr

/-- `self.all_done.add; self.all_failed.add; send apply_reply` — task_scheduler.py:476-486. -/
def failReply (m : MsgId) (why : Why) : M Unit := do
  modS fun s => { s with allDone := insertSet m s.allDone, allFailed := insertSet m s.allFailed }
  emit (.fail m why)

mutual

/-- `fail_unreachable(msg_id, why)` — task_scheduler.py:455-488. -/
def failUnreachable (cfg : Config) (fuel : Nat) (m : MsgId) (why : Why) : M Unit :=
  match fuel with
  | 0 => throwE .fuel
  | fuel + 1 => do
    let s ← getS
    if m ∉ s.queueMap then return ()
    modS fun s => { s with queueMap := s.queueMap.filter (· ≠ m) }
    let j ← getJob m
    setJob m { j with removed := true }
    removeFromGraph m j.dependents
    failReply m why
    updateGraph cfg fuel (some m)

/-- `maybe_run(job)` — task_scheduler.py:500-555. -/
def maybeRun (cfg : Config) (fuel : Nat) (m : MsgId) : M Bool :=
  match fuel with
  | 0 => throwE .fuel
  | fuel + 1 => do
    let s ← getS
    let j ← getJob m
    let available := availableEngines cfg s
    if available = [] then return false
    if j.follow.ids ≠ [] ∨ j.targets ≠ [] ∨ j.blacklist ≠ [] ∨ cfg.hwm ≠ 0 then
      let indices ← filterCanRun cfg j available
      if indices = [] then
        if ← followImpossible j then
          addQueueMap m
          failUnreachable cfg fuel m .impossible
          return false
        if ← targetsImpossible m j then
          addQueueMap m
          failUnreachable cfg fuel m .impossible
          return false
        return false
      else
        submitTask cfg m indices
        return true
    else
      submitTask cfg m []
      return true

/-- One iteration of the loop of update_graph — task_scheduler.py:724-759. -/
def processJob (cfg : Config) (fuel : Nat) (m : MsgId) : M Outcome :=
  match fuel with
  | 0 => throwE .fuel
  | fuel + 1 => do
    let s ← getS
    let j ← getJob m
    if j.removed then return .gone
    if j.after.unreachable s.allCompleted (some s.allFailed) || j.follow.unreachable s.allCompleted (some s.allFailed) then
      failUnreachable cfg fuel m .impossible
      return .gone
    else if j.after.check s.allCompleted (some s.allFailed) then
      if ← maybeRun cfg fuel m then
        let s ← getS
        if m ∉ s.queueMap then throwE .keyError
        modS fun s => { s with queueMap := s.queueMap.filter (· ≠ m) }
        let j ← getJob m
        removeFromGraph m j.dependents
        let s ← getS
        if availableEngines cfg s = [] then return .stop else return .gone
      else return .keep
    else return .keep

/-- The loop over `self.queue` (`using_queue`): pops from the shared deque; `toRestore` is the local list. At the end
`self.queue.extendleft(to_restore)`, which pushes one by one to the left, i.e. in reverse order. — task_scheduler.py:715-767 -/
def loopQueue (cfg : Config) (fuel : Nat) (toRestore : List MsgId) : M Unit :=
  match fuel with
  | 0 => throwE .fuel
  | fuel + 1 => do
    let s ← getS
    match s.queue with
    | [] => modS fun s => { s with queue := toRestore.reverse ++ s.queue }
    | m :: q =>
      modS fun s => { s with queue := q }
      match ← processJob cfg fuel m with
      | .gone => loopQueue cfg fuel toRestore
      | .keep => loopQueue cfg fuel (toRestore ++ [m])
      | .stop => modS fun s => { s with queue := toRestore.reverse ++ s.queue }

/-- The loop over the local deque of jobs that depended on the finished task (not `using_queue`). — task_scheduler.py:715-767 -/
def loopJobs (cfg : Config) (fuel : Nat) (ms : List MsgId) : M Unit :=
  match fuel with
  | 0 => throwE .fuel
  | fuel + 1 =>
    match ms with
    | [] => return ()
    | m :: ms => do
      match ← processJob cfg fuel m with
      | .gone => loopJobs cfg fuel ms
      | .keep => loopJobs cfg fuel ms
      | .stop => return ()

/-- `update_graph(dep_id)` — task_scheduler.py:691-763. -/
def updateGraph (cfg : Config) (fuel : Nat) (dep : Option MsgId) : M Unit :=
  match fuel with
  | 0 => throwE .fuel
  | fuel + 1 => do
    let s ← getS
    let msgIds := match dep with
      | some d => (s.graph d).getD []
      | none => []
    match dep with
      | some d => modS fun s => { s with graph := upd s.graph d none }
      | none => pure ()
    if dep = none ∨ (cfg.hwm ≠ 0 ∧ s.loads.any (fun l => l = (cfg.hwm : Int) - 1)) then
      loopQueue cfg fuel []
    else
      -- jobs = deque(sorted(self.queue_map[msg_id] for msg_id in msg_ids))
      if msgIds.any (fun m => m ∉ s.queueMap) then throwE .keyError
      loopJobs cfg fuel (sortByTime (fun m => ((s.jobs m).map Job.timestamp).getD 0) msgIds)

end

/-- The loop of save_unmet adding to the graph — task_scheduler.py:564-567. -/
def addToGraph (m : MsgId) : List MsgId → M Unit
  | [] => return ()
  | d :: ds => do
    modS fun s => { s with graph := upd s.graph d (some (insertSet m ((s.graph d).getD []))) }
    addToGraph m ds

/-- `save_unmet(job)` — task_scheduler.py:557-574. -/
def saveUnmet (m : MsgId) : M Unit := do
  let j ← getJob m
  addQueueMap m
  modS fun s => { s with queue := s.queue ++ [m] }
  let s ← getS
  addToGraph m ((j.after.ids ++ j.follow.ids).filter (fun d => d ∉ s.allDone))
  if j.hasTimeout then
    setJob m { j with timeoutId := j.timeoutId + 1 }
    modS fun s => { s with jobTimers := s.jobTimers ++ [(m, j.timeoutId + 1)] }

/-- `_register_engine(uid)` — task_scheduler.py:259-271. -/
def registerEngine (cfg : Config) (fuel : Nat) (e : Engine) : M Unit := do
  emit (.registered e)
  modS fun s => { s with
    targets := e :: s.targets, loads := 0 :: s.loads,
    completed := upd s.completed e (some []), failed := upd s.failed e (some []),
    pending := upd s.pending e (some []) }
  updateGraph cfg fuel none

/-- `_unregister_engine(uid)` — task_scheduler.py:273-299. `engine_stream.flush()` only processes result messages that are separate
events here. -/
def unregisterEngine (e : Engine) : M Unit := do
  let s ← getS
  match s.targets.idxOf? e with
  | none => throwE .valueError
  | some idx =>
    emit (.unregistered e)
    modS fun s => { s with targets := s.targets.eraseIdx idx, loads := s.loads.eraseIdx idx }
    let p ← lookupE (s.pending e)
    if p ≠ [] then
      modS fun s => { s with strandTimers := s.strandTimers ++ [e] }
    else
      let _ ← lookupE (s.completed e)
      modS fun s => { s with completed := upd s.completed e none }
      let _ ← lookupE (s.failed e)
      modS fun s => { s with failed := upd s.failed e none }

/-- Dropping finished ids from an "all" dependency — task_scheduler.py:372-386. -/
def reduceIds (s : State) (a : Dep) : Dep :=
  if a.all then
    let a := if a.success then { a with ids := difference a.ids s.allCompleted } else a
    if a.failure then { a with ids := difference a.ids s.allFailed } else a
  else a

/-- The reduction of `after` at submission — task_scheduler.py:368-391. -/
def reduceAfter (s : State) (after : Option Dep) : Dep :=
  match after with
  | none => Dep.met
  | some a =>
    let a := reduceIds s a
    if a.check s.allCompleted (some s.allFailed) then Dep.met else a

/-- Is the dependency invalid: refers to the task itself or to unknown tasks — task_scheduler.py:417. -/
def invalidDep (s : State) (m : MsgId) (d : Dep) : Bool := d.ids.contains m || !(difference d.ids s.allIds).isEmpty

/-- One round of the validation loop — task_scheduler.py:413-423. `some why` means fail and return. -/
def validateDep (s : State) (m : MsgId) (d : Dep) : Option Why :=
  if d.ids = [] then none
  else if invalidDep s m d then some .invalid
  else if d.unreachable s.allCompleted (some s.allFailed) then some .impossible
  else none

/-- `dispatch_submission` — task_scheduler.py:339-432. A dependency that accepts neither success nor failure raises ValueError in the
`Dependency` constructor (dependency.py:174-175). -/
def dispatchSubmission (cfg : Config) (fuel : Nat) (m : MsgId) (sub : Submission) : M Unit := do
  emit (.submitted m sub)
  modS fun s => { s with allIds := insertSet m s.allIds, retries := upd s.retries m (some sub.retries) }
  let okDep := fun (d : Dep) => d.success || d.failure
  if !((sub.after.map okDep).getD true) then throwE .valueError
  let s ← getS
  let after := reduceAfter s sub.after
  if !(okDep sub.follow) then throwE .valueError
  setJob m { targets := sub.targets, after := after, follow := sub.follow,
             hasTimeout := sub.hasTimeout, timestamp := sub.timestamp }
  match (validateDep s m after).orElse (fun _ => validateDep s m sub.follow) with
  | some why =>
    addQueueMap m
    failUnreachable cfg fuel m why
  | none =>
    if after.check s.allCompleted (some s.allFailed) then
      if ← maybeRun cfg fuel m then return ()
      else
        let s ← getS
        if m ∉ s.allFailed then saveUnmet m
    else saveUnmet m

/-- `job_timeout(job, timeout_id)` — task_scheduler.py:434-453. (The "fired prematurely" branch only logs.) -/
def jobTimeout (cfg : Config) (fuel : Nat) (m : MsgId) (tid : Nat) : M Unit := do
  let j ← getJob m
  if j.timeoutId ≠ tid then return ()
  let s ← getS
  if m ∈ s.queueMap then failUnreachable cfg fuel m .timeout

/-- `handle_result` — task_scheduler.py:642-663. -/
def handleResult (cfg : Config) (fuel : Nat) (e : Engine) (m : MsgId) (ok : Bool) : M Unit := do
  emit (.relay e m ok)
  let s ← getS
  let p ← lookupE (s.pending e)
  if m ∉ p then throwE .keyError
  modS fun s => { s with pending := upd s.pending e (some (p.filter (· ≠ m))) }
  if ok then
    let c ← lookupE (s.completed e)
    modS fun s => { s with completed := upd s.completed e (some (insertSet m c)),
                           allCompleted := insertSet m s.allCompleted }
  else
    let f ← lookupE (s.failed e)
    modS fun s => { s with failed := upd s.failed e (some (insertSet m f)),
                           allFailed := insertSet m s.allFailed }
  modS fun s => { s with allDone := insertSet m s.allDone, destinations := upd s.destinations m (some e) }
  updateGraph cfg fuel (some m)

/-- `handle_unmet_dependency` — task_scheduler.py:665-689. -/
def handleUnmet (cfg : Config) (fuel : Nat) (e : Engine) (m : MsgId) (cause : Cause) : M Unit := do
  let s ← getS
  let p ← lookupE (s.pending e)
  if m ∉ p then throwE .keyError
  modS fun s => { s with pending := upd s.pending e (some (p.filter (· ≠ m))) }
  let j ← getJob m
  emit (.retry e m cause)
  let bl := insertSet e j.blacklist
  setJob m { j with blacklist := bl }
  if setEq bl j.targets then
    addQueueMap m
    failUnreachable cfg fuel m .impossible
  else
    if ← maybeRun cfg fuel m then pure ()
    else
      let s ← getS
      if m ∉ s.allFailed then saveUnmet m
  if cfg.hwm ≠ 0 then
    let s ← getS
    match s.targets.idxOf? e with
    | none => pure ()
    | some idx =>
      if s.loads.getD idx 0 = (cfg.hwm : Int) - 1 then updateGraph cfg fuel none

/-- The part of `dispatch_result` after the message was parsed — task_scheduler.py:607-640. -/
def dispatchResult (cfg : Config) (fuel : Nat) (e : Engine) (m : MsgId) (ok depsMet : Bool) : M Unit := do
  let s ← getS
  match s.targets.idxOf? e with
  | none => pure () -- skip load-update for dead engines
  | some idx => modS fun s => { s with loads := s.loads.modify idx (· - 1) } -- finish_job
  if depsMet then
    let r ← lookupE (s.retries m)
    if !ok ∧ r > 0 then
      modS fun s => { s with retries := upd s.retries m (some (r - 1)) }
      handleUnmet cfg fuel e m .failure
    else
      modS fun s => { s with retries := upd s.retries m none }
      handleResult cfg fuel e m ok
  else handleUnmet cfg fuel e m .unmet

/-- Run a handler under `@util.log_errors`: exceptions are logged and swallowed. — `util.log_errors`, util.py:97-123 -/
def logErrors (x : M Unit) : M Unit := fun s => (.ok (), (x s).2)

/-- The loop of handle_stranded_tasks — task_scheduler.py:303-327: a fake error reply per task still pending. -/
def strandedLoop (cfg : Config) (fuel : Nat) (e : Engine) : List MsgId → M Unit
  | [] => return ()
  | m :: ms => do
    let s ← getS
    let lost ← lookupE (s.pending e)
    if m ∈ lost then
      emit (.stranded e m)
      logErrors (dispatchResult cfg fuel e m false true)
    strandedLoop cfg fuel e ms

/-- `handle_stranded_tasks(engine)` — task_scheduler.py:301-331. -/
def handleStranded (cfg : Config) (fuel : Nat) (e : Engine) : M Unit := do
  let s ← getS
  let lost ← lookupE (s.pending e)
  strandedLoop cfg fuel e lost
  let s ← getS
  let _ ← lookupE (s.completed e)
  modS fun s => { s with completed := upd s.completed e none }
  let _ ← lookupE (s.failed e)
  modS fun s => { s with failed := upd s.failed e none }

/-- Things that happen to the scheduler. — the callbacks registered in task_scheduler.py:202-215 (`dispatch_submission`, `dispatch_result`, `dispatch_notification`, `dispatch_query_reply`) and the timers of 273-299 and 433-453 -/
inductive Event where
  | submit (m : MsgId) (sub : Submission)
  | register (e : Engine)
  | unregister (e : Engine)
  | result (e : Engine) (m : MsgId) (ok depsMet : Bool)
  /-- the 5 s callback scheduled by `_unregister_engine` fires -/
  | strandTimer (e : Engine)
  /-- a job timeout callback fires -/
  | jobTimer (m : MsgId) (tid : Nat)
  deriving DecidableEq, Repr

/-- The handler of each event. Timers that were not scheduled do nothing. — task_scheduler.py:202-215, 217-299, 339-453, 607-641 -/
def handle (cfg : Config) (fuel : Nat) : Event → M Unit
  | .submit m sub => dispatchSubmission cfg fuel m sub
  | .register e => registerEngine cfg fuel e
  | .unregister e => unregisterEngine e
  | .result e m ok dm => do
    emit (.received e m ok dm)
    dispatchResult cfg fuel e m ok dm
  | .strandTimer e => do
    let s ← getS
    if e ∈ s.strandTimers then
      modS fun s => { s with strandTimers := s.strandTimers.erase e }
      handleStranded cfg fuel e
  | .jobTimer m tid => do
    let s ← getS
    if (m, tid) ∈ s.jobTimers then
      modS fun s => { s with jobTimers := s.jobTimers.erase (m, tid) }
      jobTimeout cfg fuel m tid

/-- Enough fuel for any handler in state `s`. — an artefact of the model: the recursion of update_graph, task_scheduler.py:691-767, is bounded by it (shown in `Sched/Fuel.lean`) -/
def fuelFor (s : State) : Nat := (s.allIds.length + 2) * (s.allIds.length + s.queue.length + 10) * 8

/-- One event. — one callback of the event loop, task_scheduler.py:202-215 -/
def step (cfg : Config) (s : State) (ev : Event) : State := (handle cfg (fuelFor s) ev s).2

/-- A whole history, from the initial state. — the event loop after `start`, task_scheduler.py:202-215 -/
def run (cfg : Config) (evs : List Event) : State := evs.foldl (step cfg) {}

/-! ## Schemes — task_scheduler.py:22-81 -/

/-- `loads.index(min(loads))` — task_scheduler.py:74-84 -/
def leastload (loads : List Int) : Nat :=
  match loads with
  | [] => 0
  | l :: ls => (l :: ls).idxOf (ls.foldl min l)

/-- `lru` — task_scheduler.py:28-35 -/
def lru (_loads : List Int) : Nat := 0

/-- `plainrandom`: any index; the random number is a parameter (`randint(0, n-1)`). — task_scheduler.py:22-25 -/
def plainrandom (r : Nat) (loads : List Int) : Nat := r % loads.length

/-- `twobin`: the smaller of two random indices. — task_scheduler.py:38-48 -/
def twobin (r₁ r₂ : Nat) (loads : List Int) : Nat := min (r₁ % loads.length) (r₂ % loads.length)

end IPP.Sched
