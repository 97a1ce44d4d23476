import Verif.Hub.RegProps
/-!
# Model of the message bookkeeping of `controller/hub.py`

The state of one hub: the registration state of `Verif.Hub.Reg`, the sets `pending`, `all_completed`, `unassigned` (as duplicate-free lists), the per-engine lists
`queues`, `tasks`, `completed`, and the task database as a plain map (what `Verif.DB` proves of both backends while nothing is evicted).
Simplifications: a message is its id; a reply is an opaque number, its buffers, the engine it names and whether it is marked aborted; a record keeps only the fields that the hub's own
logic reads. The setting of `completed` and of the result happens in the same `update_record` everywhere, so a record is completed when it has a result.
An exception that leaves a handler half way (they are all caught by the dispatch loop) is modelled by the state at that point.
Broadcast traffic is not sent to the hub by the broadcast scheduler and is left out.
-/
namespace IPP.Hub

/-- message ids (strings in hub.py) as numbers -/
abbrev Mid := Nat

/-- what `save_task_result`, `save_queue_result` read of a reply — hub.py:503-561, 699-758 -/
structure Reply where
  /-- header, metadata and content of the reply -/
  tag : Nat
  bufs : List Nat
  /-- `metadata['engine']` -/
  engine : Option Uuid
  /-- `metadata['status'] == 'aborted'` -/
  aborted : Bool
  deriving DecidableEq, Repr

/-- what is stored as a result — hub.py:543-561, 741-755, 999-1030 -/
inductive Outcome where
  | reply (r : Reply)
  /-- `EngineError`: engine died while running the task -/
  | died (u : Uuid)
  deriving DecidableEq, Repr

/-- `result_buffers` — hub.py:556, 751 -/
def Outcome.bufs : Outcome → List Nat
  | .reply r => r.bufs
  | .died _ => []

/-- a task record — hub.py:56-118 -/
structure TRec where
  /-- does it have a request (as opposed to being created by `save_iopub_message`)? -/
  requested : Bool
  engine : Option Uuid
  result : Option Outcome
  resubmitted : Option Mid
  stdout : List Nat
  deriving DecidableEq, Repr

/-- `init_record` — hub.py:87-116 -/
def TRec.init (engine : Option Uuid) : TRec := { requested := true, engine := engine, result := none, resubmitted := none, stdout := [] }

/-- Which database: `sql` tells SQLite from DictDB (they differ in `purge_results`); `persistent`: does it survive a restart? — dictdb.py:268-273, sqlitedb.py:416-421, hub.py:1217-1267 -/
structure MCfg where
  sql : Bool
  persistent : Bool
  deriving DecidableEq, Repr

/-- attributes of `Hub` — hub.py:142-205 -/
structure Hub where
  reg : Reg
  /-- `ids`: every id ever registered -/
  ids : List Eid
  pending : List Mid
  /-- `all_completed` -/
  done : List Mid
  unassigned : List Mid
  queues : Eid → List Mid
  tasks : Eid → List Mid
  completed : Eid → List Mid
  db : List (Mid × TRec)
  /-- the timers that will call `_handle_stranded_msgs` -/
  timers : List (Eid × Uuid)

/-- `self.queues[eid] = …`, `self.tasks[eid] = …` — hub.py:155-164 -/
def upd {α : Type} (f : Eid → α) (k : Eid) (v : α) : Eid → α := fun x => if x = k then v else f x

/-- `set.add` — hub.py:500, 532, 658-659, 732 -/
def addTo (l : List Mid) (m : Mid) : List Mid := if m ∈ l then l else l ++ [m]

/-- `set.remove`, of an element that is there — hub.py:531, 720, 731, 774 -/
def remFrom (l : List Mid) (m : Mid) : List Mid := l.filter (fun x => x ≠ m)

/-- `list.remove`, of an element that is there — hub.py:533, 737 -/
def remFirst (l : List Mid) (m : Mid) : List Mid := l.erase m

/-- `update_record`, when the record is there (else the error is logged) — hub.py:558, 753, 780 -/
def updRec (db : List (Mid × TRec)) (m : Mid) (f : TRec → TRec) : List (Mid × TRec) := db.map (fun x => if x.1 = m then (m, f x.2) else x)

/-- a hub that has just started, with these engines and this database content — hub.py:176-200, 1109-1133 -/
def startHub (r : Reg) (db : List (Mid × TRec)) : Hub :=
  { reg := r, ids := r.engines.map Prod.fst, pending := [], done := [], unassigned := [], queues := fun _ => [], tasks := fun _ => [],
    completed := fun _ => [], db := db, timers := [] }

/-- effects of `finish_registration` and `unregister_engine` on the message tables — hub.py:1050-1055, 983-986 -/
def noteEffect (s : Hub) : Note → Hub
  | .registered _ e => { s with ids := addTo s.ids e, queues := upd s.queues e [], tasks := upd s.tasks e [], completed := upd s.completed e [] }
  | .unregistered u e => { s with timers := s.timers ++ [(e, u)] }
  | _ => s

/-- merge a new request record with an existing one (made by iopub traffic or `resubmit_task`) — hub.py:474-487, 664-691 -/
def mergeReq (existing : TRec) (engine : Option Uuid) : TRec :=
  { requested := true, engine := if engine.isSome then engine else existing.engine, result := existing.result, resubmitted := existing.resubmitted,
    stdout := existing.stdout }

/-- hub.py:475-498, 660-697 -/
def saveReq (db : List (Mid × TRec)) (m : Mid) (engine : Option Uuid) : List (Mid × TRec) :=
  match getKey db m with
  | some _ => updRec db m (fun r => mergeReq r engine)
  | none => db ++ [(m, .init engine)]

/-- `save_queue_request` — hub.py:443-503. -/
def queueRequest (s : Hub) (u : Uuid) (m : Mid) : Hub :=
  match getKey s.reg.byIdent u with
  | none => s
  | some e => { s with db := saveReq s.db m (some u)
                       pending := addTo s.pending m
                       queues := upd s.queues e (s.queues e ++ [m]) }

/-- `save_queue_result` — hub.py:505-560. -/
def queueResult (s : Hub) (u : Uuid) (m : Mid) (r : Reply) : Hub :=
  match getKey s.reg.byIdent u with
  | none => s
  | some e =>
    let store (s : Hub) : Hub := { s with db := updRec s.db m (fun x => { x with result := some (.reply r) }) }
    if m ∈ s.pending then
      let s := { s with pending := remFrom s.pending m
                        done := addTo s.done m }
      if m ∈ s.queues e then
        store { s with queues := upd s.queues e (remFirst (s.queues e) m)
                       completed := upd s.completed e (s.completed e ++ [m]) }
      else s -- ValueError: list.remove(x): x not in list
    else if m ∈ s.done then store s
    else s

/-- `save_task_request` — hub.py:638-700. -/
def taskRequest (s : Hub) (m : Mid) : Hub :=
  { s with pending := addTo s.pending m
           unassigned := addTo s.unassigned m
           db := saveReq s.db m none }

/-- `save_task_destination` — hub.py:762-782. -/
def taskDestination (s : Hub) (m : Mid) (u : Uuid) : Hub :=
  match getKey s.reg.byIdent u with
  | none => s -- KeyError
  | some e => { s with unassigned := remFrom s.unassigned m
                       tasks := upd s.tasks e (s.tasks e ++ [m])
                       db := updRec s.db m (fun x => { x with engine := some u }) }

/-- `save_task_result` — hub.py:702-760. -/
def taskResult (s : Hub) (m : Mid) (r : Reply) : Hub :=
  let s := { s with unassigned := remFrom s.unassigned m }
  if m ∈ s.pending then
    let s := { s with pending := remFrom s.pending m
                      done := addTo s.done m }
    let s := match r.engine.bind (getKey s.reg.byIdent) with
      | none => s
      | some e => { s with completed := if r.aborted then s.completed else upd s.completed e (s.completed e ++ [m])
                           tasks := if m ∈ s.tasks e then upd s.tasks e (remFirst (s.tasks e) m) else s.tasks }
    { s with db := updRec s.db m (fun x => { x with result := some (.reply r), engine := r.engine }) }
  else s

/-- the loop of `_handle_stranded_msgs` — hub.py:1008-1030; it stops with a KeyError at a message that is not pending. -/
def strandLoop (u : Uuid) : List Mid → Hub → Hub
  | [], s => s
  | m :: ms, s =>
    if m ∈ s.pending then
      strandLoop u ms { s with pending := remFrom s.pending m
                               done := addTo s.done m
                               db := updRec s.db m (fun x => { x with result := some (.died u), engine := some u }) }
    else s

/-- `save_iopub_message` for a `stream` message — hub.py:813-861. -/
def iopub (s : Hub) (m : Mid) (text : Nat) : Hub :=
  match getKey s.db m with
  | none => { s with db := s.db ++ [(m, { requested := false, engine := none, result := none, resubmitted := none, stdout := [text] })] }
  | some _ => { s with db := updRec s.db m (fun x => { x with stdout := x.stdout ++ [text] }) }

/-- `resubmit_task` — hub.py:1269-1355; `news` are the fresh ids. `none`: the reply is an error. -/
def resubmit (s : Hub) (ms : List Mid) (news : List Mid) : Hub × Option (List (Mid × Mid)) :=
  let records := s.db.filter (fun x => x.1 ∈ ms)
  if records.length ≠ ms.length then (s, none)
  else
    let pairs : List (Mid × Mid) := (records.map Prod.fst).zip news
    let s := { s with pending := pairs.foldl (fun p (x : Mid × Mid) => addTo p x.2) s.pending
                      db := s.db ++ pairs.map (fun (x : Mid × Mid) => (x.2, TRec.init none)) }
    ({ s with db := pairs.foldl (fun db (x : Mid × Mid) => updRec db x.1 (fun r => { r with resubmitted := some x.2 })) s.db }, some pairs)

/-- `content.get('msg_ids', [])` — hub.py:1222 -/
inductive PurgeIds where
  | all
  | ids (ms : List Mid)
  deriving DecidableEq, Repr

/-- the loop over `engine_ids` — hub.py:1243-1262 -/
def purgeEngines (c : MCfg) (engines : List (Eid × Uuid)) : List Eid → List (Mid × TRec) → List (Mid × TRec) × Bool
  | [], db => (db, true)
  | e :: es, db => match getKey engines e with
    | none => (db, false)
    | some u =>
      -- `{engine_uuid: u, completed: {'$ne': None}}`: DictDB compares `engine_uuid` with the operator dict (`DB.plain_not_last_violated`)
      purgeEngines c engines es (if c.sql then db.filter (fun x => ¬ (x.2.engine = some u ∧ x.2.result.isSome)) else db)

/-- `purge_results` — hub.py:1217-1267. The flag: the reply's status is ok. -/
def purge (c : MCfg) (s : Hub) (what : PurgeIds) (eids : List Eid) : Hub × Bool :=
  match what with
  | .all => ({ s with db := s.db.filter (fun x => x.2.result.isNone) }, true)
  | .ids ms =>
    if ms.any (fun m => m ∈ s.pending) then (s, false)
    else if c.sql ∧ ms = [] then (s, false) -- `$in []`: sqlite3.OperationalError
    else
      let db := s.db.filter (fun x => x.1 ∉ ms)
      let r := purgeEngines c s.reg.engines eids db
      ({ s with db := r.1 }, r.2)

/-! ### queries -/

/-- insertion into a sorted list without duplicates — part of `sorted`, used for hub.py:1386 -/
def insertMid (m : Mid) : List Mid → List Mid
  | [] => [m]
  | x :: l => if m < x then m :: x :: l else if m = x then x :: l else x :: insertMid m l

/-- `sorted(set(l))` — hub.py:1386 -/
def sortIds (l : List Mid) : List Mid := l.foldr insertMid []

/-- the content of the reply — hub.py:1383-1444 -/
structure ResultReply where
  pending : List Mid
  completed : List Mid
  /-- `content[msg_id]` -/
  content : List (Mid × TRec)
  /-- buffers of the message -/
  buffers : List Nat
  deriving DecidableEq, Repr

/-- The loop of `get_results` — hub.py:1411-1432. `last` is `rec`, the last record of the query (`none`: the name is unbound); `none`: an error reply
(or an exception, which `dispatch_query` turns into one). -/
def resultLoop (s : Hub) (statusonly : Bool) (records : List (Mid × TRec)) (last : Option TRec) : List Mid → ResultReply → Option ResultReply
  | [], acc => some acc
  | m :: ms, acc =>
    if m ∈ s.pending then resultLoop s statusonly records last ms { acc with pending := acc.pending ++ [m] }
    else if m ∈ s.done then
      if statusonly then resultLoop s statusonly records last ms { acc with completed := acc.completed ++ [m] }
      else match getKey records m with
        | none => none -- KeyError
        | some r => resultLoop s statusonly records last ms
            { acc with completed := acc.completed ++ [m]
                       content := acc.content ++ [(m, r)]
                       buffers := acc.buffers ++ (r.result.map Outcome.bufs).getD [] }
    else match getKey records m with
      | none => none
      | some r => match last with
        | none => none
        | some l =>
          if l.result.isSome then resultLoop s statusonly records last ms
            { acc with completed := acc.completed ++ [m]
                       content := acc.content ++ [(m, r)]
                       buffers := acc.buffers ++ (r.result.map Outcome.bufs).getD [] }
          else resultLoop s statusonly records last ms { acc with pending := acc.pending ++ [m] }

/-- `get_results` — hub.py:1383-1444. -/
def getResults (s : Hub) (ms : List Mid) (statusonly : Bool) : Option ResultReply :=
  let ids := sortIds ms
  let records := if statusonly then [] else s.db.filter (fun x => x.1 ∈ ids)
  resultLoop s statusonly records (records.getLast?.map Prod.snd) ids { pending := [], completed := [], content := [], buffers := [] }

/-- `queue_status` for one engine id — hub.py:1177-1215: (queue, completed, tasks). `none`: "No Such Engine". -/
def queueStatus (s : Hub) (e : Eid) : Option (List Mid × List Mid × List Mid) :=
  if e ∈ s.ids then some (s.queues e, s.completed e, s.tasks e) else none

/-! ### histories -/

/-- the messages handled by `dispatch_monitor_traffic` and `dispatch_query` — hub.py:321-391 -/
inductive MEv where
  /-- registration traffic -/
  | reg (e : Ev)
  | queueRequest (u : Uuid) (m : Mid)
  | queueResult (u : Uuid) (m : Mid) (r : Reply)
  | taskRequest (m : Mid)
  | taskDestination (m : Mid) (u : Uuid)
  | taskResult (m : Mid) (r : Reply)
  /-- the `i`-th stranded-message timer fires -/
  | timer (i : Nat)
  | iopub (m : Mid) (text : Nat)
  | resubmit (ms news : List Mid)
  | purge (what : PurgeIds) (eids : List Eid)
  deriving DecidableEq, Repr

/-- registration and death — hub.py:880-1078 -/
def regStep (c : MCfg) (s : Hub) (e : Ev) : Hub :=
  match e with
  | .restart | .restartCrash _ => startHub (step s.reg e).1 (if c.persistent then s.db else [])
  | _ =>
    let r := step s.reg e
    r.2.foldl noteEffect { s with reg := r.1 }

/-- hub.py:207-261 (tables of handlers) -/
def mstep (c : MCfg) (s : Hub) : MEv → Hub
  | .reg e => regStep c s e
  | .queueRequest u m => queueRequest s u m
  | .queueResult u m r => queueResult s u m r
  | .taskRequest m => taskRequest s m
  | .taskDestination m u => taskDestination s m u
  | .taskResult m r => taskResult s m r
  | .timer i => match s.timers[i]? with
    | none => s
    | some (e, u) => strandLoop u (s.queues e) { s with timers := s.timers.eraseIdx i }
  | .iopub m t => iopub s m t
  | .resubmit ms news => (resubmit s ms news).1
  | .purge what eids => (purge c s what eids).1

/-- a new hub — hub.py:207-261 -/
def hub0 : Hub := startHub (fresh none) []

/-- the event loop of the hub — hub.py:321-391 -/
def mrun (c : MCfg) (evs : List MEv) : Hub := evs.foldl (mstep c) hub0

end IPP.Hub
