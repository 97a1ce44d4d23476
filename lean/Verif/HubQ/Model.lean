/-!
# Model of the hub's query channel (C81): `Hub.dispatch_query`, its handlers, and `Client._send_recv`

Every handler is written as the code's sequence of operations that may raise and of messages that are sent; what the operations compute is in the other hub models (`Hub/*`). Which operations raise, how many records, targets or ids there are and what the hub knows about each id is an arbitrary environment `Env`, different for every request.
Simplifications: the content of a reply is only its status; sending an error reply (`error.wrap_exception()`, plain strings) or a notification does not raise; the hub does not exit (`shutdown_request` is followed by its exit after a second), clients do not close.
-/
namespace IPP.HubQ

/-- keys of `query_handlers` — hub.py:248-262 -/
inductive Kind where
  | queue | result | history | db | purge | load | resubmit | shutdown | registration | unregistration | connection | becomeDask | stopDistributed
  /-- any other message type -/
  | unknown (name : Nat)
  deriving DecidableEq, Repr

/-- an operation of a handler that may raise; `i` counts the rounds of a loop — the statements of hub.py:340-391, 868-879, 1137-1560 that may raise -/
inductive Op where
  /-- `content['targets']`, `content['msg_ids']`, `content['uuid']`, `content['id']` -/
  | content
  | validate
  | look (i : Nat)
  | find
  | drop (i : Nat)
  /-- an operation on data of the client outside of a `try` (hashing, sorting, concatenating, `extract_dates`, `uuid.encode`) -/
  | data (i : Nat)
  /-- `session.send(self.resubmit, …)` -/
  | forward (i : Nat)
  | addRecord (i : Nat)
  | updateRecord (i : Nat)
  /-- packing of the reply in `session.send` -/
  | pack
  | importDask
  | awaitDask
  | closeDask
  deriving DecidableEq, Repr

/-- what the hub knows about a message id, in the order of the tests of `get_results` — hub.py:1388-1408 -/
inductive Known where
  | pending | completed | recordDone | recordOpen | missing
  deriving DecidableEq, Repr

/-- what the statements of hub.py:340-391, 868-879, 1137-1560 do -/
structure Env where
  /-- does the operation succeed? -/
  ok : Op → Bool
  /-- how many targets, records, ids or engine ids -/
  n : Nat
  /-- `msg_ids == 'all'` -/
  all : Bool
  /-- one of the ids is pending -/
  pending : Bool
  /-- the engine id number `i` exists -/
  engine : Nat → Bool
  /-- number of records found against number of ids -/
  found : Ordering
  statusOnly : Bool
  known : Nat → Known
  /-- the uuid of a registration is in use -/
  inUse : Bool
  /-- a dask scheduler is running -/
  dask : Bool

/-- the sockets of hub.py:166-178 -/
inductive Dest where
  /-- the sender of the request -/
  | client
  | notifier
  /-- the task scheduler -/
  | scheduler
  deriving DecidableEq, Repr

/-- types of messages the hub sends on behalf of a request — the message types of hub.py:868-879, 1137-1560 -/
inductive Typ where
  /-- the reply of the handler: `queue_reply`, `result_reply`, … -/
  | reply (k : Kind)
  | hubError
  | notification
  | task
  deriving DecidableEq, Repr

/-- `session.send` — hub.py:340-391, 868-879, 1137-1560 -/
structure Send where
  dest : Dest
  typ : Typ
  /-- `status == 'ok'` -/
  ok : Bool
  /-- the reply has the request as parent -/
  parented : Bool
  deriving DecidableEq, Repr

/-- A computation that sends messages and may raise (`none`). — Python's exceptions; not itself code of /repo, used for hub.py:340-391, 868-879, 1137-1560 -/
def H (α : Type) : Type := Env → Option α × List Send

/-- Python's `return`; for hub.py:340-1560 -/
def H.pure {α : Type} (a : α) : H α := fun _ => (some a, [])
/-- statements one after the other; for hub.py:340-1560 -/
def H.bind {α β : Type} (x : H α) (f : α → H β) : H β := fun env =>
  match x env with
  | (none, s) => (none, s)
  | (some a, s) => ((f a env).1, s ++ (f a env).2)

instance : Monad H where
  pure := H.pure
  bind := H.bind

/-- an operation that raises if the environment says so — any statement of hub.py:340-1560 that can raise -/
def may (o : Op) : H Unit := fun env => (if env.ok o then some () else none, [])
/-- `try: x; except Exception`: `true` if `x` did not raise — `try … except` of hub.py:340-391, 1177-1505 -/
def attempt (x : H Unit) : H Bool := fun env => (some (x env).1.isSome, (x env).2)
/-- reading the content of a request, hub.py:340-1560 -/
def ask {α : Type} (f : Env → α) : H α := fun env => (some (f env), [])
/-- `self.session.send` of hub.py:340-1560 -/
def send (m : Send) : H Unit := fun _ => (some (), [m])
/-- `session.send(self.query, …, content=…)`: packing may raise, before anything is sent — hub.py:868-879, 1137-1560 -/
def sendReply (k : Kind) (ok : Bool) : H Unit := do
  may .pack
  send ⟨.client, .reply k, ok, true⟩
/-- a reply whose content is `error.wrap_exception()` — hub.py:1401-1411, 1448-1458 and alike -/
def sendErr (k : Kind) : H Unit := send ⟨.client, .reply k, false, true⟩
/-- `dispatch_query` — hub.py:340-391 -/
def hubError : H Unit := send ⟨.client, .hubError, false, true⟩

/-- `for i in range(n): f(i)` — the loops of hub.py:1177-1445 -/
def loop (f : Nat → H Unit) : Nat → H Unit
  | 0 => pure ()
  | n + 1 => do loop f n; f n

/-- `check_load` — hub.py:1156-1173 -/
def checkLoad : H Unit := do
  if ← attempt (do may .content; may .validate) then
    loop (fun i => may (.look i)) (← ask Env.n)
    sendReply .load true
  else hubError

/-- `queue_status` — hub.py:1175-1213 -/
def queueStatus : H Unit := do
  may .content
  if ← attempt (may .validate) then
    loop (fun i => may (.look i)) (← ask Env.n)
    sendReply .queue true
  else hubError

/-- the loop over `engine_ids` — hub.py:1246-1265: `break` at the first failure -/
def purgeEngines : Nat → H Bool
  | 0 => pure true
  | n + 1 => do
    if ← purgeEngines n then
      if ← ask (fun env => env.engine n) then attempt (may (.drop (n + 1))) else pure false
    else pure false

/-- `purge_results` — hub.py:1215-1269 -/
def purgeResults : H Unit := do
  let ok ← if ← ask Env.all then attempt (may (.drop 0)) else do
    may (.data 0)
    let ok ← if ← ask Env.pending then pure false else attempt (may (.drop 0))
    if ok then purgeEngines (← ask Env.n) else pure false
  sendReply .purge ok

/-- one round of the loop of `resubmit_task` — hub.py:1325-1350: `false` if the record cannot be added -/
def resubmitOne (i : Nat) : H Bool := do
  may (.data (i + 1))
  may (.forward i)
  send ⟨.scheduler, .task, true, false⟩
  attempt (may (.addRecord i))

/-- `resubmit_task` — hub.py:1269-1360 -/
def resubmitLoop : Nat → H Bool
  | 0 => pure true
  | n + 1 => do if ← resubmitLoop n then resubmitOne n else pure false

/-- `resubmit_task` — hub.py:1271-1363; `finish` is the one place that replies -/
def resubmitTask : H Unit := do
  may .content
  if ← attempt (may .find) then
    may (.data 0)
    match ← ask Env.found with
    | .gt => sendErr .resubmit
    | .lt => sendErr .resubmit
    | .eq =>
      if ← resubmitLoop (← ask Env.n) then
        sendReply .resubmit true
        loop (fun i => do let _ ← attempt (may (.updateRecord i)); pure ()) (← ask Env.n)
      else sendErr .resubmit
  else sendErr .resubmit

/-- the loop of `get_results` — hub.py:1391-1413: `false` after the `break` -/
def resultLoop : Nat → H Bool
  | 0 => pure true
  | n + 1 => do
    if ← resultLoop n then
      match ← ask (fun env => env.known n) with
      | .pending => pure true
      | .completed =>
        if ← ask Env.statusOnly then pure true
        else do may (.look n); pure true
      | .recordDone => do may (.look n); pure true
      | .recordOpen => pure true
      | .missing => do may (.data (n + 1)); pure false
    else pure false

/-- `get_results` — hub.py:1383-1422 -/
def getResults : H Unit := do
  may .content
  may (.data 0)
  let found ← if ← ask Env.statusOnly then pure true else attempt (may .find)
  if found then
    let ok ← resultLoop (← ask Env.n)
    if ok then sendReply .result true else sendErr .result
  else sendErr .result

/-- `get_history` — hub.py:1424-1436 -/
def getHistory : H Unit := do
  if ← attempt (may .find) then sendReply .history true else sendErr .history

/-- `db_query` — hub.py:1438-1485 -/
def dbQuery : H Unit := do
  may (.data 0)
  if ← attempt (may .find) then
    loop (fun i => may (.look i)) (← ask Env.n)
    sendReply .db true
  else sendErr .db

/-- `shutdown_request` — hub.py:1137-1151 -/
def shutdownRequest : H Unit := do
  sendReply .shutdown true
  send ⟨.notifier, .notification, true, true⟩

/-- `connection_request` — hub.py:868-878 -/
def connectionRequest : H Unit := sendReply .connection true

/-- `register_engine` — hub.py:880-946: no reply without uuid; the reply has no parent -/
def registerEngine : H Unit := do
  if ← attempt (may .content) then
    may (.data 0)
    send ⟨.client, .reply .registration, !(← ask Env.inUse), false⟩
  else pure ()

/-- `unregister_engine` — hub.py:948-997: never replies -/
def unregisterEngine : H Unit := do
  if ← attempt (may .content) then
    may (.data 0)
    if ← ask (fun env => env.engine 0) then send ⟨.notifier, .notification, true, false⟩ else pure ()
  else pure ()

/-- `become_dask` — hub.py:1487-1512 -/
def becomeDask : H Unit := do
  if ← ask Env.dask then pure () else do
    may (.data 0)
    may .importDask
    may .awaitDask
  sendReply .becomeDask true

/-- `stop_distributed` — hub.py:1514-1531 -/
def stopDistributed : H Unit := do
  if ← ask Env.dask then may .closeDask else pure ()
  sendReply .stopDistributed true

/-- `query_handlers` — hub.py:248-262 -/
def handler : Kind → Option (H Unit)
  | .queue => some queueStatus
  | .result => some getResults
  | .history => some getHistory
  | .db => some dbQuery
  | .purge => some purgeResults
  | .load => some checkLoad
  | .resubmit => some resubmitTask
  | .shutdown => some shutdownRequest
  | .registration => some registerEngine
  | .unregistration => some unregisterEngine
  | .connection => some connectionRequest
  | .becomeDask => some becomeDask
  | .stopDistributed => some stopDistributed
  | .unknown _ => none

/-- `dispatch_query` for a message that can be deserialized — hub.py:357-384. (One that cannot: `parent=msg` is then a list of frames, `session.send` raises and nothing is sent — hub.py:348-356.) -/
def dispatch (k : Kind) (env : Env) : List Send :=
  match handler k with
  | none => (hubError env).2
  | some h =>
    match h env with
    | (some _, s) => s
    | (none, s) => s ++ (hubError env).2

/-! ## clients — client.py:1244-1326, 1090-1096 -/

/-- ZMQ identities of clients, hub.py:340 -/
abbrev Client := Nat
/-- `msg_id` of `_send_recv` — client.py:1322-1330 -/
abbrev Id := Nat

/-- a reply under way to a client, or the outcome of a call — client.py:1094-1100, 1322-1330 -/
structure Reply where
  id : Id
  typ : Typ
  ok : Bool
  deriving DecidableEq, Repr

structure Req where
  id : Id
  kind : Kind
  /-- the content can be packed by `session.send`, in the IO thread (`_really_send`) — client.py:1311-1319 -/
  packs : Bool
  /-- the hub can deserialize it (signature and format) -/
  good : Bool
  deriving DecidableEq, Repr

/-- the query sockets between client.py:1247-1330 and hub.py:340-391 -/
structure Sys where
  /-- every call made so far, oldest first -/
  calls : List (Client × Req) := []
  /-- requests under way to the hub -/
  queue : Client → List Req := fun _ => []
  /-- requests whose handler is suspended in an `await` (`become_dask`) -/
  suspended : List (Client × Req × Env) := []
  /-- requests the hub has dealt with, oldest first, and what it found then -/
  handled : List (Client × Req × Env) := []
  /-- replies under way to a client -/
  mail : Client → List Reply := fun _ => []
  /-- `_futures`: the outcome of a call, `none` while it waits -/
  future : Client → Id → Option Reply := fun _ _ => none

inductive Ev where
  /-- `_send` of a request; ids are new (uuid4 and a counter) -/
  | call (c : Client) (k : Kind) (packs good : Bool)
  /-- the hub takes the next request of a client; `await` means that its handler is suspended -/
  | hub (c : Client) (env : Env) (await : Bool)
  /-- the suspended handler number `i` goes on -/
  | resume (i : Nat)
  /-- the client's IO thread reads its next reply — `_dispatch_single_reply`, client.py:1090-1096 -/
  | deliver (c : Client)

/-- the state of one client, client.py:1247-1330 -/
def upd {α : Type} (f : Client → α) (c : Client) (v : α) : Client → α := fun x => if x = c then v else f x

/-- the messages a client gets for a request: those with the request as parent (others are dropped by `_futures.get(None)`) — `_dispatch_single_reply` — client.py:1094-1100 -/
def answers (r : Req) (env : Env) : List Reply :=
  if r.good then ((dispatch r.kind env).filter fun m => m.dest = .client ∧ m.parented = true).map fun m => ⟨r.id, m.typ, m.ok⟩ else []

/-- the end of `dispatch_query` — hub.py:340-391 -/
def finish (s : Sys) (c : Client) (r : Req) (env : Env) : Sys :=
  { s with handled := s.handled ++ [(c, r, env)], mail := upd s.mail c (s.mail c ++ answers r env) }

/-- hub.py:340-391, client.py:1094-1100, 1247-1330 -/
def step (s : Sys) : Ev → Sys
  | .call c k packs good =>
    let r : Req := ⟨s.calls.length, k, packs, good⟩
    -- a request that cannot be packed raises in the IO thread, where nobody waits for it
    { s with calls := s.calls ++ [(c, r)], queue := if packs then upd s.queue c (s.queue c ++ [r]) else s.queue }
  | .hub c env await => match s.queue c with
    | [] => s
    | r :: rest =>
      let s := { s with queue := upd s.queue c rest }
      if await = true ∧ r.kind = .becomeDask then { s with suspended := s.suspended ++ [(c, r, env)] } else finish s c r env
  | .resume i => match s.suspended[i]? with
    | none => s
    | some (c, r, env) => finish { s with suspended := s.suspended.eraseIdx i } c r env
  | .deliver c => match s.mail c with
    | [] => s
    | m :: rest =>
      let s := { s with mail := upd s.mail c rest }
      -- a future that is done has been removed from `_futures` by `cleanup`: a second reply is dropped
      if (s.future c m.id).isNone then { s with future := upd s.future c (fun i => if i = m.id then some m else s.future c i) } else s

/-- any interleaving of hub.py:340-391 and client.py:1247-1330 -/
def run (s : Sys) (evs : List Ev) : Sys := evs.foldl step s

/-- before any request, client.py:1247-1330 -/
def init : Sys := {}

end IPP.HubQ
