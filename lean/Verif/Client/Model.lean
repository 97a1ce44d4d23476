import Verif.Util.RDict

/-!
# Model of the request bookkeeping of `client/client.py`

The state of one `Client`: the engine table, `outstanding`, `history`, `_outstanding_dict`, the futures, `results`, `metadata`.
Simplifications: a reply is reduced to its outcome and the engines named in its metadata; times, tracking of sent buffers and printed output are left out;
calls of the user's thread and of the IO thread are interleaved as whole calls, except where a theorem says otherwise. `execute` replies are handled by the same code as `apply` replies
(client.py:900-960 is a copy of 965-1028 up to the class of the result).
-/
namespace IPP.Client
open IPP.Hub (getKey setKey delKey)
open IPP.Util

/-- engine ids — client/client.py:845-854 -/
abbrev Eid := Nat
/-- uuids of engines (strings in client/client.py:845-854) as numbers -/
abbrev Uuid := Nat

/-- keys of the engine table: engine ids (ints) and uuids (strings) — `self._engines` — client/client.py:661-674 -/
inductive Key where
  | id (e : Eid)
  | uuid (u : Uuid)
  deriving DecidableEq, Repr

/-- message ids: those of sent messages, and `f'{msg_id}_{ident}'` for the parts of a broadcast — view.py:938 -/
inductive Mid where
  | msg (n : Nat)
  | part (n : Nat) (u : Uuid)
  deriving DecidableEq, Repr

/-- the outcome of a request — results or exceptions of message futures — client/futures.py:12-36 -/
inductive Val where
  | ok (n : Nat)
  /-- an exception raised by the task, with `engine_info` -/
  | err (n : Nat)
  /-- an error reply without `engine_info`, from the scheduler -/
  | noEngine (n : Nat)
  | aborted
  /-- `EngineError`, made by `_handle_stranded_msgs` -/
  | died (e : Eid)
  deriving DecidableEq, Repr

/-- no output will come: client.py:1012-1015, 1022-1026 -/
def Val.noOutput : Val → Bool
  | .ok _ => false
  | .err _ => false
  | _ => true

/-- A `MessageFuture` and its output future — client.py:1233-1251, view.py:933-970. -/
structure Fut where
  value : Option Val
  /-- the output future is done -/
  output : Bool
  /-- is it in `_futures`? -/
  listed : Bool
  /-- does `cleanup` run when both are done? (not for the parts of a broadcast) -/
  cleanup : Bool
  /-- the engines whose tracking is discarded when it is done (coalescing broadcasts) -/
  coal : List Uuid
  deriving DecidableEq, Repr

structure Client where
  engines : RDict Key
  /-- `_ids` -/
  ids : List Eid
  outstanding : List Mid
  history : List Mid
  /-- `_outstanding_dict` -/
  out : Uuid → List Mid
  futs : Mid → Option Fut
  results : Mid → Option Val
  /-- keys of `metadata`, with the `engine_uuid` recorded there -/
  metas : List (Mid × Option Uuid)
  /-- is there an entry `metadata['submitted']`, which is a time and not the metadata of a request? — client.py:1288 -/
  stamped : Bool

/-- a new client — client/client.py:480-623 -/
def init : Client :=
  { engines := .empty, ids := [], outstanding := [], history := [], out := fun _ => [], futs := fun _ => none, results := fun _ => none, metas := [], stamped := false }

/-- dict assignment, e.g. `self.results[msg_id] = …` — client/client.py:900-1028 -/
def updF {κ α : Type} [DecidableEq κ] (f : κ → α) (k : κ) (v : α) : κ → α := fun x => if x = k then v else f x

/-- `set.add` — e.g. `self.outstanding.add(msg_id)` — client/client.py:1229-1320 -/
def add (l : List Mid) (m : Mid) : List Mid := if m ∈ l then l else l ++ [m]

/-- `set.discard` — e.g. `self.outstanding.discard(msg_id)` — client/client.py:1229-1320 -/
def discard (l : List Mid) (m : Mid) : List Mid := l.filter (fun x => x ≠ m)

/-- part of `sorted` — client/client.py:669 -/
def insertNat (n : Nat) : List Nat → List Nat
  | [] => [n]
  | a :: l => if n ≤ a then n :: a :: l else a :: insertNat n l

/-- `sorted` — `sorted` — client/client.py:661-674 -/
def sortNat (l : List Nat) : List Nat := l.foldr insertNat []

/-- one round of the loop of `_update_engines` — client.py:661-669 (the pure-ZMQ scheme is left out) -/
def updateEngine (s : Client) (e : Eid) (u : Uuid) : Client :=
  { s with ids := sortNat (if (getKey s.engines.fwd (.id e)).isSome then s.ids else s.ids ++ [e])
           engines := (s.engines.set (.id e) (.uuid u)).1 }

/-- when the future of `m` and its output are done: `cleanup` — client.py:1300-1307; coalesced broadcasts: view.py:962-967 -/
def settle (s : Client) (m : Mid) : Client :=
  match s.futs m with
  | none => s
  | some f =>
    let s := if f.value.isSome then { s with out := fun u => if u ∈ f.coal then discard (s.out u) m else s.out u } else s
    if f.value.isSome ∧ f.output ∧ f.cleanup then
      { s with futs := updF s.futs m (some { f with listed := false })
               results := updF s.results m none
               metas := delKey s.metas m }
    else s

/-- `_handle_apply_reply` — client.py:965-1028; `engines` are the uuids in the reply's metadata. -/
def handleReply (s : Client) (m : Mid) (v : Val) (engines : List Uuid) : Client :=
  let s := { s with outstanding := discard s.outstanding m
                    metas := setKey s.metas m engines.head?
                    out := fun u => if u ∈ engines then discard (s.out u) m else s.out u
                    results := updF s.results m (some v) }
  match s.futs m with
  | none => s
  | some f =>
    if f.listed then
      -- `set_result` of a future that is done raises InvalidStateError, after everything else was done
      settle { s with futs := updF s.futs m (some { f with value := if f.value.isSome then f.value else some v
                                                           output := f.output || v.noOutput }) } m
    else s

/-- the loop of `_handle_stranded_msgs` — client.py:874-898 -/
def strand (e : Eid) (u : Uuid) : List Mid → Client → Client
  | [], s => s
  | m :: ms, s =>
    if (s.results m).isSome then strand e u ms s
    else strand e u ms (handleReply s m (.died e) [u])

/-- `_unregister_engine` — client.py:855-872. -/
def unregister (s : Client) (e : Eid) : Client :=
  if e ∈ s.ids then
    let s := { s with ids := s.ids.erase e }
    match s.engines.pop (.id e) with
    | (d, some (.uuid u)) => let s := { s with engines := d }; strand e u (s.out u) s
    | (d, _) => { s with engines := d } -- KeyError
  else s

/-- `create_message_futures` — client/client.py:1229-1245 -/
def newFut (cleanup : Bool) (coal : List Uuid) : Fut := { value := none, output := false, listed := true, cleanup := cleanup, coal := coal }

/-- the first half of `_send` (tracking) — client.py:1274-1288: `ident in _engines.values()` -/
def sendBegin (s : Client) (m : Mid) (ident : Option Uuid) : Client :=
  { s with outstanding := add s.outstanding m
           history := s.history ++ [m]
           stamped := true
           out := match ident with
             | none => s.out
             | some u => if Key.uuid u ∈ s.engines.fwd.map Prod.snd then updF s.out u (add (s.out u) m) else s.out }

/-- the second half of `_send` (futures) — client.py:1290-1307 -/
def sendFinish (s : Client) (m : Mid) (coal : List Uuid) : Client :=
  { s with futs := updF s.futs m (some (newFut true coal))
           metas := setKey s.metas m none
           out := fun u => if u ∈ coal then add (s.out u) m else s.out u }

/-- `_send` of a tracked request: to one engine, or (no ident) to the task scheduler — client.py:1253-1320 -/
def send (s : Client) (m : Mid) (ident : Option Uuid) : Client := sendFinish (sendBegin s m ident) m []

/-- a part of a broadcast without coalescing — view.py:937-949 -/
def addPart (n : Nat) (s : Client) (u : Uuid) : Client :=
  { s with futs := updF s.futs (.part n u) (some (newFut false []))
           metas := setKey s.metas (.part n u) none
           outstanding := add s.outstanding (.part n u)
           out := updF s.out u (add (s.out u) (.part n u)) }

/-- a broadcast — view.py:933-1005 -/
def broadcast (s : Client) (n : Nat) (targets : List Uuid) (coalescing : Bool) : Client :=
  if coalescing then sendFinish (sendBegin s (.msg n) none) (.msg n) targets
  else targets.foldl (addPart n) (sendFinish (sendBegin s (.msg n) none) (.msg n) [])

/-- the 'idle' status message: all output of `m` has arrived — client.py:1179-1185 -/
def idle (s : Client) (m : Mid) : Client :=
  match s.futs m with
  | none => s
  | some f => if f.listed then settle { s with futs := updF s.futs m (some { f with output := true }) } m else s

/-- `purge_local_results` of a list of message ids, and of `'all'` — client.py:2405-2455. The flag: RuntimeError. -/
def purgeIds (s : Client) (ms : List Mid) : Client × Bool :=
  if ms.any (fun m => m ∈ s.outstanding) then (s, true)
  else ({ s with results := fun m => if m ∈ ms then none else s.results m
                 metas := s.metas.filter (fun x => x.1 ∉ ms)
                 futs := fun m => if m ∈ ms then (s.futs m).map (fun f => { f with listed := false }) else s.futs m }, false)

/-- `purge_local_results('all')` — client.py:2407-2415 -/
def purgeAll (s : Client) : Client × Bool :=
  if s.outstanding ≠ [] then (s, true)
  else ({ s with results := fun _ => none
                 metas := []
                 stamped := false
                 futs := fun m => (s.futs m).map (fun f => { f with listed := false }) }, false)

/-- `wait()` with no argument: `none`: returns True at once; `some l`: waits for these futures — client.py:1615-1660, 1426-1448 -/
def waitsFor (s : Client) : Option (List Mid) :=
  if s.outstanding = [] then none
  else some (s.outstanding.filter (fun m => match s.futs m with
    | some f => f.listed
    | none => false))

/-- `wait()` returns: there is nothing to wait for, or every future waited for is done — client.py:1615-1660 -/
def waitReturns (s : Client) : Bool := match waitsFor s with
  | none => true
  | some l => l.all (fun m => match s.futs m with
    | some f => f.value.isSome
    | none => true)

/-- the callbacks and calls of client/client.py:661-1330, 1424-1447, 2407-2458 -/
inductive Ev where
  /-- connection reply or registration notification -/
  | register (e : Eid) (u : Uuid)
  | unregister (e : Eid)
  | send (m : Mid) (ident : Option Uuid)
  | broadcast (n : Nat) (targets : List Uuid) (coalescing : Bool)
  | reply (m : Mid) (v : Val) (engines : List Uuid)
  | idle (m : Mid)
  | purge (ms : List Mid)
  | purgeAll
  deriving DecidableEq, Repr

/-- the callbacks and calls of client/client.py:661-1330, 1424-1447, 2407-2458 -/
def step (s : Client) : Ev → Client
  | .register e u => updateEngine s e u
  | .unregister e => unregister s e
  | .send m i => send s m i
  | .broadcast n ts c => broadcast s n ts c
  | .reply m v us => handleReply s m v us
  | .idle m => idle s m
  | .purge ms => (purgeIds s ms).1
  | .purgeAll => (purgeAll s).1

/-- any interleaving of calls and callbacks of client/client.py:661-1330, 1424-1447, 2407-2458 -/
def run (evs : List Ev) : Client := evs.foldl step init

end IPP.Client
