import Verif.Client.Targets
import Verif.View.Flags

/-!
# The calls of a view, and what it keeps about them — client/view.py:34-61, 196-320, 536-720, 837-864, 932-1005

Several views of one client. The client is the model of `Client/Model.lean`; here are the decorators `save_ids` and `sync_results` around the calls of views, and the methods that
use what they keep: `wait`, `abort`, `get_result`.
Simplifications: the user's calls do not overlap (for calls in several threads see `View/SaveIds.lean`), but everything that the client's IO thread does may happen between the sends
of a call; what is sent through a view is sent through `apply`, `execute`, `push`, `pull`, `scatter`, `gather` and the maps. `scatter` and the maps are sequences of such calls
(view.py:800-835, 1083-1178).
-/
namespace IPP.ViewCalls
open IPP.Client (Client Mid Uuid Target Err)
open IPP.View (lastN)

/-- views are numbered -- client/view.py:67-120 -/
abbrev Vid := Nat

/-- `history` and `outstanding` of a view (its other attributes: `View/Flags.lean`) — client/view.py:101-103 -/
structure V where
  history : List Mid
  outstanding : List Mid
  deriving DecidableEq, Repr

/-- `set.update` — client/view.py:45 -/
def addAll (l : List Mid) (ms : List Mid) : List Mid := ms.foldl Client.add l

/-- what `save_ids` does after the call: `c0` and `c1` are the client before and after it — client/view.py:35-46 -/
def save (c0 c1 : Client) (v : V) : V :=
  let ids := lastN c1.history (c1.history.length - c0.history.length)
  { history := v.history ++ ids, outstanding := addAll v.outstanding ids }

/-- `_sync_results` — client/view.py:196-203 -/
def sync (c : Client) (v : V) : V := { v with outstanding := v.outstanding.filter (fun m => m ∈ c.outstanding) }

/-- what the hook of a broadcast does to the view: the parts are outstanding, its own id is not — client/view.py:933-949 -/
def hook (n : Nat) (ts : List Uuid) (coalescing : Bool) (v : V) : V :=
  if coalescing then v
  else { v with outstanding := Client.discard (addAll v.outstanding (ts.map (Mid.part n))) (.msg n) }

/-- the inside of a call: the messages sent, one after the other, with what else happens meanwhile; or one broadcast, and what happens after it —
client/view.py:586-599, 705-711, 972-1005 -/
inductive Core where
  | direct (acts : List Client.Ev)
  | bcast (n : Nat) (ts : List Uuid) (coalescing : Bool) (after : List Client.Ev)
  deriving DecidableEq, Repr

/-- what happens to the client during a call — client/view.py:586-599, 972-1005 -/
def Core.evs : Core → List Client.Ev
  | .direct acts => acts
  | .bcast n ts c after => .broadcast n ts c :: after

/-- a call with `@save_ids` — client/view.py:34-46, 536-614, 932-1005 -/
def Core.saved (k : Core) (s : Client × V) : Client × V :=
  let c1 := k.evs.foldl Client.step s.1
  let v1 := match k with
    | .direct _ => s.2
    | .bcast n ts c _ => hook n ts c s.2
  (c1, save s.1 c1 v1)

/-- `gather`, which is itself wrapped by `save_ids`: its pulls are, too — client/view.py:837-864 -/
def gathered (ks : List Core) (s : Client × V) : Client × V :=
  let s1 := ks.foldl (fun s k => k.saved s) s
  (s1.1, save s.1 s1.1 s1.2)

/-- what happens — client/view.py:196-320 -/
inductive Ev where
  /-- anything that the client does by itself: replies, engines that come and go, purges -/
  | client (e : Client.Ev)
  /-- a call of a view; without any message in it if it raised before sending, or if there are no targets -/
  | call (v : Vid) (k : Core)
  | gather (v : Vid) (ks : List Core)
  /-- `spin`, or the end of `wait` -/
  | spin (v : Vid)
  deriving DecidableEq, Repr

/-- a client and its views -- client/view.py:114-120 -/
structure State where
  client : Client
  views : Vid → V

/-- nothing was sent — client/view.py:101-120 -/
def init : State := { client := Client.init, views := fun _ => ⟨[], []⟩ }

/-- assignment to the attributes of a view — client/view.py:101-103 -/
def State.set (s : State) (v : Vid) (r : Client × V) : State :=
  { client := r.1, views := fun w => if w = v then r.2 else s.views w }

/-- a call is wrapped by `sync_results`: client/view.py:49-61 -/
def step (s : State) : Ev → State
  | .client e => { s with client := Client.step s.client e }
  | .call v k => let r := k.saved (s.client, s.views v); s.set v (r.1, sync r.1 r.2)
  | .gather v ks => let r := gathered ks (s.client, s.views v); s.set v (r.1, sync r.1 r.2)
  | .spin v => s.set v (s.client, sync s.client (s.views v))

/-- any sequence of calls and of what the client does — client/view.py:196-320 -/
def run (evs : List Ev) : State := evs.foldl step init

/-! ## What uses it -/

/-- `client.wait(jobs)` with a list of message ids, no time limit: has it returned? — client/client.py:1639-1660, 1426-1448 -/
def waitDone (c : Client) (jobs : List Mid) : Bool :=
  if jobs.all (fun m => m ∉ c.outstanding) then true
  else jobs.all (fun m => match c.futs m with
    | some f => !f.listed || f.value.isSome
    | none => true)

/-- `view.wait()` — client/view.py:243-264 -/
def viewWaitDone (s : State) (v : Vid) : Bool := waitDone s.client (s.views v).history

/-- the message ids that `view.abort(jobs)` asks the engines to drop — client/view.py:266-283 -/
def abortJobs (v : V) (jobs : Option (List Mid)) : List Mid := jobs.getD v.outstanding

/-- an argument of `get_result`: an index or a message id — client/view.py:305-320 -/
inductive Index where
  | int (i : Int)
  | id (m : Mid)
  deriving DecidableEq, Repr

/-- one of them; `none`: IndexError — client/view.py:313-319 -/
def resolve (v : V) : Index → Option Mid
  | .int i => Client.pyGet v.history i
  | .id m => some m

/-- what `get_result` asks the client for: no argument, one, a list — client/view.py:305-320 -/
def resolveAll (v : V) : Option (List Index) → Option (List Mid)
  | none => (resolve v (.int (-1))).map (fun m => [m])
  | some l => l.mapM (resolve v)

/-! ## Calls of a direct view -/

/-- a call of a `DirectView`: the messages (`ids`: the ids they get), the targets of the result, whether it is a single result, not a list — client/view.py:576-606, 702-716 -/
def directCall (c : Client) (t : Target) (ids : Nat → Nat) : Except Err (List Client.Ev × List Int × Bool) :=
  match Client.buildTargets c t with
  | .error e => .error e
  | .ok (us, es) => .ok ((us.zipIdx).map (fun p => Client.Ev.send (.msg (ids p.2)) (some p.1)), es, match t with
    | .int _ => true
    | _ => false)

/-! ## Keyword arguments: `run` — view.py:720-743 calls `execute` with `label` -/

/-- the methods of views concerned — client/view.py:680, 720, 1019 -/
inductive Cls where
  | direct | broadcast
  deriving DecidableEq, Repr

/-- keyword parameters of `execute` — client/view.py:681, 1019 -/
def executeParams : Cls → List String
  | .direct => ["code", "silent", "targets", "block", "label"]
  | .broadcast => ["code", "silent", "targets", "block"]

/-- the keywords that `run` passes on — client/view.py:743 -/
def runPasses : List String := ["block", "targets", "label"]

/-- does `view.run(filename)` get as far as `execute`? (otherwise TypeError) — client/view.py:720-743 -/
def runAccepted (c : Cls) : Bool := runPasses.all (fun k => k ∈ executeParams c)

end IPP.ViewCalls
