/-!
# `with Cluster() as rc` and `async with Cluster() as rc`

The context managers of `Cluster` (cluster/cluster.py:894-916) with `start_and_connect` (724-767),
`stop_engines` and `stop_controller`. Launchers are running or not; steps may raise.
-/
namespace IPP.Cluster.Context

/-- An engine set that the cluster holds. -/
structure EngineSet where
  id : Nat
  running : Bool
deriving DecidableEq, Repr

/-- `controller`: the launcher the cluster holds, and whether it runs. `clients`: the clients
connected by the cluster, and whether each is open. `registered`: the number of engines that open
clients know. `context`: `_context_client`. -/
structure St where
  controller : Option Bool := none
  sets : List EngineSet := []
  clients : List Bool := []
  registered : Nat := 0
  context : Option Nat := none
  /-- ids of engine sets are new (cluster/cluster.py:671-678) -/
  next : Nat := 0
deriving DecidableEq, Repr

/-- What can raise in `start_and_connect`. -/
inductive Step where
  | controller
  | engines
  | connect
  | wait
deriving DecidableEq, Repr

/-- `start_engines`: the set is held before it is started (cluster/cluster.py:688-713). -/
def startEngines (fails : Bool) (n : Nat) (s : St) : Except St St :=
  let s' (r : Bool) : St := { s with sets := s.sets ++ [⟨s.next, r⟩], next := s.next + 1 }
  if fails then .error (s' false) else .ok { s' true with registered := s.registered + n }

/-- `start_cluster`, `start_controller` (cluster/cluster.py:769-783, 615-660): the launcher is held
before it is started. -/
def startCluster (fails : Step → Bool) (n : Nat) (s : St) : Except St St :=
  match s.controller with
  | none =>
    if fails .controller then .error { s with controller := some false }
    else startEngines (fails .engines) n { s with controller := some true }
  | some _ => startEngines (fails .engines) n s

/-- `__enter__`, `__aenter__` (cluster/cluster.py:897-899, 908-910) with `start_and_connect`
(748-767). `.error`: it raises, and Python does not call `__exit__`. -/
def enter (fails : Step → Bool) (n : Nat) (s : St) : Except St St :=
  match startCluster fails n s with
  | .error s => .error s
  | .ok s =>
    if fails .connect then .error s
    else
      let s' := { s with clients := s.clients ++ [true] }
      if fails .wait then .error s'
      else .ok { s' with context := some s.clients.length }

/-- `client.close()`. -/
def close (c : Nat) (s : St) : St := { s with clients := s.clients.set c false }

/-- `stop_engines()`: all sets at once; a set whose stop raises stays, and `gather` raises.
(cluster/cluster.py:785-805) -/
def stopEngines (fails : Nat → Bool) (s : St) : Except St St :=
  let s' := { s with sets := s.sets.filter (fun e => fails e.id) }
  if s.sets.any (fun e => fails e.id) then .error s' else .ok { s' with registered := 0 }

/-- `stop_controller` (cluster/cluster.py:857-870). -/
def stopController (fails : Bool) (s : St) : Except St St :=
  if s.controller = some true ∧ fails then .error s else .ok { s with controller := none }

/-- The first part of `__exit__` and `__aexit__`. `async`: `is not None`; otherwise the truth of
the client, which has a `__len__`: the number of its engines.
(cluster/cluster.py:902-904, 913-915; client/client.py:1332) -/
def closeContext (async : Bool) (s : St) : St :=
  match s.context with
  | none => s
  | some c =>
    if async || s.registered ≠ 0 then { close c s with context := none } else s

/-- `__aexit__`, `__exit__` (cluster/cluster.py:901-906, 912-917). -/
def exit (async : Bool) (failSet : Nat → Bool) (failController : Bool) (s : St) : Except St St :=
  match stopEngines failSet (closeContext async s) with
  | .error s => .error s
  | .ok s => stopController failController s

/-- What happens in the block. -/
inductive Body where
  /-- engines register or go -/
  | registered (n : Nat)
  | startEngines (fails : Bool) (n : Nat)
  /-- an engine set ends by itself; the cluster keeps it -/
  | died (id : Nat)
  | controllerDied
  /-- `connect_client()` of the user -/
  | connect
  | close (c : Nat)

def bodyStep (s : St) : Body → St
  | .registered n => { s with registered := n }
  | .startEngines fails n => match startEngines fails n s with
    | .ok s => s
    | .error s => s
  | .died i => { s with sets := s.sets.map (fun e => if e.id = i then { e with running := false } else e) }
  | .controllerDied => { s with controller := s.controller.map (fun _ => false) }
  | .connect => { s with clients := s.clients ++ [true] }
  | .close c => close c s

def body (l : List Body) (s : St) : St := l.foldl bodyStep s

end IPP.Cluster.Context
