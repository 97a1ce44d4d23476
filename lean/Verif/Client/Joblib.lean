/-!
# The joblib backend

`IPythonParallelBackend` (client/_joblib.py): what it opens and starts, what it gives back. Any
number of backends are made, used and terminated in any order. A cluster that a backend starts has
its own id, so other backends do not find it (cluster/cluster.py `Cluster.cluster_id`). joblib
terminates the backend at the end of every `Parallel` call that is not in a `with`.
-/
namespace IPP.Client.Joblib

/-- The steps of the constructor that can fail. -/
inductive Step where
  | startController
  | startEngines
  | connect
  | wait
  | pickle
deriving DecidableEq, Repr

/-- A backend, and the client and the cluster it made. -/
structure Backend where
  /-- `_client_owner` -/
  ownsClient : Bool
  /-- `_cluster_owner` -/
  ownsCluster : Bool
  /-- the client of its view is open -/
  clientOpen : Bool
  /-- the cluster it started is running -/
  clusterRunning : Bool
deriving DecidableEq, Repr

/-- `file`: the engine sets of the default cluster, if there is a cluster file. `userOpen`: the
client of the user's views is open. `made`: the backends, `none` where the constructor raised.
`leakedClients`, `leakedClusters`: what raising constructors left open. -/
structure St where
  file : Option Nat
  userOpen : Bool := true
  made : List (Option Backend) := []
  leakedClients : Nat := 0
  leakedClusters : Nat := 0
  /-- the outcomes of `apply_async`, oldest first: backend and whether it was accepted -/
  applied : List (Nat × Bool) := []
deriving Repr

/-- What the part of the constructor after the cluster is there leaves: raised with a client open
or not, or a client. (client/_joblib.py:30-46) -/
def connectPart (fails : Step → Bool) : Except Nat Unit :=
  if fails .connect then .error 0
  else if fails .wait then .error 1
  else if fails .pickle then .error 1
  else .ok ()

/-- `__init__` (client/_joblib.py:12-47). `start_cluster` starts the controller, then the
engines (cluster/cluster.py:769-783): when the engines fail, the controller runs. -/
def make (given : Bool) (fails : Step → Bool) (s : St) : St :=
  if given then { s with made := s.made ++ [some ⟨false, false, false, false⟩] }
  else match s.file with
    | none =>
      if fails .startController then { s with made := s.made ++ [none] }
      else if fails .startEngines then
        { s with made := s.made ++ [none], leakedClusters := s.leakedClusters + 1 }
      else match connectPart fails with
        | .error n => { s with made := s.made ++ [none], leakedClusters := s.leakedClusters + 1,
                               leakedClients := s.leakedClients + n }
        | .ok _ => { s with made := s.made ++ [some ⟨true, true, true, true⟩] }
    | some sets =>
      if sets = 0 ∧ fails .startEngines then { s with made := s.made ++ [none] }
      else
        let s := { s with file := some (if sets = 0 then 1 else sets) }
        match connectPart fails with
        | .error n => { s with made := s.made ++ [none], leakedClients := s.leakedClients + n }
        | .ok _ => { s with made := s.made ++ [some ⟨true, false, true, false⟩] }

/-- `terminate` of a backend (client/_joblib.py:53-58). `Client.close` of a closed client does
nothing (client/client.py:1391), nor does stopping a stopped cluster. -/
def Backend.terminate (b : Backend) : Backend :=
  let b := if b.ownsClient then { b with clientOpen := false } else b
  if b.ownsCluster then { b with clusterRunning := false } else b

/-- Whether `view.apply_async` is accepted: the client of the view is open.
(client/_joblib.py:60-65, client/client.py:1941) -/
def accepts (s : St) (b : Backend) : Bool := if b.ownsClient then b.clientOpen else s.userOpen

inductive Ev where
  | make (given : Bool) (fails : Step → Bool)
  | apply (i : Nat)
  | terminate (i : Nat)

def step (s : St) : Ev → St
  | .make given fails => make given fails s
  | .apply i => match s.made[i]? with
    | some (some b) => { s with applied := s.applied ++ [(i, accepts s b)] }
    | _ => s
  | .terminate i => { s with made := s.made.modify i (fun o => o.map Backend.terminate) }

def run (file : Option Nat) (h : List Ev) : St := h.foldl step { file := file }

end IPP.Client.Joblib
