import Verif.Cluster.Manager
/-!
# The web service for clusters (Jupyter server extension)

ipyparallel/nbextension/handlers.py (list, create, read, start and stop clusters), over the manager of `Cluster/Manager.lean`; cluster/cluster.py:561-598 (`update_cluster_file`), 770-788 (`start_cluster`), 790-812 and 858-875
(`stop_cluster`); lab/src/clusters.tsx:513-542 (which address JupyterLab asks for).

The server is one event loop: a handler runs until it awaits. Deleting a cluster waits for its processes to end, and other requests are handled meanwhile.

Simplified: starting a cluster is one step (its waiting for the connection files is C95); authentication, the log, extra fields of the body, and the launcher classes in the models are left out; a controller that is to stop ends at
some time (C47); a name of a profile stands for the directory `$IPYTHONDIR/profile_{name}`.
-/
namespace IPP.Manager

/-- a value in the JSON body of a request — handlers.py:98-110, 140-142 -/
inductive Json where
  | null
  | str (t : Text)
  | int (n : Int)
  /-- lists and dicts (which cannot be in a set) -/
  | tree
  /-- other numbers, true and false are not distinguished -/
  | number
deriving DecidableEq, Repr

/-- the body of `POST /clusters`; `none`: the field is missing — handlers.py:97-110 -/
structure Body where
  profile : Option Json := none
  clusterId : Option Json := none
  n : Option Json := none
deriving DecidableEq, Repr

/-- `cluster_model` — handlers.py:30-47, cluster.py:433-463 -/
structure Model where
  id : Text
  profile : Text
  clusterId : Text
  /-- there is a field `controller` -/
  running : Bool
  n : Nat
  file : Path
deriving DecidableEq, Repr

/-- an answer of the server — handlers.py -/
inductive Resp where
  | list (l : List Model)
  | one (m : Model)
  | noContent
  | notFound
  | badRequest
  /-- 500: the handler raised -/
  | serverError
deriving DecidableEq, Repr

/-- `$IPYTHONDIR/profile_`, `os.path.abspath`, and the profile directory of a cluster for which none is given — util.py:656-701 -/
structure Conf where
  pre : Text
  abs : Text → Text
  dflt : Text

/-- a `DELETE` that waits for the processes of the cluster — handlers.py:151-156 -/
structure Job where
  r : Nat
  key : Text
  obj : Obj
deriving DecidableEq, Repr

/-- the server: the manager, which processes are alive, and the requests that wait — handlers.py:175-186 -/
structure Srv where
  m : St := {}
  alive : Nat → Bool := fun _ => false
  jobs : List Job := []

/-- what the manager sees — cluster/cluster.py:944-1099 -/
def Srv.w (c : Conf) (s : Srv) : World := ⟨c.pre, c.abs, s.alive⟩

/-- `cluster_model(key, cluster)`: launchers whose process has ended are not in `to_dict` — handlers.py:30-47 -/
def model (w : World) (k : Text) (o : Obj) : Model :=
  { id := k, profile := abbr w.pre o.dir, clusterId := o.id,
    running := match o.ctl with
      | some p => w.alive p
      | none => false
    n := ((o.sets.filter fun s => w.alive s.2).map (·.1)).sum, file := o.file }

/-- the profile `default` — handlers.py:74 -/
def Model.isDefault (a : Model) : Bool := a.profile = "default".toList

/-- the default cluster id — handlers.py:75 -/
def Model.noId (a : Model) : Bool := a.clusterId = []

/-- the order of `sort_key`: tuples of not running, not default profile, not default cluster id, profile, id — handlers.py:62-82 -/
def Model.le (a b : Model) : Bool :=
  if a.running ≠ b.running then a.running
  else if a.isDefault ≠ b.isDefault then a.isDefault
  else if a.noId ≠ b.noId then a.noId
  else if a.profile ≠ b.profile then a.profile < b.profile
  else a.clusterId ≤ b.clusterId

/-- where a model goes that came before the others — handlers.py:84-95 -/
def insertBy (a : Model) : List Model → List Model
  | [] => [a]
  | b :: l => if a.le b then a :: b :: l else b :: insertBy a l

/-- `sorted(…, key=sort_key)`, which is stable — handlers.py:84-95 -/
def sorted (l : List Model) : List Model := l.foldr insertBy []

/-- `GET /clusters`; `dirs`: the profile directories there are — handlers.py:57-95 -/
def getList (c : Conf) (s : Srv) (dirs : List Text) : Srv × Resp :=
  let m := loadClusters (s.w c) dirs true s.m
  ({ s with m := m }, .list (sorted (m.clusters.map fun e => model (s.w c) e.1 e.2)))

/-- `body[key] in {None, ''}`: `none` is TypeError — handlers.py:101-103 -/
def empty : Json → Option Bool
  | .null => some true
  | .str t => some (t = [])
  | .tree => none
  | _ => some false

/-- clearing null values — handlers.py:101-103 -/
def clear : Option Json → Option (Option Json)
  | none => some none
  | some j => (empty j).map fun b => if b then none else some j

/-- `POST /clusters`; `rnd`: the random id that a cluster without id gets — handlers.py:97-118, cluster.py:107-111 -/
def create (c : Conf) (s : Srv) (b : Body) (rnd : Text) : Srv × Resp :=
  match clear b.profile, clear b.clusterId, clear b.n with
  | some p, some i, some n =>
    match p, i, n with
    | some (.str p), i, n =>
      if '/' ∈ p then make c s p i n rnd
      else
        let i := match i with
          | none => if (getCluster s.m (p ++ [':'])).isNone then some (.str []) else none
          | some i => some i
        make c s (c.pre ++ p) i n rnd
    | none, i, n => make c s c.dflt i n rnd
    | some _, _, _ => (s, .serverError)
  | _, _, _ => (s, .serverError)
where
  /-- `new_cluster(…)`: traits refuse other types, a key in use raises KeyError -/
  make (c : Conf) (s : Srv) (dir : Text) (i n : Option Json) (rnd : Text) : Srv × Resp :=
    match i, n with
    | some (.int _), _ | some .null, _ | some .tree, _ | some .number, _ => (s, .serverError)
    | _, some (.str _) | _, some .null | _, some .tree | _, some .number => (s, .serverError)
    | i, _ =>
      let id := match i with
        | some (.str t) => t
        | _ => rnd
      match newCluster (s.w c) dir id s.m with
      | none => (s, .serverError)
      | some (k, m) => match getCluster m k with
        | some o => ({ s with m := m }, .one (model (s.w c) k o))
        | none => (s, .serverError)

/-- `GET /clusters/{key}` — handlers.py:130-134, 147-150 -/
def getOne (c : Conf) (s : Srv) (k : Text) : Resp := match getCluster s.m k with
  | none => .notFound
  | some o => .one (model (s.w c) k o)

/-- the object that `oid` stands for is changed wherever the manager has it — cluster.py (references to one `Cluster`) -/
def setObj (l : List (Text × Obj)) (o : Obj) : List (Text × Obj) := l.map fun e => if e.2.oid = o.oid then (e.1, o) else e

/-- writing a cluster file — cluster.py:561-566 -/
def put (d : Disk) (p : Path) (r : Rec) : Disk := if d.any (fun e => e.1 = p) then d.write p r else d ++ [(p, some r)]

/-- `update_cluster_file` — cluster.py:585-598 -/
def save (w : World) (d : Disk) (o : Obj) : Disk :=
  if o.running w then
    put d (resolve w o.file) { dir := o.dir, id := o.id
                               ctl := match o.ctl with
                                 | some p => if w.alive p then some p else none
                                 | none => none
                               sets := o.sets.filter fun s => w.alive s.2 }
  else d.remove (resolve w o.file)

/-- `start_cluster(n)` of the cluster, with `p` the process of a controller and `q` that of an engine set — cluster.py:770-788, 600-720 -/
def startObj (o : Obj) (n p q : Nat) : Obj :=
  { o with ctl := match o.ctl with
             | some p => some p
             | none => some p
           sets := o.sets ++ [(n, q)] }

/-- `POST /clusters/{key}`; `dn`: the number of engines if none is given — handlers.py:136-145 -/
def start (c : Conf) (s : Srv) (k : Text) (n : Option Json) (dn p q : Nat) : Srv × Resp :=
  match getCluster s.m k with
  | none => (s, .notFound)
  | some o =>
    match n with
    | some (.str _) | some .tree | some .number => (s, .badRequest)
    | n =>
      let num := match n with
        | some (.int i) => i.toNat
        | _ => dn
      let o' := startObj o num p q
      let alive := fun x => x = q || (o.ctl.isNone && x = p) || s.alive x
      let s' := { s with alive := alive }
      let s' := { s' with m := { s.m with clusters := setObj s.m.clusters o', disk := save (s'.w c) s.m.disk o' } }
      (s', .one (model (s'.w c) k o'))

/-- the processes of a cluster — cluster.py:577-583 -/
def Obj.pids (o : Obj) : List Nat := o.ctl.toList ++ o.sets.map (·.2)

/-- `DELETE /clusters/{key}` until it waits — handlers.py:151-154 -/
def deleteBegin (s : Srv) (r : Nat) (k : Text) : Srv × Option Resp := match getCluster s.m k with
  | none => (s, some .notFound)
  | some o => ({ s with jobs := s.jobs ++ [⟨r, k, o⟩] }, none)

/-- the object as it is now -/
def now (s : Srv) (j : Job) : Obj := match s.m.clusters.find? fun e => e.2.oid = j.obj.oid with
  | some e => e.2
  | none => j.obj

/-- the end of `stop_controller` — cluster.py:858-870 -/
def ctlStopped (c : Conf) (s : Srv) (r : Nat) : Srv := match s.jobs.find? fun j => j.r = r with
  | none => s
  | some j =>
    if j.obj.ctl.toList.any s.alive then s
    else
      let o := { now s j with ctl := none }
      { s with m := { s.m with clusters := setObj s.m.clusters o, disk := save (s.w c) s.m.disk o } }

/-- the end of `stop_cluster`, and the rest of the handler — handlers.py:154-156, cluster.py:790-812, 872-875. It is not reached while a process that is to be stopped is alive. -/
def deleteEnd (c : Conf) (s : Srv) (r : Nat) : Srv × Option Resp := match s.jobs.find? fun j => j.r = r with
  | none => (s, none)
  | some j =>
    if j.obj.pids.any s.alive then (s, none)
    else
      let o := { now s j with ctl := none, sets := (now s j).sets.filter fun x => x ∉ j.obj.sets }
      let m := { s.m with clusters := setObj s.m.clusters o, disk := save (s.w c) s.m.disk o }
      let s' := { s with m := m, jobs := s.jobs.filter fun x => x.r ≠ r }
      match removeCluster m j.key with
      | none => (s', some .serverError)
      | some m' => ({ s' with m := m' }, some .noContent)

/-- what happens to the server — handlers.py, cluster.py:655-666, 716-725 -/
inductive WEv where
  | list (dirs : List Text)
  | create (b : Body) (rnd : Text)
  | get (k : Text)
  | start (k : Text) (n : Option Json) (dn p q : Nat)
  | deleteBegin (r : Nat) (k : Text)
  | ctlStopped (r : Nat)
  | deleteEnd (r : Nat)
  /-- a process ends -/
  | dies (p : Nat)
  /-- the launchers of a cluster notice: `update_cluster_file` -/
  | noticed (k : Text)

/-- one step of the event loop, and the answer if there is one -/
def wstep (c : Conf) (s : Srv) : WEv → Srv × Option Resp
  | .list dirs => ((getList c s dirs).1, some (getList c s dirs).2)
  | .create b rnd => ((create c s b rnd).1, some (create c s b rnd).2)
  | .get k => (s, some (getOne c s k))
  | .start k n dn p q => ((start c s k n dn p q).1, some (start c s k n dn p q).2)
  | .deleteBegin r k => deleteBegin s r k
  | .ctlStopped r => (ctlStopped c s r, none)
  | .deleteEnd r => deleteEnd c s r
  | .dies p => ({ s with alive := fun x => x ≠ p && s.alive x }, none)
  | .noticed k => (match getCluster s.m k with
    | some o => { s with m := { s.m with disk := save (s.w c) s.m.disk o } }
    | none => s, none)

/-- a history of the server, from the disk it finds — handlers.py:175-186 -/
def wrun (c : Conf) (disk : Disk) (alive : Nat → Bool) (evs : List WEv) : Srv := evs.foldl (fun s e => (wstep c s e).1) { m := { disk := disk }, alive := alive }

/-! ## Addresses -/

/-- the pattern `[^\/]+` of the address, matched before `%` escapes are undone — handlers.py:162-172 -/
def route (seg : Text) : Option Text := if seg ≠ [] ∧ '/' ∉ seg then some seg else none

/-- what is left of the address that JupyterLab asks for: the id as it is, in which a browser takes `?` and `#` as the end of the path — lab/src/clusters.tsx:513-542 -/
def labSegment (id : Text) : Text := id.takeWhile fun x => x ≠ '?' ∧ x ≠ '#'

end IPP.Manager
