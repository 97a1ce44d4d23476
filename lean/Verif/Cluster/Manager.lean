/-!
# The `ClusterManager`, and cleaning up cluster files

ipyparallel/cluster/cluster.py:919-1099 (`ClusterManager`, `clean_cluster_files`), :465-598 (`Cluster.from_dict`, `from_file`, `update_cluster_file`, `_is_running`), ipyparallel/util.py:656-663 (`abbreviate_profile_dir`).

Simplified: a process is a number and is alive or not; a launcher's state is `after` exactly if its process is not alive (how launchers get there: C47, C63); of a cluster only its directory, id, file, controller and engine sets are
modelled; a profile directory has cluster files (`security/cluster-*.json`), log files and connection files; directories with characters that are special to `glob` are not modelled; the file system does not fail.
-/
namespace IPP.Manager

/-- strings (paths, ids) of cluster/cluster.py:920-1099 -/
abbrev Text := List Char

/-- The path `{dir}/security/cluster-{name}.json`, as it is spelled. — cluster/cluster.py:146-150, 937-942 -/
structure Path where
  dir : Text
  name : Text
deriving DecidableEq, Repr

/-- what a cluster file says (`Cluster.to_dict`) — cluster/cluster.py:433-463 -/
structure Rec where
  dir : Text
  id : Text
  ctl : Option Nat
  sets : List (Nat × Nat)
deriving DecidableEq, Repr

/-- a `Cluster` object; `oid`: which object — cluster/cluster.py:76-108 -/
structure Obj where
  oid : Nat
  dir : Text
  id : Text
  file : Path
  ctl : Option Nat
  sets : List (Nat × Nat)
deriving DecidableEq, Repr

/-- processes and directories as seen by cluster/cluster.py:944-1099 -/
structure World where
  /-- `$IPYTHONDIR/profile_` -/
  pre : Text
  /-- `os.path.abspath` -/
  abs : Text → Text
  /-- the process is alive -/
  alive : Nat → Bool

/-- `abbreviate_profile_dir` — util.py:656-663 -/
def abbr (pre dir : Text) : Text := if pre <+: dir then dir.drop pre.length else dir

/-- `_cluster_key` — cluster.py:928-934 -/
def key (pre : Text) (dir id : Text) : Text := abbr pre dir ++ ':' :: id

/-- `_is_running` — cluster.py:577-583 -/
def Obj.running (w : World) (o : Obj) : Bool := (match o.ctl with | some c => w.alive c | none => false) || o.sets.any fun s => w.alive s.2

/-- the cluster files on disk, by absolute path; `none`: a file that cannot be loaded — cluster/cluster.py:937-942 -/
abbrev Disk := List (Path × Option Rec)

/-- reading a file — cluster/cluster.py:528-559 -/
def Disk.get? (d : Disk) (p : Path) : Option (Option Rec) := (d.find? fun e => e.1 = p).map (·.2)
/-- `os.remove` — cluster/cluster.py:568-575, 1046-1099 -/
def Disk.remove (d : Disk) (p : Path) : Disk := d.filter fun e => e.1 ≠ p
/-- cluster/cluster.py:561-566 -/
def Disk.write (d : Disk) (p : Path) (r : Rec) : Disk := d.map fun e => if e.1 = p then (p, some r) else e

/-- the manager and the disk — cluster/cluster.py:920-927 -/
structure St where
  clusters : List (Text × Obj) := []
  disk : Disk := []
  next : Nat := 0
deriving DecidableEq, Repr

/-- `os.path.abspath` — cluster/cluster.py:129-144 -/
def resolve (w : World) (p : Path) : Path := { p with dir := w.abs p.dir }

/-- `Cluster.from_file(p)` — cluster.py:528-559, :465-525. `none`: it raises. Otherwise the object and the disk afterwards: the file is written again, or removed, if something that it names is not running any more. -/
def fromFile (w : World) (disk : Disk) (next : Nat) (p : Path) : Option (Obj × Disk) :=
  match disk.get? (resolve w p) with
  | some (some r) =>
    let ctl := match r.ctl with | some c => if w.alive c then some c else none | none => none
    let sets := r.sets.filter fun s => w.alive s.2
    let o : Obj := { oid := next, dir := w.abs r.dir, id := r.id, file := p, ctl := ctl, sets := sets }
    let r' : Rec := { dir := w.abs r.dir, id := r.id, ctl := ctl, sets := sets }
    let disk' := if r' = r then disk else if o.running w then disk.write (resolve w p) r' else disk.remove (resolve w p)
    some (o, disk')
  | _ => none

/-- `self.clusters[key] = cluster` — cluster/cluster.py:944-1034 -/
def assign (l : List (Text × Obj)) (k : Text) (o : Obj) : List (Text × Obj) :=
  if l.any (fun e => e.1 = k) then l.map fun e => if e.1 = k then (k, o) else e else l ++ [(k, o)]

/-- `_cluster_files_in_profile_dir(dir)` — cluster.py:936-942: paths as the directory is spelled -/
def filesIn (w : World) (disk : Disk) (dir : Text) : List Path := (disk.filter fun e => e.1.dir = w.abs dir).map fun e => { dir := dir, name := e.1.name }

/-- cluster.py:1011-1023 for one file -/
def loadFile (w : World) (byFile : List Path) (s : St) (p : Path) : St :=
  if p ∈ byFile then s
  else match fromFile w s.disk s.next p with
    | none => s
    | some (o, disk) => { clusters := assign s.clusters (key w.pre o.dir o.id) o, disk := disk, next := s.next + 1 }

/-- cluster.py:1000-1023 for one profile directory -/
def loadDir (w : World) (init : Bool) (byFile : List Path) (s : St) (dir : Text) : St :=
  let files := filesIn w s.disk dir
  let s := if init ∧ files = [] then
      let k := key w.pre (w.abs dir) []
      if s.clusters.any (fun e => e.1 = k) then { s with next := s.next + 1 }
      else { s with clusters := s.clusters ++ [(k, { oid := s.next, dir := w.abs dir, id := [], file := ⟨w.abs dir, []⟩, ctl := none, sets := [] })], next := s.next + 1 }
    else s
  files.foldl (loadFile w byFile) s

/-- `load_clusters(profile_dirs=dirs, init_default_clusters=init)` — cluster.py:944-1025 -/
def loadClusters (w : World) (dirs : List Text) (init : Bool) (s : St) : St :=
  let kept := s.clusters.filter fun e => !(e.2.ctl.isSome && !e.2.running w)
  let byFile := kept.map (·.2.file)
  dirs.foldl (loadDir w init byFile) { s with clusters := kept }

/-- `new_cluster(profile_dir=dir, cluster_id=id)` — cluster.py:1027-1034. `none`: KeyError. -/
def newCluster (w : World) (dir id : Text) (s : St) : Option (Text × St) :=
  let k := key w.pre (w.abs dir) id
  if s.clusters.any (fun e => e.1 = k) then none
  else some (k, { s with clusters := s.clusters ++ [(k, { oid := s.next, dir := w.abs dir, id := id, file := ⟨w.abs dir, id⟩, ctl := none, sets := [] })], next := s.next + 1 })

/-- `get_cluster` — cluster.py:1036-1038 -/
def getCluster (s : St) (k : Text) : Option Obj := (s.clusters.find? fun e => e.1 = k).map (·.2)

/-- `remove_cluster` — cluster.py:1040-1043. `none`: KeyError. -/
def removeCluster (s : St) (k : Text) : Option St := if s.clusters.any (fun e => e.1 = k) then some { s with clusters := s.clusters.filter fun e => e.1 ≠ k } else none

/-! ## Cleaning up -/

/-- how `clean_cluster_files` ends — cluster/cluster.py:1046-1099 -/
inductive Outcome where
  | done
  /-- ValueError: a cluster is running -/
  | running (p : Path)
  /-- AttributeError: `log` is None and a file could not be removed -/
  | noLog
deriving DecidableEq, Repr

/-- the disk with log and connection files, by directory — cluster/cluster.py:1046-1099 -/
structure Files where
  disk : Disk
  logs : List (Text × Nat)
  conns : List (Text × Nat)
deriving DecidableEq, Repr

/-- `_remove(f)` for a cluster file — cluster.py:1063-1069 -/
def rmFile (log : Bool) (d : Disk) (p : Path) : Disk × Outcome :=
  if (d.get? p).isSome then (d.remove p, .done) else (d, if log then .done else .noLog)

/-- the body of cluster.py:1074-1093 -/
def cleanFile (w : World) (log force : Bool) (d : Disk) (p : Path) : Disk × Outcome :=
  if force then rmFile log d (resolve w p)
  else match fromFile w d 0 p with
    | none => rmFile log d (resolve w p)
    | some (o, d') => if o.running w then (d', .running p) else rmFile log d' (resolve w p)

/-- the loop over the cluster files of a directory; it ends at the first exception — cluster/cluster.py:1046-1099 -/
def cleanLoop (w : World) (log force : Bool) : Disk → List Path → Disk × Outcome
  | d, [] => (d, .done)
  | d, p :: l => match cleanFile w log force d p with
    | (d', .done) => cleanLoop w log force d' l
    | r => r

/-- `clean_cluster_files(dirs, log=…, force=…)` — cluster.py:1046-1099 -/
def clean (w : World) (log force : Bool) : Files → List Text → Files × Outcome
  | f, [] => (f, .done)
  | f, dir :: l => match cleanLoop w log force f.disk (filesIn w f.disk dir) with
    | (d, .done) => clean w log force { disk := d, logs := f.logs.filter fun e => e.1 ≠ w.abs dir, conns := f.conns.filter fun e => e.1 ≠ w.abs dir } l
    | (d, r) => ({ f with disk := d }, r)

/-! ## Specification -/

/-- something that the file names is alive -/
def Rec.live (w : World) (r : Rec) : Prop := (∃ c, r.ctl = some c ∧ w.alive c = true) ∨ ∃ s ∈ r.sets, w.alive s.2 = true

/-- an absolute directory with an ordinary profile name, and an id without colon -/
def Good (w : World) (dir id : Text) : Prop := (∃ d, dir = '/' :: d) ∧ (∀ n, dir ≠ w.pre ++ '/' :: n) ∧ ':' ∉ id

/-- The usual circumstances: directories are spelled absolutely, every file is where its cluster put it, there is one file of a name, and names of profiles do not begin with a slash, cluster ids have no colon. -/
structure Usual (w : World) (s : St) : Prop where
  placed : ∀ p r, (p, some r) ∈ s.disk → p.dir = r.dir ∧ p.name = r.id
  abs : ∀ p r, (p, some r) ∈ s.disk → w.abs r.dir = r.dir
  once : (s.disk.map (·.1)).Nodup
  good : ∀ p r, (p, some r) ∈ s.disk → Good w r.dir r.id
  objs : ∀ k o, (k, o) ∈ s.clusters → k = key w.pre o.dir o.id ∧ o.file = ⟨o.dir, o.id⟩ ∧ w.abs o.dir = o.dir ∧ Good w o.dir o.id
  keys : (s.clusters.map (·.1)).Nodup
  fresh : ∀ k o, (k, o) ∈ s.clusters → o.oid < s.next

end IPP.Manager
