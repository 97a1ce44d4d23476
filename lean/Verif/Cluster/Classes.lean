/-!
# Launcher classes: names, registration, and the class kept in the cluster file

`find_launcher_class` and `abbreviate_launcher_class` (cluster/launcher.py:2491-2530),
the `Launcher` trait (traitlets.py:9-50), what `Cluster.to_dict` writes about the launcher
classes and what `Cluster.from_dict` makes of it (cluster/cluster.py:432-520), and the
registration shipped with ipyparallel (pyproject.toml:48-71).

Texts are lists of characters.
-/
namespace IPP.Cluster.Classes

abbrev Text := List Char

/-- A Python class, as far as these functions look at it: `__module__`, `__name__`, what
`getattr(cls, 'entrypoint_name', None)` gives (the empty text for None or for `''`, which
are both false; an inherited attribute counts, as for any getattr), and whether it is a
subclass of `BaseLauncher`.
(cluster/launcher.py:2516-2522, traitlets.py:16-19)
Two classes with the same values of all of these are taken to be the same class. -/
structure Cls where
  module : Text
  name : Text
  entrypointName : Text := []
  isLauncher : Bool := true
deriving DecidableEq, Repr

/-- `f"{cls.__module__}:{cls.__name__}"` (cluster/launcher.py:2518). -/
def Cls.key (c : Cls) : Text := c.module ++ ':' :: c.name

/-- The usual full name, `package.module.Class`, by which a class can be imported. -/
def Cls.dotted (c : Cls) : Text := c.module ++ '.' :: c.name

/-- An entry point: its name and its value `module:attr` (pyproject.toml:48-71). -/
structure Entry where
  name : Text
  value : Text
deriving DecidableEq, Repr

/-- The two groups of entry points, in the order in which `entry_points` lists them
(pyproject.toml:48, 60). -/
structure Reg where
  controller : List Entry
  engine : List Entry
deriving Repr

/-- Which of the two traits of `Cluster` (cluster/cluster.py:179-182, 205-207), or which
`kind` given to `find_launcher_class` (cluster/launcher.py:2503-2508). -/
inductive Kind where
  | controller
  | engine
deriving DecidableEq, Repr

/-- The entry points of a group (cluster/launcher.py:2503-2509). -/
def Reg.group (r : Reg) : Kind → List Entry
  | .controller => r.controller
  | .engine => r.engine

/-- `str.lower()`. Simplified: only the 26 letters have two cases (entry point names are
almost always ASCII). -/
def lower (s : Text) : Text := s.map Char.toLower

/-- `{entrypoint.name.lower(): entrypoint for entrypoint in group}[name.lower()]`: of entry
points with the same key, the last one stays.
(cluster/launcher.py:2511-2512, traitlets.py:35-46) -/
def lookup (g : List Entry) (name : Text) : Option Entry :=
  g.reverse.find? (fun e => lower e.name == lower name)

/-- `entrypoint.load()`: import the module, get the attribute. `ws` are the classes that
exist, each an attribute of its module (so classes defined inside functions or other
classes are left out).  (cluster/launcher.py:2512, traitlets.py:47) -/
def loadValue (ws : List Cls) (v : Text) : Option Cls :=
  ws.find? (fun c => c.key == v)

/-- traitlets' `import_item(name)`, as far as classes are concerned: the part up to the last
dot is a module, the rest an attribute of it. (`Type._resolve_string`, used by
`super().validate` of traitlets.py:48) -/
def importItem (ws : List Cls) (s : Text) : Option Cls :=
  ws.find? (fun c => c.dotted == s)

/-- The exceptions of these functions. -/
inductive Err where
  | keyError
  | valueError
  /-- the entry point names something that is not there -/
  | loadError
  | traitError
deriving DecidableEq, Repr

/-- `find_launcher_class(name, kind)`; a kind that is neither 'engine' nor 'controller' is
`none`. (cluster/launcher.py:2491-2512) -/
def findLauncherClass (ws : List Cls) (r : Reg) (name : Text) (kind : Option Kind) :
    Except Err Cls :=
  match kind with
  | none => .error .valueError
  | some k =>
    match lookup (r.group k) name with
    | none => .error .keyError
    | some e =>
      match loadValue ws e.value with
      | none => .error .loadError
      | some c => .ok c

/-- `abbreviate_launcher_class(cls)`. The `lru_cache` is left out: the installed entry
points do not change while the process runs. (cluster/launcher.py:2515-2530) -/
def abbreviate (r : Reg) (c : Cls) : Text :=
  if c.entrypointName ≠ [] then c.entrypointName
  else
    match (r.controller ++ r.engine).find? (fun e => e.value == c.key) with
    | some e => lower e.name
    | none => c.key

/-- A value assigned to one of the traits: a string or a class. -/
inductive Val where
  | str (s : Text)
  | cls (c : Cls)
deriving Repr

/-- `Type.validate` of traitlets for a class: it has to be a subclass of `klass`, here
`BaseLauncher` (traitlets.py:18, 48). -/
def checkSubclass (c : Cls) : Except Err Cls :=
  if c.isLauncher then .ok c else .error .traitError

/-- `Type.validate` of traitlets for a string: import it. (traitlets.py:48) -/
def resolveString (ws : List Cls) (s : Text) : Except Err Cls :=
  match importItem ws s with
  | none => .error .traitError
  | some c => checkSubclass c

/-- `Launcher.validate`: what an assignment to `controller_launcher_class` or
`engine_launcher_class` makes of the value. (traitlets.py:41-48) -/
def validate (ws : List Cls) (r : Reg) (k : Kind) : Val → Except Err Cls
  | .cls c => checkSubclass c
  | .str s =>
    match lookup (r.group k) s with
    | none => resolveString ws s
    | some e =>
      match loadValue ws e.value with
      | none => .error .loadError
      | some c => checkSubclass c

/-- The launcher classes of a `Cluster` and whether its controller runs
(`self.controller and self.controller.state != 'after'`, cluster/cluster.py:444). -/
structure St where
  running : Bool
  controller : Cls
  engine : Cls
deriving DecidableEq, Repr

/-- What the cluster file says about them (cluster/cluster.py:444-458). -/
structure Saved where
  controller : Option Text
  engine : Text
deriving DecidableEq, Repr

/-- `Cluster.to_dict`, the `"class"` fields (cluster/cluster.py:444-458). -/
def toDict (r : Reg) (st : St) : Saved :=
  { controller := if st.running then some (abbreviate r st.controller) else none
    engine := abbreviate r st.engine }

/-- `Cluster.from_dict`, the launcher classes: the controller's first, then the engines'; an
exception of the trait leaves `from_dict`. `dflt` is the default of
`controller_launcher_class`. (cluster/cluster.py:485-507) -/
def fromDict (ws : List Cls) (r : Reg) (dflt : Cls) (d : Saved) : Except Err St := do
  let ctl ← match d.controller with
    | none => pure dflt
    | some s => validate ws r .controller (.str s)
  let eng ← validate ws r .engine (.str d.engine)
  pure { running := d.controller.isSome, controller := ctl, engine := eng }

/-- The module of the shipped launchers (pyproject.toml:48-71). -/
def shippedModule : Text := "ipyparallel.cluster.launcher".toList

/-- One line of pyproject.toml:48-71. -/
def shippedEntry (n v : String) : Entry :=
  ⟨n.toList, shippedModule ++ ':' :: v.toList⟩

/-- pyproject.toml:48-71, in its order. -/
def shipped : Reg :=
  { controller :=
      [ shippedEntry "batch" "BatchControllerLauncher",
        shippedEntry "htcondor" "HTCondorControllerLauncher",
        shippedEntry "local" "LocalControllerLauncher",
        shippedEntry "lsf" "LSFControllerLauncher",
        shippedEntry "mpi" "MPIControllerLauncher",
        shippedEntry "pbs" "PBSControllerLauncher",
        shippedEntry "sge" "SGEControllerLauncher",
        shippedEntry "ssh" "SSHControllerLauncher",
        shippedEntry "slurm" "SlurmControllerLauncher",
        shippedEntry "winhpc" "WindowsHPCControllerLauncher" ]
    engine :=
      [ shippedEntry "batch" "BatchEngineSetLauncher",
        shippedEntry "htcondor" "HTCondorEngineSetLauncher",
        shippedEntry "local" "LocalEngineSetLauncher",
        shippedEntry "lsf" "LSFEngineSetLauncher",
        shippedEntry "mpi" "MPIEngineSetLauncher",
        shippedEntry "pbs" "PBSEngineSetLauncher",
        shippedEntry "sge" "SGEEngineSetLauncher",
        shippedEntry "slurm" "SlurmEngineSetLauncher",
        shippedEntry "ssh" "SSHEngineSetLauncher",
        shippedEntry "sshproxy" "SSHProxyEngineSetLauncher",
        shippedEntry "winhpc" "WindowsHPCEngineSetLauncher" ] }

end IPP.Cluster.Classes
