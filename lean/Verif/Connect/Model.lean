import Verif.Ports.Props
import Verif.Broadcast.Tree

/-!
# Model of how controller, engines and clients find each other (C78)

* `util.py:188-278`: `split_url`, `disambiguate_ip_address`, `disambiguate_url`;
* `controller/app.py:626-760` (`construct_url`, the connection files), `762-945` (`init_hub`), `997-1160` (the sockets of the schedulers), `1247` (clean exit);
* `engine/app.py:374-425` (`load_connection_file`), `466-520` (`connect`), `620-655, 757-762` (the addresses);
* `client/client.py:479-515, 730-790`;
* `cluster/launcher.py:368-415` (`get_connection_info`).

A string is a list of characters. Simplifications: ports are natural numbers; JSON is abstract (what is read from a completely written file is what was written, a file that was only begun does not parse); ssh tunnels are left out (they forward to the same addresses); the regular-expression test `is_ip` (util.py:199-204, its arguments are swapped) is an arbitrary function.
-/
namespace IPP.Conn

/-- strings of controller/app.py, engine/app.py and client/client.py -/
abbrev Str := List Char

/-- `s.split('://')`; the number counts the characters of a separator that are still to be skipped — Python's `split`, used by util.py:188-197, 264-284 -/
def splitSchemeFrom : Nat → Str → List Str
  | _, [] => [[]]
  | k + 1, _ :: r => splitSchemeFrom k r
  | 0, c :: r =>
    if c = ':' ∧ r.take 2 = ['/', '/'] then [] :: splitSchemeFrom 2 r
    else match splitSchemeFrom 0 r with
      | [] => [[c]]
      | w :: ws => (c :: w) :: ws

/-- util.py:188-197, 264-284 -/
def splitScheme (s : Str) : List Str := splitSchemeFrom 0 s

/-- util.py:188-197, 264-284 -/
def schemeSep : Str := [':', '/', '/']

/-- f"{proto}://{addr}" — util.py:264-284 -/
def joinScheme (proto addr : Str) : Str := proto ++ schemeSep ++ addr

/-- `split_url` — util.py:188-196; `none`: AssertionError -/
def splitUrl (url : Str) : Option (Str × Str × Str) := match splitScheme url with
  | [proto, addr] => match Ports.split ':' addr with
    | [a, p] => some (proto, a, p)
    | _ => none
  | _ => none

/-- util.py:223-262 -/
def star : Str := ['*']
/-- util.py:223-262 -/
def zeros : Str := ['0', '.', '0', '.', '0', '.', '0']

/-- what a process knows about its own machine -/
structure Machine where
  /-- `localhost()` -/
  localhost : Str
  /-- `socket.gethostname()` -/
  hostname : Str
  /-- `ip_for_host` — util.py:208-220 -/
  resolve : Str → Str
  /-- `public_ips()` -/
  publicIps : List Str
  /-- `is_ip` — util.py:199-204 -/
  isIp : Str → Bool

/-- util.py:250-261: the last part of `disambiguate_ip_address` -/
def chooseIp (m : Machine) (location : Str) : Str := if location ∈ m.publicIps then m.localhost else location

/-- `disambiguate_ip_address` — util.py:223-261; no location and an empty location are the same -/
def disambiguateIp (m : Machine) (ip location : Str) : Str :=
  if ip = zeros ∨ ip = star then
    if location = [] then m.localhost
    else if m.isIp location = false then
      if location = m.hostname then m.localhost else chooseIp m (m.resolve location)
    else chooseIp m location
  else ip

/-- `disambiguate_url` — util.py:264-278 -/
def disambiguateUrl (m : Machine) (url location : Str) : Str := match splitUrl url with
  | none => url
  | some (proto, ip, port) => joinScheme proto (disambiguateIp m ip location ++ ':' :: port)

/-! ## connection info -/

/-- `engine_info` — app.py:779-792 -/
structure EngineInfo where
  interface : Str
  registration : Nat
  control : Nat
  mux : Nat
  task : Nat
  iopub : Nat
  hbPing : Nat
  hbPong : Nat
  broadcast : List Nat
  deriving DecidableEq, Repr

/-- `client_info` — app.py:795-805 -/
structure ClientInfo where
  interface : Str
  registration : Nat
  control : Nat
  mux : Nat
  task : Nat
  taskScheme : Str
  iopub : Nat
  notification : Nat
  broadcast : Nat
  deriving DecidableEq, Repr

/-- `base` — app.py:912-921 -/
structure Base where
  key : Str
  curve : Option Str
  location : Str
  pack : Str
  unpack : Str
  signature : Str
  deriving DecidableEq, Repr

/-- the contents of the engine's file — app.py:928-931 (`ssh` left out) -/
structure EFile where
  info : EngineInfo
  base : Base
  deriving DecidableEq, Repr

/-- the contents of the client's file — app.py:923-926 -/
structure CFile where
  info : ClientInfo
  base : Base
  deriving DecidableEq, Repr

/-- a file on disk; `broken`: opened for writing, not all written — app.py:670-676 -/
inductive File (α : Type) where
  | absent
  | broken
  | ok (a : α)
  deriving DecidableEq, Repr

/-- the two connection files — controller/app.py:675-681, 743-753 -/
structure Files where
  engine : File EFile
  client : File CFile
  deriving DecidableEq, Repr

/-- configuration of a controller run. `base`: the session and curve keys that this run has if it does not load any (a new random key unless configured), the configured location, packers and signature scheme. — controller/app.py:169-560 -/
structure Cfg where
  engineTransport : Str
  engineIp : Str
  clientTransport : Str
  clientIp : Str
  monitorTransport : Str
  monitorIp : Str
  depth : Nat
  scheme : Str
  base : Base
  reuse : Bool
  deriving DecidableEq, Repr

/-- controller/app.py:573-580 -/
def tcp : Str := ['t', 'c', 'p']
/-- controller/app.py:573-580 -/
def ipc : Str := ['i', 'p', 'c']
/-- controller/app.py:1076-1180 -/
def noneScheme : Str := ['n', 'o', 'n', 'e']

/-- the ports requested by `init_hub`, in order — app.py:772-824: for the engines' file, for the clients' file, for internal use -/
def enginePools (depth : Nat) : List Ports.Pool := List.replicate (7 + 2 ^ depth) .engine
/-- controller/app.py:755-950 -/
def clientPools : List Ports.Pool := List.replicate 6 .client
/-- controller/app.py:755-950 -/
def innerPools (depth : Nat) : List Ports.Pool := List.replicate ((Tree.reserved depth).length + 1) .common

/-- app.py:773-792: ports in the order of the requests -/
def buildEngine (c : Cfg) (ps : List Nat) : EngineInfo where
  interface := joinScheme c.engineTransport c.engineIp
  registration := ps.getD 0 0
  control := ps.getD 1 0
  mux := ps.getD 2 0
  task := ps.getD 3 0
  iopub := ps.getD 4 0
  hbPing := ps.getD 5 0
  hbPong := ps.getD 6 0
  broadcast := (List.range (2 ^ c.depth)).map (fun i => ps.getD (7 + i) 0)

/-- app.py:794-805: the registration port is that of the engines -/
def buildClient (c : Cfg) (registration : Nat) (ps : List Nat) : ClientInfo where
  interface := joinScheme c.clientTransport c.clientIp
  registration := registration
  control := ps.getD 0 0
  mux := ps.getD 1 0
  task := ps.getD 2 0
  taskScheme := c.scheme
  iopub := ps.getD 3 0
  notification := ps.getD 4 0
  broadcast := ps.getD 5 0

/-- a controller that runs -/
structure Ctl where
  cfg : Cfg
  ei : EngineInfo
  ci : ClientInfo
  /-- what its session uses (`Session(parent=self)` with the configured key, or the loaded one) and its curve key -/
  base : Base
  /-- `internal_info` — app.py:817-822 -/
  inner : List (List Bool × Nat)
  mon : Nat
  deriving DecidableEq, Repr

/-- `construct_url` — app.py:626-645 -/
def constructUrl (interface : Str) (port : Nat) : Str :=
  let sep := if (splitScheme interface).head? = some ipc then '-' else ':'
  interface ++ sep :: Ports.showNat port

/-- the sockets that a controller binds — controller/app.py:755-950 -/
inductive Svc where
  | registration | heartPing | heartPong | notification
  | iopubEngines | iopubClients
  | muxEngines | muxClients
  | controlEngines | controlClients
  | taskEngines | taskClients
  | broadcastClients
  | broadcastLeaf (i : Nat)
  | broadcastInner (id : List Bool)
  | monitor
  deriving DecidableEq, Repr

/-- app.py:806-809 -/
def Ctl.internalInterface (k : Ctl) : Str := if k.cfg.engineTransport = tcp then joinScheme tcp ['1', '2', '7', '.', '0', '.', '0', '.', '1'] else k.ei.interface

/-- app.py:1047-1056: the engine-facing sockets of the leaves; `none`: IndexError -/
def Ctl.leafSockets (k : Ctl) : Option (List (Svc × Str)) :=
  (Tree.leaves k.cfg.depth [false]).mapM (fun id => (k.ei.broadcast[Tree.val id]?).map (fun p => (Svc.broadcastLeaf (Tree.val id), constructUrl k.ei.interface p)))

/-- every socket bound, with the service behind it; `none`: the start fails.
Registration app.py:846-857; heartbeats 868-880; notification 886-888; monitor 895; iopub 1098-1101; mux 1111-1113; control 1122-1125; task 1137-1140 and 1149-1153 (not with scheme 'none'); broadcast 1020-1066 -/
def Ctl.listens (k : Ctl) : Option (List (Svc × Str)) := k.leafSockets.map (fun leaves =>
  [(.registration, constructUrl k.ci.interface k.ci.registration)] ++
  (if k.cfg.clientIp ≠ k.cfg.engineIp then [(.registration, constructUrl k.ei.interface k.ei.registration)] else []) ++
  [(.heartPing, constructUrl k.ei.interface k.ei.hbPing), (.heartPong, constructUrl k.ei.interface k.ei.hbPong),
   (.notification, constructUrl k.ci.interface k.ci.notification),
   (.monitor, joinScheme k.cfg.monitorTransport (k.cfg.monitorIp ++ ':' :: Ports.showNat k.mon)),
   (.iopubEngines, constructUrl k.ei.interface k.ei.iopub), (.iopubClients, constructUrl k.ci.interface k.ci.iopub),
   (.muxClients, constructUrl k.ci.interface k.ci.mux), (.muxEngines, constructUrl k.ei.interface k.ei.mux),
   (.controlClients, constructUrl k.ci.interface k.ci.control), (.controlEngines, constructUrl k.ei.interface k.ei.control)] ++
  (if k.cfg.scheme = noneScheme then [] else [(.taskClients, constructUrl k.ci.interface k.ci.task), (.taskEngines, constructUrl k.ei.interface k.ei.task)]) ++
  [(.broadcastClients, constructUrl k.ci.interface k.ci.broadcast)] ++ leaves ++
  k.inner.map (fun x => (.broadcastInner x.1, constructUrl k.internalInterface x.2)))

/-! ## loading and saving -/

/-- controller/app.py:683-727 -/
inductive Load where
  | fatal
  | refused (key location : Option Str)
  | loaded (e : EFile) (c : CFile)
  deriving DecidableEq, Repr

/-- `load_config_from_json` and the handler around it — app.py:678-745. A file that does not parse raises ValueError, which is not caught. When only the engines' file was read, its key and location stay in effect. -/
def load (f : Files) : Load := match f.engine with
  | .absent => .refused none none
  | .broken => .fatal
  | .ok e => match f.client with
    | .absent => .refused (some e.base.key) (some e.base.location)
    | .broken => .fatal
    | .ok c =>
      if c.base.key = e.base.key ∧ c.info.registration = e.info.registration ∧ c.base.pack = e.base.pack ∧ c.base.unpack = e.base.unpack ∧ c.base.signature = e.base.signature then .loaded e c
      else .refused (some e.base.key) (some e.base.location)

/-- the controller that results from `load_secondary_config`, `init_hub`; `eports`, `cports`, `iports`: what `next_port` gives — controller/app.py:743-950 -/
def setup (c : Cfg) (f : Files) (eports cports iports : List Nat) : Option (Ctl × Bool) :=
  let inner := (Tree.reserved c.depth).zip iports
  let mon := iports.getD (Tree.reserved c.depth).length 0
  let fresh := fun (b : Base) => let e := buildEngine c eports; some ({ cfg := c, ei := e, ci := buildClient c e.registration cports, base := b, inner := inner, mon := mon }, true)
  if c.reuse then match load f with
    | .fatal => none
    | .refused k l => fresh { c.base with key := k.getD c.base.key, location := l.getD c.base.location }
    | .loaded e cl => some ({ cfg := c, ei := e.info, ci := cl.info, base := { c.base with key := e.base.key, location := e.base.location }, inner := inner, mon := mon }, false)
  else fresh c.base

/-- the states of the two files while a controller starts, in order, the first one as found — app.py:910-931: the clients' file is written first -/
def saving (f : Files) (k : Ctl) (write : Bool) : List Files :=
  if write then
    let cf := File.ok { info := k.ci, base := k.base }
    let ef := File.ok { info := k.ei, base := k.base }
    [f, { f with client := .broken }, { f with client := cf }, { client := cf, engine := .broken }, { client := cf, engine := ef }]
  else [f]

/-- what a clean exit leaves — app.py:717-730, 1247 -/
def leaving (c : Cfg) (f : Files) : Files := if c.reuse then f else { engine := .absent, client := .absent }

/-! ## the peers -/

/-- client.py:499-513: `cfg['interface']` and the urls -/
def clientInterface (m : Machine) (f : CFile) : Option Str := match splitScheme f.info.interface with
  | [proto, addr] => some (joinScheme proto (disambiguateIp m addr f.base.location))
  | _ => none

/-- client.py:503-513, 594, 768-788: the addresses that a client connects to, with the service it expects there; `none`: ValueError -/
def clientConnects (m : Machine) (f : CFile) : Option (List (Svc × Str)) := (clientInterface m f).map (fun i =>
  let url := fun p : Nat => i ++ ':' :: Ports.showNat p
  [(.registration, url f.info.registration), (.muxClients, url f.info.mux), (.taskClients, url f.info.task), (.broadcastClients, url f.info.broadcast),
   (.notification, url f.info.notification), (.controlClients, url f.info.control), (.iopubClients, url f.info.iopub)])

/-- engine/app.py:400-404: the interface as the engine uses it -/
def engineInterface (m : Machine) (f : EFile) : Option Str := match splitScheme f.info.interface with
  | [proto, addr] => some (joinScheme proto (disambiguateIp m addr f.base.location))
  | _ => none

/-- engine/app.py:490, 515 (`connect`, `maybe_tunnel`), 415 (registration), 620-655 (shell, control, iopub), 757-762 (heartbeat): the addresses that an engine with id `id` connects to. An engine with a nanny connects its nanny to the control address instead. -/
def engineConnects (m : Machine) (f : EFile) (id : Nat) : Option (List (Svc × Str)) := match engineInterface m f with
  | none => none
  | some i =>
    let url := fun p : Nat => disambiguateUrl m (i ++ ':' :: Ports.showNat p) f.base.location
    let index := id % f.info.broadcast.length
    match f.info.broadcast[index]? with
    | none => none
    | some b => some
      [(.registration, url f.info.registration), (.muxEngines, url f.info.mux), (.taskEngines, url f.info.task), (.broadcastLeaf index, url b),
       (.controlEngines, url f.info.control), (.iopubEngines, url f.info.iopub), (.heartPing, url f.info.hbPing), (.heartPong, url f.info.hbPong)]

/-! ## `get_connection_info` — launcher.py:368-415 -/

/-- reading one file: tried again once if it does not parse; `none`: an exception — cluster/launcher.py:368-416 -/
def readTwice {α : Type} (a b : File α) : Option α := match a with
  | .ok x => some x
  | .broken => match b with
    | .ok x => some x
    | _ => none
  | .absent => none

/-- launcher.py:386-401: waiting until both files are there, `looks`: the files at the times the function looks (the controller lives and the deadline is not over; `false`: it is over) -/
def appeared : List Files → Bool
  | [] => false
  | f :: r => if f.client = .absent ∨ f.engine = .absent then appeared r else true

/-- launcher.py:403-415; `c1`, `c2`, `e1`, `e2`: the files at the times of reading the clients' file for the first and the second time and the engines' file for the first and the second time -/
def getInfo (looks : List Files) (c1 c2 e1 e2 : Files) : Option (CFile × EFile) :=
  if appeared looks then match readTwice c1.client c2.client, readTwice e1.engine e2.engine with
    | some c, some e => some (c, e)
    | _, _ => none
  else none

/-! ## the names of the files -/

/-- controller/app.py:675-681 -/
def prefixName : Str := ['i', 'p', 'c', 'o', 'n', 't', 'r', 'o', 'l', 'l', 'e', 'r']
/-- cluster/launcher.py:173-183 -/
def clientKind : Str := ['c', 'l', 'i', 'e', 'n', 't']
/-- cluster/launcher.py:173-183 -/
def engineKind : Str := ['e', 'n', 'g', 'i', 'n', 'e']
/-- controller/app.py:675-681 -/
def json : Str := ['.', 'j', 's', 'o', 'n']

/-- controller/app.py:193-213: (engine_json_file, client_json_file), as the observer of `cluster_id` sets them -/
def controllerNames (clusterId : Str) : Str × Str :=
  let base := if clusterId ≠ [] then prefixName ++ '-' :: clusterId else prefixName
  (base ++ '-' :: engineKind ++ json, base ++ '-' :: clientKind ++ json)

/-- engine/app.py:159, 167-173 -/
def engineReads (clusterId : Str) : Str :=
  let base := if clusterId ≠ [] then prefixName ++ '-' :: clusterId else prefixName
  base ++ '-' :: engineKind ++ json

/-- client.py:444-448 -/
def clientReads (clusterId : Str) : Str :=
  if clusterId ≠ [] then prefixName ++ '-' :: clusterId ++ '-' :: clientKind ++ json else prefixName ++ '-' :: clientKind ++ json

/-- launcher.py:173-182: {kind: path} -/
def launcherNames (clusterId kind : Str) : Str :=
  let p := if clusterId ≠ [] then prefixName ++ '-' :: clusterId else prefixName
  p ++ '-' :: kind ++ json

end IPP.Conn
