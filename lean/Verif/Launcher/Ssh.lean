import Verif.Launcher.Stop

/-!
# Model of the SSH launchers — cluster/launcher.py:1026-1537

Which host, user and port the commands of an SSH launcher address (C92), and how the end of a remote process is noticed (C93).
A `List` trait without element type keeps the list object it is assigned (traitlets): launchers that an engine set creates with
`kwargs = {attr: getattr(self, attr) ...}` (1513) hold *the same* list `ssh_args` as the set.
Not modelled: the commands themselves (C64 and C82 have `ShellCommandSend`), files, logging, Windows.
-/
namespace IPP.Ssh

/-- texts -/
abbrev Str := List Char

/-! ## Hosts -/

/-- `if c in s: a, b = s.split(c, 1)` — cluster/launcher.py:1498-1505 -/
def split1 (c : Char) : Str → Option (Str × Str)
  | [] => none
  | x :: s => if x = c then some ([], s) else (split1 c s).map (fun p => (x :: p.1, p.2))

/-- user, host and port of a key of `engines` — launcher.py:1498-1505 -/
def parseHost (key : Str) : Option Str × Str × Option Str :=
  let (user, host) := match split1 '@' key with
    | some (u, h) => (some u, h)
    | none => (none, key)
  match split1 ':' host with
  | some (h, p) => (user, h, some p)
  | none => (user, host, none)

/-- the traits that say where to go — launcher.py:1094-1101 -/
structure Loc where
  hostname : Str
  user : Str
  location : Str
  deriving DecidableEq, Repr

/-- `self.hostname = h`; the observer runs if the value is new — launcher.py:1114-1119 -/
def setHostname (h : Str) (l : Loc) : Loc :=
  if h = l.hostname then l
  else { l with hostname := h, location := if l.user ≠ [] then l.user ++ '@' :: h else h }

/-- `self.user = u` — launcher.py:1121-1123 -/
def setUser (u : Str) (l : Loc) : Loc :=
  if u = l.user then l else { l with user := u, location := u ++ '@' :: l.hostname }

/-- assignments by the user — launcher.py:1094-1101 -/
inductive Set where
  | hostname (h : Str)
  | user (u : Str)
  | location (l : Str)
  deriving DecidableEq, Repr

/-- launcher.py:1094-1123 -/
def assign (l : Loc) : Set → Loc
  | .hostname h => setHostname h l
  | .user u => setUser u l
  | .location x => { l with location := x }

/-- a launcher without configuration — launcher.py:1094-1101 -/
def fresh : Loc := ⟨[], [], []⟩

/-- `from_dict(to_dict())` — launcher.py:135-165: `hostname` and `user` are saved, `location` is not; the traits are set in alphabetical order -/
def restore (l : Loc) : Loc := setUser l.user (setHostname l.hostname fresh)

/-! ## start with user, host and port -/

/-- `if flag not in args: args.append(flag); args.append(port)` — launcher.py:1303-1309 -/
def withPort (flag : Str) (port : Option Str) (args : List Str) : List Str :=
  match port with
  | none => args
  | some p => if flag ∈ args then args else args ++ [flag, p]

/-- `-p` of ssh, `-P` of scp — launcher.py:1303-1309 -/
def sshFlag : Str := ['-', 'p']
/-- launcher.py:1303-1309 -/
def scpFlag : Str := ['-', 'P']

/-- the beginning of `start(hostname, user, port)`: where it goes — launcher.py:1298-1302 -/
def startLoc (user : Option Str) (host : Str) (l : Loc) : Loc :=
  let l := setHostname host l
  match user with
  | some u => setUser u l
  | none => l

/-! ## The engine set -/

/-- an entry of `engines`: number of engines; `ssh_args`, `scp_args` if the entry is a dict that sets them — launcher.py:1486-1493. Other
overrides are left out. -/
structure Entry where
  key : Str
  n : Nat
  ssh : Option (List Str)
  scp : Option (List Str)
  deriving DecidableEq, Repr

/-- an engine that was started: its identifier (1519), where it was started and with which arguments to ssh and scp, whether the connection files were
sent (1521-1523) — launcher.py:1507-1531 -/
structure Eng where
  id : Str × Nat
  location : Str
  sshArgs : List Str
  scpArgs : List Str
  sends : Bool
  deriving DecidableEq, Repr

/-- the loop over the engines of one entry: `m` more, the next has number `i`; `ssh`, `scp`: the contents of the lists the launchers hold — launcher.py:1507-1531 -/
def startOn (e : Entry) : Nat → Nat → List Str → List Str → List Eng × List Str × List Str
  | 0, _, ssh, scp => ([], ssh, scp)
  | m + 1, i, ssh, scp =>
    let (user, host, port) := parseHost e.key
    let ssh := withPort sshFlag port ssh
    let scp := withPort scpFlag port scp
    let el : Eng := ⟨(e.key, i), (startLoc user host fresh).location, ssh, scp, i = 0⟩
    let (r, ssh, scp) := startOn e m (i + 1) ssh scp
    (el :: r, ssh, scp)

/-- the loop over the entries; `ssh`, `scp`: the lists of the set, which the engines share unless the entry has its own — launcher.py:1486-1531 -/
def startAll : List Entry → Nat → List Str → List Str → List Eng × List Str × List Str
  | [], _, ssh, scp => ([], ssh, scp)
  | e :: es, left, ssh, scp =>
    let m := min e.n left
    let (a, ssh', scp') := startOn e m 0 (e.ssh.getD ssh) (e.scp.getD scp)
    let (b, ssh'', scp'') := startAll es (left - m) (if e.ssh.isSome then ssh else ssh') (if e.scp.isSome then scp else scp')
    (a ++ b, ssh'', scp'')

/-- the key of `self.launchers`: `f"{full_host}/{i}"` — launcher.py:1519 -/
def identifier (x : Str × Nat) : Str := x.1 ++ '/' :: (toString x.2).toList

/-! ## The end of a remote process -/

/-- what `ssh_waitpid` finds on the remote host — launcher.py:1066-1079 -/
inductive Proc where
  | running
  /-- exited with this code (seen by `wait`), or not there any more -/
  | exited (code : Option Int)
  deriving DecidableEq, Repr

/-- `__process_running__` and `__exit_code__` as printed by `ssh_waitpid` — launcher.py:1066-1079: the exit code is always printed as -1 -/
def waitpid : Proc → Bool × Option Int
  | .running => (true, none)
  | .exited _ => (false, some (-1))

/-- `wait_one` — launcher.py:1363-1372: the exit code, TimeoutError, or another exception (ssh fails, `link = false`) -/
inductive One where
  | code (c : Int)
  | timeout
  | failed
  deriving DecidableEq, Repr

/-- launcher.py:1363-1372 -/
def waitOne (link : Bool) (p : Proc) : One :=
  if !link then .failed
  else match waitpid p with
    | (true, _) => .timeout
    | (false, c) => .code (c.getD (-1))

/-- the waiting thread — launcher.py:1333-1345 -/
inductive Th where
  | waiting
  /-- `notify_stop` is scheduled with this exit code -/
  | scheduled (code : Option Int)
  | ended
  /-- an exception ended it -/
  | crashed
  deriving DecidableEq, Repr

/-- a started launcher — launcher.py:1298-1386 -/
structure W where
  proc : Proc
  th : Th
  /-- `_stop_waiting` -/
  flag : Bool
  /-- the exit codes given to `notify_stop` when it had not been notified before -/
  announced : List (Option Int)
  /-- state == 'running' -/
  running : Bool
  deriving DecidableEq, Repr

/-- launcher.py:1298-1386 -/
inductive WEv where
  /-- the remote process ends -/
  | exit (code : Int)
  /-- the thread goes through its loop once; `link`: ssh works -/
  | poll (link : Bool)
  /-- the loop runs the callback with `notify_stop` -/
  | callback
  /-- `join()`: waits once itself, and sets the flag if the process has ended — launcher.py:1374-1392 -/
  | join (link : Bool)
  deriving DecidableEq, Repr

/-- launcher.py:1333-1392 -/
def wstep (w : W) : WEv → W
  | .exit c => if w.proc = .running then { w with proc := .exited (some c) } else w
  | .poll link => match w.th with
    | .waiting =>
      if w.flag || !w.running then { w with th := .scheduled none }
      else match waitOne link w.proc with
        | .code c => { w with th := .scheduled (some c) }
        | .timeout => w
        | .failed => { w with th := .crashed }
    | _ => w
  | .callback => match w.th with
    | .scheduled c => { w with th := .ended, announced := if w.running then w.announced ++ [c] else w.announced, running := false }
    | _ => w
  | .join link => match waitOne link w.proc with
    | .code _ => { w with flag := true }
    | _ => w

/-- after `start()` — launcher.py:1298-1331 -/
def wrun (h : List WEv) : W := h.foldl wstep ⟨.running, .waiting, false, [], true⟩

end IPP.Ssh
