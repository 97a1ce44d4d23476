/-!
# Connection files: written by the controller, read by launchers, engines and clients

`ControllerLauncher.get_connection_info` — cluster/launcher.py:368-416; `IPEngine.init_engine`, `load_connection_file` — engine/app.py:374-388, 890-915;
`Client.__init__` without connection info — client/client.py:439-461; the writer `save_connection_dict` — controller/app.py:675-681, 923-938.

Simplifications: what a file contains is the number of the controller that wrote it and whether it is whole (JSON text that is cut off is not valid JSON: a cut-off object has no
closing brace, and `json.load` raises ValueError); times are milliseconds; the two `os.path.exists` of one check, and the look at the clock after it, happen at one moment.
What else happens, happens between the steps of a reader, in any order.
-/
namespace IPP.ConnFiles

/-- controllers are numbered in the order in which they were started — controller/app.py:1076-1180 -/
abbrev Gen := Nat

/-- a connection file: not there; being written by controller `g`, which opened it at time `t`; whole — controller/app.py:675-681 -/
inductive File where
  | absent
  | part (g : Gen) (t : Nat)
  | full (g : Gen)
  deriving DecidableEq, Repr

/-- the two files — cluster/launcher.py:172-181 -/
inductive Kind where
  | client | engine
  deriving DecidableEq, Repr

/-- the clock, the two files, the exit status of the launcher's controller (`poll()`) — cluster/launcher.py:368-416 -/
structure World where
  now : Nat
  client : File
  engine : File
  status : Option Int
  deriving DecidableEq, Repr

/-- `connection_files[key]` — cluster/launcher.py:172-181 -/
def World.get (w : World) : Kind → File
  | .client => w.client
  | .engine => w.engine

/-- the contents of a file change — controller/app.py:675-681 -/
def World.put (w : World) : Kind → File → World
  | .client, f => { w with client := f }
  | .engine, f => { w with engine := f }

/-- `os.path.exists` — cluster/launcher.py:388 -/
def File.there : File → Bool
  | .absent => false
  | _ => true

/-- what else happens — controller/app.py:675-681, 729-741 -/
inductive Env where
  /-- controller `g` opens a file for writing: it is emptied -/
  | openW (g : Gen) (k : Kind)
  /-- the writer is done -/
  | close (k : Kind)
  /-- a file is removed: `cleanup_connection_files` -/
  | remove (k : Kind)
  /-- the launcher's controller ends -/
  | die (c : Int)
  /-- time passes -/
  | tick (d : Nat)
  deriving DecidableEq, Repr

/-- controller/app.py:675-681, 729-741 -/
def env (w : World) : Env → World
  | .openW g k => w.put k (.part g w.now)
  | .close k => match w.get k with
    | .part g _ => w.put k (.full g)
    | _ => w
  | .remove k => w.put k .absent
  | .die c => { w with status := some c }
  | .tick d => { w with now := w.now + d }

/-! ## The launcher -/

/-- how `get_connection_info` ends: with the contents of the two files, or with an exception — cluster/launcher.py:368-416 -/
inductive Out where
  | ok (client engine : Gen)
  | timeout
  | stopped (c : Int)
  /-- ValueError from `json.load` -/
  | badJson
  /-- FileNotFoundError from `open` -/
  | notFound
  deriving DecidableEq, Repr

/-- where it is — cluster/launcher.py:388-414 -/
inductive PC where
  /-- before `all(os.path.exists(...))` -/
  | check
  /-- in `asyncio.sleep(0.1)` -/
  | asleep (till : Nat)
  /-- about to read the client file; in `time.sleep(0.5)` after it was not valid; about to read it again -/
  | c1
  | cnap (till : Nat)
  | c2
  /-- the same for the engine file; the client file is read -/
  | e1 (g : Gen)
  | enap (g : Gen) (till : Nat)
  | e2 (g : Gen)
  | done (o : Out)
  deriving DecidableEq, Repr

/-- the world and the reader — cluster/launcher.py:368-416 -/
structure St where
  w : World
  pc : PC
  deriving DecidableEq, Repr

/-- a sleep ends — cluster/launcher.py:393, 411 -/
def World.wake (w : World) (t : Nat) : World := { w with now := max w.now t }

/-- one step of `get_connection_info`; `deadline`: `start_time + timeout`, `none` for a negative timeout — cluster/launcher.py:376-414 -/
def lstep (deadline : Option Nat) (s : St) : St :=
  match s.pc with
  | .check =>
    if s.w.client.there ∧ s.w.engine.there then { s with pc := .c1 }
    else match deadline with
      | some d => if s.w.now > d then { s with pc := .done .timeout } else { s with pc := .asleep (s.w.now + 100) }
      | none => { s with pc := .asleep (s.w.now + 100) }
  | .asleep t => match s.w.status with
    | some c => ⟨s.w.wake t, .done (.stopped c)⟩
    | none => ⟨s.w.wake t, .check⟩
  | .c1 => match s.w.client with
    | .full g => { s with pc := .e1 g }
    | .part _ _ => { s with pc := .cnap (s.w.now + 500) }
    | .absent => { s with pc := .done .notFound }
  | .cnap t => ⟨s.w.wake t, .c2⟩
  | .c2 => match s.w.client with
    | .full g => { s with pc := .e1 g }
    | .part _ _ => { s with pc := .done .badJson }
    | .absent => { s with pc := .done .notFound }
  | .e1 g => match s.w.engine with
    | .full h => { s with pc := .done (.ok g h) }
    | .part _ _ => { s with pc := .enap g (s.w.now + 500) }
    | .absent => { s with pc := .done .notFound }
  | .enap g t => ⟨s.w.wake t, .e2 g⟩
  | .e2 g => match s.w.engine with
    | .full h => { s with pc := .done (.ok g h) }
    | .part _ _ => { s with pc := .done .badJson }
    | .absent => { s with pc := .done .notFound }
  | .done _ => s

/-- a step of the reader, or of something else — cluster/launcher.py:368-416 -/
inductive Ev where
  | step
  | env (e : Env)
  deriving DecidableEq, Repr

/-- cluster/launcher.py:368-416 -/
def stepL (deadline : Option Nat) (s : St) : Ev → St
  | .step => lstep deadline s
  | .env e => { s with w := env s.w e }

/-- `get_connection_info(timeout)`, called in world `w`, with anything that may happen meanwhile; `none`: a negative timeout — cluster/launcher.py:368-416 -/
def runL (timeout : Option Nat) (w : World) (evs : List Ev) : St := evs.foldl (stepL (timeout.map (w.now + ·))) ⟨w, .check⟩

/-! ## Engines and clients, which read one file -/

/-- who reads: an engine (`wait_for_url_file`), a client (`timeout`), in milliseconds — engine/app.py:897-912, client/client.py:447-458 -/
inductive Who where
  | engine (limit : Nat)
  | client (limit : Nat)
  deriving DecidableEq, Repr

/-- the file it reads — engine/app.py:369-372, client/client.py:441-445 -/
def Who.kind : Who → Kind
  | .engine _ => .engine
  | .client _ => .client

/-- how it ends — engine/app.py:910-912, client/client.py:455-461 -/
inductive SOut where
  | ok (g : Gen)
  /-- `exit(1)`: "connection file never arrived"; OSError -/
  | missing
  | badJson
  | notFound
  deriving DecidableEq, Repr

/-- waiting (engines: since when; clients: for how long so far), before `open`, at the end — engine/app.py:897-915, client/client.py:447-461 -/
inductive SPC where
  | wait (a : Nat)
  | load
  | done (o : SOut)
  deriving DecidableEq, Repr

/-- the world and the reader — engine/app.py:890-915, client/client.py:439-461 -/
structure SSt where
  w : World
  pc : SPC
  deriving DecidableEq, Repr

/-- one step — engine/app.py:897-915 and 386-388; client/client.py:447-461 -/
def sstep (who : Who) (s : SSt) : SSt :=
  match s.pc with
  | .wait a =>
    if (s.w.get who.kind).there then { s with pc := .load }
    else match who with
      | .engine limit => if s.w.now - a ≥ limit then { s with pc := .done .missing } else { s with w := s.w.wake (s.w.now + 100) }
      | .client limit => if a ≥ limit then { s with pc := .done .missing } else ⟨s.w.wake (s.w.now + min (limit - a) 1000), .wait (a + 1000)⟩
  | .load => match s.w.get who.kind with
    | .full g => { s with pc := .done (.ok g) }
    | .part _ _ => { s with pc := .done .badJson }
    | .absent => { s with pc := .done .notFound }
  | .done _ => s

/-- engine/app.py:890-915, client/client.py:439-461 -/
def stepS (who : Who) (s : SSt) : Ev → SSt
  | .step => sstep who s
  | .env e => { s with w := env s.w e }

/-- the beginning: engines note the time, clients have waited for nothing — engine/app.py:903, client/client.py:449 -/
def startS (who : Who) (w : World) : SSt := ⟨w, .wait (match who with
  | .engine _ => w.now
  | .client _ => 0)⟩

/-- an engine or a client that starts in world `w`, with anything that may happen meanwhile — engine/app.py:890-915, client/client.py:439-461 -/
def runS (who : Who) (w : World) (evs : List Ev) : SSt := evs.foldl (stepS who) (startS who w)

end IPP.ConnFiles
