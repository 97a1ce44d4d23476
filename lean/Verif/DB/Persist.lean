import Verif.DB.Sqlite
/-!
# The SQLite task database over several controllers: choice of the table, commits, crashes

`SQLiteDB.__init__`, `close`, `_check_table`, `_init_db` — controller/sqlitedb.py:191-313, on top of the model of the calls (`DB/Sqlite.lean`).

Simplifications: table names are compared exactly (SQLite folds ASCII case) and contain no quotes; one controller uses the file at a time. A crash is the end of the process, or of the
machine, at any moment: SQLite's journal gives back the last committed state (trusted). `sqlite3` begins a transaction at the first INSERT, UPDATE or DELETE after a commit, and a statement that
fails is undone by itself, so that what one connection sees is one list of rows. `CREATE TABLE` is followed by a commit.
-/
namespace IPP.DB.Persist

open IPP.DB IPP.DB.Sql

/-- a table: what `PRAGMA table_info` says about its columns, and its rows — sqlitedb.py:236-244 -/
structure Table where
  cols : List (String × String)
  rows : Rows

/-- the file — sqlitedb.py:268-274 -/
abbrev Disk := List (String × Table)

/-- the table of a name — sqlitedb.py:236-240 -/
def get : Disk → String → Option Table
  | [], _ => none
  | (m, t) :: d, n => if m = n then some t else get d n

/-- the rows of a table are replaced: a commit — sqlitedb.py:218-221, 313 -/
def setRows : Disk → String → Rows → Disk
  | [], _, _ => []
  | (m, t) :: d, n, r => if m = n then (m, { t with rows := r }) :: d else (m, t) :: setRows d n r

/-- `_types` — sqlitedb.py:163-189 -/
def types : List (String × String) :=
  [("msg_id", "text"), ("header", "dict text"), ("metadata", "dict text"), ("content", "dict text"), ("buffers", "bufs blob"), ("submitted", "timestamp"), ("client_uuid", "text"),
   ("engine_uuid", "text"), ("started", "timestamp"), ("completed", "timestamp"), ("resubmitted", "text"), ("received", "timestamp"), ("result_header", "dict text"),
   ("result_metadata", "dict text"), ("result_content", "dict text"), ("result_buffers", "bufs blob"), ("queue", "text"), ("execute_input", "text"), ("execute_result", "text"),
   ("error", "text"), ("stdout", "text"), ("stderr", "text"), ("label", "text")]

/-- the columns of `CREATE TABLE`, as SQLite reports them — sqlitedb.py:286-312 -/
def created : List (String × String) :=
  [("msg_id", "text"), ("header", "dict text"), ("metadata", "dict text"), ("content", "dict text"), ("buffers", "bufs blob"), ("submitted", "timestamp"), ("client_uuid", "text"),
   ("engine_uuid", "text"), ("started", "timestamp"), ("completed", "timestamp"), ("resubmitted", "text"), ("received", "timestamp"), ("result_header", "dict text"),
   ("result_metadata", "dict text"), ("result_content", "dict text"), ("result_buffers", "bufs blob"), ("queue", "text"), ("execute_input", "text"), ("execute_result", "text"),
   ("error", "text"), ("stdout", "text"), ("stderr", "text"), ("label", "text")]

/-- `types[key]` — sqlitedb.py:241-251 -/
def typeIn : List (String × String) → String → Option String
  | [], _ => none
  | (m, t) :: l, k => if m = k then some t else typeIn l k

/-- the test of `_check_table` for an existing table — sqlitedb.py:245-256 -/
def fits (cols : List (String × String)) : Bool := cols.map Prod.fst = columns && columns.all (fun k => typeIn cols k = typeIn types k)

/-- `_check_table` — sqlitedb.py:231-256 -/
def checkTable (d : Disk) (n : String) : Bool := match get d n with
  | none => true
  | some t => fits t.cols

/-- the names that are tried — sqlitedb.py:275-284 -/
def candidate (first : String) (i : Nat) : String := if i = 0 then first else first ++ "_" ++ toString i

/-- the loop, of which at most `fuel` rounds are looked at — sqlitedb.py:275-284 -/
def choose (d : Disk) (first : String) : Nat → Nat → Option String
  | 0, _ => none
  | fuel + 1, i => if checkTable d (candidate first i) then some (candidate first i) else choose d first fuel (i + 1)

/-- `CREATE TABLE IF NOT EXISTS` — sqlitedb.py:286-313 -/
def create (d : Disk) (n : String) : Disk := match get d n with
  | some _ => d
  | none => d ++ [(n, ⟨created, []⟩)]

/-- an open database: its table, what it sees of it, when the next commit is due — sqlitedb.py:210-216 -/
structure Conn where
  table : String
  rows : Rows
  next : Nat

/-- the file, the clock (milliseconds), the controller that runs — sqlitedb.py:191-221 -/
structure S where
  disk : Disk
  now : Nat
  conn : Option Conn

/-- what happens while a controller runs -/
inductive In where
  /-- a call — sqlitedb.py:376-465 -/
  | op (o : Op)
  /-- time passes -/
  | wait (ms : Nat)
  /-- the event loop looks at its timers — sqlitedb.py:212-216 -/
  | timers
  /-- another program (say, an earlier version of this one) makes a table of a new name -/
  | foreign (n : String) (t : Table)

/-- and around it -/
inductive Ev where
  /-- a controller starts, with this `SQLiteDB.table` -/
  | start (first : String)
  | inn (e : In)
  /-- `close` — sqlitedb.py:218-221; nothing in the package calls it -/
  | close
  /-- the controller is stopped by a signal or by `shutdown(hub=True)` — controller/app.py:1198-1201, 1246-1252; hub.py:1137-1155 -/
  | stop
  /-- the process is killed, or the machine fails -/
  | crash

/-- the due time of tornado's `PeriodicCallback` after it has run at `now`; `sqlitedb.py:212-216` -/
def nextDue (next now : Nat) : Nat := if next ≤ now then next + ((now - next) / 2000 + 1) * 2000 else next

/-- a commit — sqlitedb.py:212-221 -/
def commit (d : Disk) (c : Conn) : Disk := setRows d c.table c.rows

/-- sqlitedb.py:212-216, 376-465 -/
def stepIn (s : S) : In → S
  | .op o => match s.conn with
    | some c => { s with conn := some { c with rows := (Sql.step c.rows o).1 } }
    | none => s
  | .wait ms => { s with now := s.now + ms }
  | .timers => match s.conn with
    | some c => if c.next ≤ s.now then { s with disk := commit s.disk c, conn := some { c with next := nextDue c.next s.now } } else s
    | none => s
  | .foreign n t => match get s.disk n with
    | some _ => s
    | none => { s with disk := s.disk ++ [(n, t)] }

/-- `__init__` with `_init_db` — sqlitedb.py:191-216, 258-313 -/
def start (s : S) (first : String) : S := match s.conn with
  | some _ => s
  | none => match choose s.disk first (s.disk.length + 1) 0 with
    | none => s
    | some n =>
      let d := create s.disk n
      { s with disk := d, conn := some { table := n, rows := ((get d n).map Table.rows).getD [], next := nextDue s.now s.now } }

/-- sqlitedb.py:191-221; a controller that is stopped ends its event loop and the process, without `close`: `sqlite3` rolls the open transaction back — controller/app.py:1246-1252, hub.py:1152-1155 -/
def step (s : S) : Ev → S
  | .start first => start s first
  | .inn e => stepIn s e
  | .close => match s.conn with
    | some c => { s with disk := commit s.disk c, conn := none }
    | none => s
  | .stop => { s with conn := none }
  | .crash => { s with conn := none }

/-- a history — sqlitedb.py:191-313 -/
def run (s : S) (evs : List Ev) : S := evs.foldl step s

/-- what happens while a controller runs — sqlitedb.py:212-216, 376-465 -/
def runIn (s : S) (es : List In) : S := es.foldl stepIn s

end IPP.DB.Persist
