/-!
# Model of the timing of an AsyncResult: `client/asyncresult.py`, `client/client.py`, `util.py`

One `AsyncResult` and the metadata of its tasks, as they change when replies and outputs arrive.
Times are in microseconds. A time stamp is a clock face with the offset of its zone, as a Python `datetime` (a naive one has no zone);
zones have a fixed offset, except the client's local zone, which is a function of the clock face. The client's clock readings (`utcnow()`) are instants.
Left out: `AsyncHubResult`, strings that are not dates, `owner=True`, the thread between the two stamps of `_send`.
-/
namespace IPP.Timing

/-- a `datetime`: its clock face and, if it is not naive, the UTC offset of its `tzinfo` — util.py:593-610 -/
structure Stamp where
  face : Int
  zone : Option Int
  deriving DecidableEq, Repr

/-- exceptions of the properties of asyncresult.py:745-839 -/
inductive Err where
  /-- "result not ready" -/
  | timeout
  /-- a comparison of naive with aware times, or with `None`; `min` of `None` -/
  | typeError
  /-- "'AsyncResult' object has no attribute …" -/
  | attributeError
  deriving DecidableEq, Repr

/-- `utcnow()` — util.py:608-610 -/
def utcnow (now : Int) : Stamp := { face := now, zone := some 0 }

/-- `_ensure_tzinfo(dt)` — util.py:546-560 (the parser of jupyter_client does the same with the dates of headers) -/
def ensure (loc : Int → Int) (a : Stamp) : Stamp :=
  match a.zone with
  | none => { a with zone := some (loc a.face) }
  | some _ => a

/-- `a - b` of two datetimes; a naive and an aware one: TypeError (used at util.py:605) -/
def sub (a b : Stamp) : Except Err Int :=
  match a.zone, b.zone with
  | some p, some q => .ok ((a.face - p) - (b.face - q))
  | none, none => .ok (a.face - b.face)
  | _, _ => .error .typeError

/-- `compare_datetimes(a, b).total_seconds()` (in microseconds) — util.py:593-605; `None.tzinfo` is an AttributeError -/
def compareDatetimes (loc : Int → Int) : Option Stamp → Option Stamp → Except Err Int
  | some a, some b =>
    match a.zone, b.zone with
    | none, some _ => sub { a with zone := some (loc a.face) } b
    | some _, none => sub a { b with zone := some (loc b.face) }
    | _, _ => sub a b
  | _, _ => .error .attributeError

/-- `a < b` for entries of a list of times, which can be `None` — used by `min` and `max` at asyncresult.py:774-779 -/
def less : Option Stamp → Option Stamp → Except Err Bool
  | some a, some b => (sub a b).map (fun d => decide (d < 0))
  | _, _ => .error .typeError

/-- the loop of `min(…)` — asyncresult.py:774 -/
def pyMinFrom (m : Option Stamp) : List (Option Stamp) → Except Err (Option Stamp)
  | [] => .ok m
  | x :: xs => do
    let b ← less x m
    pyMinFrom (if b then x else m) xs

/-- the loop of `max(…)` — asyncresult.py:778 -/
def pyMaxFrom (m : Option Stamp) : List (Option Stamp) → Except Err (Option Stamp)
  | [] => .ok m
  | x :: xs => do
    let b ← less m x
    pyMaxFrom (if b then x else m) xs

/-- the times in the metadata of a task — client.py:205-224 -/
structure Md where
  submitted : Option Stamp := none
  started : Option Stamp := none
  completed : Option Stamp := none
  received : Option Stamp := none
  deriving DecidableEq, Repr

/-- a task: the metadata that the AsyncResult holds, and whether its message future and its output future are done — client.py:1229-1245 -/
structure Task where
  md : Md
  value : Bool := false
  output : Bool := false
  deriving DecidableEq, Repr

/-- the times in a reply, and whether it says that no output will come — client.py:812-843, 1012-1026 -/
structure Reply where
  /-- `parent_header['date']`; the reply that the client makes for a dead engine has none -/
  parent : Option Stamp
  /-- `metadata['started']`; only replies of a kernel that began the task have it (kernel.py:69-79) -/
  started : Option Stamp
  /-- `header['date']` -/
  date : Option Stamp
  /-- aborted, or an error that no engine reported -/
  noOutput : Bool
  deriving DecidableEq, Repr

/-- what happens to the tasks of an AsyncResult -/
inductive Ev where
  /-- the next task is sent; `header` is the date in the header of its message — client.py:1262-1292 -/
  | send (header : Int)
  /-- a reply to the task number `i` arrives — client.py:965-1028 -/
  | reply (i : Nat) (r : Reply)
  /-- the last output of the task number `i` arrives — client.py:1165-1175 -/
  | output (i : Nat)
  deriving DecidableEq, Repr

/-- `d.update(new)` for one key, which is in `new` only if there is a value -/
def keep (new old : Option Stamp) : Option Stamp :=
  match new with
  | some s => some s
  | none => old

/-- `md.update(self._extract_metadata(msg))` — client.py:812-843, 984-985 -/
def Md.update (loc : Int → Int) (md : Md) (now : Int) (r : Reply) : Md :=
  { submitted := keep (r.parent.map (ensure loc)) md.submitted
    started := keep (r.started.map (ensure loc)) md.started
    completed := keep (r.date.map (ensure loc)) md.completed
    received := some (utcnow now) }

/-- `_handle_apply_reply` — client.py:965-1028. When both futures are done, `cleanup` (1302-1309) has taken the metadata out of `client.metadata`:
a later reply fills other metadata. -/
def Task.reply (loc : Int → Int) (t : Task) (now : Int) (r : Reply) : Task :=
  if t.value ∧ t.output then t
  else { md := t.md.update loc now r, value := true, output := t.output || r.noOutput }

/-- one event at a reading of the client's clock — client.py:965-1028, 1112-1122, 1229-1292 -/
def step (loc : Int → Int) (ts : List Task) (now : Int) : Ev → List Task
  | .send _ => ts ++ [{ md := { submitted := some (utcnow now) } }]
  | .reply i r => match ts[i]? with
    | none => ts
    | some t => ts.set i (t.reply loc now r)
  | .output i => match ts[i]? with
    | none => ts
    | some t => ts.set i { t with output := true }

/-- the tasks after a history -/
def run (loc : Int → Int) (evs : List (Int × Ev)) : List Task := evs.foldl (fun ts e => step loc ts e.1 e.2) []

/-- `ar.ready()`: all message futures are done — asyncresult.py:112-135, 305-311 -/
def ready (ts : List Task) : Bool := ts.all (fun t => t.value)

/-- `ar.timedelta(start, end)` with lists — asyncresult.py:745-780 -/
def timedelta (loc : Int → Int) (start stop : List (Option Stamp)) : Except Err Int :=
  match start, stop with
  | s :: ss, e :: es => do
    let a ← pyMinFrom s ss
    let b ← pyMaxFrom e es
    compareDatetimes loc b a
  | _, _ => .error .typeError

/-- `ar.timedelta(start, end)` with single times: `min(None)` is a TypeError — asyncresult.py:769-780 -/
def timedelta1 (loc : Int → Int) : Option Stamp → Option Stamp → Except Err Int
  | some a, some b => compareDatetimes loc (some b) (some a)
  | _, _ => .error .typeError

/-- `ar.wall_time` — asyncresult.py:829-839 (and `__getitem__`, 694-703); `single`: an AsyncResult of one result. An AttributeError in a property makes Python call `__getattr__` (709-716), which finds no metadata of that name: again an AttributeError -/
def wallTime (loc : Int → Int) (single : Bool) (ts : List Task) : Except Err Int :=
  if ready ts then
    let sub := ts.map (fun t => t.md.submitted)
    let rec' := ts.map (fun t => t.md.received)
    if single then (timedelta1 loc (sub.head?.join) (rec'.head?.join))
    else (timedelta loc sub rec')
  else .error .timeout

/-- the loop of `serial_time` — asyncresult.py:823-827 -/
def serialFrom (loc : Int → Int) (t : Int) : List Task → Except Err Int
  | [] => .ok t
  | x :: xs => do
    let d ← compareDatetimes loc x.md.completed x.md.started
    serialFrom loc (t + d) xs

/-- `ar.serial_time` — asyncresult.py:816-827 -/
def serialTime (loc : Int → Int) (ts : List Task) : Except Err Int :=
  if ready ts then (serialFrom loc 0 ts) else .error .timeout

/-- the loop of `elapsed` — asyncresult.py:810-813 -/
def earliest (m : Stamp) : List Task → Except Err Stamp
  | [] => .ok m
  | x :: xs =>
    match x.md.submitted with
    | none => earliest m xs
    | some s => do
      let b ← less (some s) (some m)
      earliest (if b then s else m) xs

/-- `ar.elapsed` at a reading of the clock — asyncresult.py:802-814 -/
def elapsed (loc : Int → Int) (single : Bool) (ts : List Task) (now : Int) : Except Err Int :=
  if ready ts then wallTime loc single ts
  else do
    let s ← earliest (utcnow now) ts
    compareDatetimes loc (some (utcnow now)) (some s)

end IPP.Timing
