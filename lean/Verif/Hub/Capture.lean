import Verif.DB.Props
/-!
# Model of the hub's recording of task traffic in the in-memory database, field by field

`Verif.Hub.Msgs` follows the tables of the hub with records reduced to what the hub's logic reads; here the records have all their fields, and the store is the DictDB of
`Verif.DB` (evictions included). Handlers: `save_queue_request`, `save_task_request`, `save_queue_result`, `save_task_result`, `save_task_destination`, `save_iopub_message`,
`purge_results` for one id. Simplifications: engines named by messages are registered; a `dict` value is an opaque number, 0 being the empty dict; exceptions of the database
are logged by the hub, so they leave the state as it is. The per-engine lists are left out (see `Verif.Hub.Msgs`).
-/
namespace IPP.Capture

open IPP.DB

/-- Python truth value of a field — `if evalue and rvalue`, … — hub.py:475-491, 672-686 -/
def truthy : Val → Bool
  | .null => false
  | .num n => n ≠ 0
  | .text s => s ≠ ""
  | .date _ => true
  | .bufs l => l ≠ []
  | .obj n => n ≠ 0

/-- `empty_record()` with its `msg_id` — hub.py:53-79, 848-849 -/
def emptyRecord (m : Id) : Rec :=
  [("msg_id", .text m), ("header", .null), ("metadata", .null), ("content", .null), ("buffers", .null), ("submitted", .null), ("client_uuid", .null),
   ("engine_uuid", .null), ("started", .null), ("completed", .null), ("resubmitted", .null), ("received", .null), ("result_header", .null), ("result_metadata", .null),
   ("result_content", .null), ("result_buffers", .null), ("queue", .null), ("execute_input", .null), ("execute_result", .null), ("error", .null), ("stdout", .text ""),
   ("stderr", .text ""), ("label", .null)]

/-- what a request says — `init_record` — hub.py:87-116 -/
structure Req where
  header : Nat
  content : Nat
  metadata : Nat
  bufs : List Nat
  date : Int
  session : String
  label : Val
  deriving DecidableEq, Repr

/-- Which socket it went through: the direct queue to this engine, or the task scheduler. — hub.py:443-501, 638-697 -/
inductive Kind where
  | mux (engine : String)
  | task
  deriving DecidableEq, Repr

/-- `init_record` and the fields set by the two handlers — hub.py:87-118, 465-470, 655-656 -/
def initRecord (k : Kind) (m : Id) (q : Req) : Rec :=
  [("msg_id", .text m), ("header", .obj q.header), ("metadata", .obj q.metadata), ("content", .obj q.content), ("buffers", .bufs q.bufs), ("submitted", .date q.date),
   ("client_uuid", .text q.session),
   ("engine_uuid", match k with
     | .mux u => .text u
     | .task => .null),
   ("started", .null), ("completed", .null), ("resubmitted", .null), ("received", .null), ("result_header", .null), ("result_metadata", .null),
   ("result_content", .null), ("result_buffers", .null),
   ("queue", .text (match k with
     | .mux _ => "mux"
     | .task => "task")),
   ("execute_input", .null), ("execute_result", .null), ("error", .null), ("stdout", .text ""),
   ("stderr", .text ""), ("label", q.label)]

/-- keys that `save_task_request` does not compare: `key.endswith('buffers')` — hub.py:675 -/
def skipped (k : Kind) (key : Key) : Bool := match k with
  | .mux _ => false
  | .task => key = "buffers" ∨ key = "result_buffers"

/-- the loop that merges an existing record into the new one — hub.py:475-487, 674-689: `if evalue and not rvalue: record[key] = evalue` -/
def merge (k : Kind) (existing record : Rec) : Rec :=
  existing.filterMap (fun kv =>
    if ¬ skipped k kv.1 ∧ truthy (existing.get kv.1) ∧ ¬ truthy (record.get kv.1) then some (kv.1, existing.get kv.1) else none) ++ record

/-- "don't clobber these keys on resubmit" — hub.py:665-671 -/
def resubmitPop (k : Kind) (existing record : Rec) : Rec := match k with
  | .mux _ => record
  | .task => if truthy (existing.get "resubmitted") then record.filter (fun kv => kv.1 ∉ ["submitted", "client_uuid", "buffers"]) else record

/-- `pending`, `all_completed` and the database — hub.py:142-205 -/
structure CHub where
  db : State
  pending : List Id
  /-- `all_completed` -/
  done : List Id

/-- `save_queue_request`, `save_task_request` — hub.py:465-503, 653-697 -/
def request (c : Cfg) (s : CHub) (k : Kind) (m : Id) (q : Req) : CHub :=
  let op := match get s.db m with
    | some existing => .update m (merge k existing (resubmitPop k existing (initRecord k m q)))
    | none => .add m (initRecord k m q)
  { s with db := (step c s.db op).1
           pending := if m ∈ s.pending then s.pending else s.pending ++ [m] }

/-- what a reply says; `started` is null or a date after parsing — hub.py:543-561, 741-755 -/
structure Rep where
  header : Nat
  metadata : Nat
  content : Nat
  bufs : List Nat
  started : Option Int
  completed : Int
  received : Int
  engine : String
  deriving DecidableEq, Repr

/-- hub.py:541-556, 736-750; only the task queue's result sets `engine_uuid` -/
def resultFields (k : Kind) (r : Rep) : Rec :=
  [("result_header", .obj r.header), ("result_metadata", .obj r.metadata), ("result_content", .obj r.content), ("received", .date r.received),
   ("started", match r.started with
     | some t => .date t
     | none => .null), ("completed", .date r.completed), ("result_buffers", .bufs r.bufs)] ++
  (match k with
   | .mux _ => []
   | .task => [("engine_uuid", .text r.engine)])

/-- `save_queue_result`, `save_task_result` — hub.py:529-560, 718-760: accepted when pending, by the direct queue also when already completed. -/
def result (c : Cfg) (s : CHub) (k : Kind) (m : Id) (r : Rep) : CHub :=
  let store (s : CHub) : CHub := { s with db := (step c s.db (.update m (resultFields k r))).1 }
  if m ∈ s.pending then
    store { s with pending := s.pending.filter (fun x => x ≠ m)
                   done := if m ∈ s.done then s.done else s.done ++ [m] }
  else match k with
    | .mux _ => if m ∈ s.done then store s else s
    | .task => s

/-- `save_task_destination` — hub.py:762-782 -/
def destination (c : Cfg) (s : CHub) (m : Id) (u : String) : CHub := { s with db := (step c s.db (.update m [("engine_uuid", .text u)])).1 }

/-- the streams — `content['name']` — hub.py:813-865 -/
inductive Stream where
  | stdout
  | stderr
  deriving DecidableEq, Repr

/-- a stream is a key of the record — hub.py:813-865 -/
def Stream.key : Stream → Key
  | .stdout => "stdout"
  | .stderr => "stderr"

/-- an IOPub message of an engine; `ignored`: status, data_pub and unknown types — hub.py:813-865 -/
inductive Out where
  | stream (n : Stream) (text : String)
  | error (content : Nat)
  | input (code : String)
  | executeResult (content : Nat)
  | displayData (content : Nat)
  | ignored
  deriving DecidableEq, Repr

/-- the fields a message sets, given the current record — hub.py:829-843 -/
def outFields (old : Option Rec) : Out → Rec
  | .stream n t => [(n.key, .text ((match old with
      | none => ""
      | some r => match r.get n.key with
        | .text s => s
        | _ => "") ++ t))]
  | .error c => [("error", .obj c)]
  | .input code => [("execute_input", .text code)]
  | .executeResult c => [("execute_result", .obj c)]
  | .displayData c => [("display_data", .obj c)]
  | .ignored => []

/-- `save_iopub_message` — hub.py:813-861 -/
def iopub (c : Cfg) (s : CHub) (m : Id) (o : Out) : CHub :=
  let old := get s.db m
  let d := outFields old o
  if d = [] then s
  else match old with
    | none => { s with db := (step c s.db (.add m ((emptyRecord m).update d))).1 }
    | some _ => { s with db := (step c s.db (.update m d)).1 }

/-- `purge_results` for one id: refused while it is pending — hub.py:1217-1262 -/
def purge (c : Cfg) (s : CHub) (m : Id) : CHub := if m ∈ s.pending then s else { s with db := (step c s.db (.drop m)).1 }

/-- hub.py:321-338 -/
inductive CEv where
  | request (k : Kind) (m : Id) (q : Req)
  | result (k : Kind) (m : Id) (r : Rep)
  | destination (m : Id) (u : String)
  | iopub (m : Id) (o : Out)
  | purge (m : Id)
  deriving DecidableEq, Repr

/-- hub.py:321-338 -/
def cstep (c : Cfg) (s : CHub) : CEv → CHub
  | .request k m q => request c s k m q
  | .result k m r => result c s k m r
  | .destination m u => destination c s m u
  | .iopub m o => iopub c s m o
  | .purge m => purge c s m

/-- hub.py:207-261 -/
def chub0 : CHub := { db := init, pending := [], done := [] }

/-- the event loop of the hub — hub.py:321-338 -/
def crun (c : Cfg) (evs : List CEv) : CHub := evs.foldl (cstep c) chub0

end IPP.Capture
