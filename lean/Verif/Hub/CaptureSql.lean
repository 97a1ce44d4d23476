import Verif.Hub.Capture
import Verif.DB.Sqlite
/-!
# The hub's recording of task traffic in the SQLite database

The handlers of `Hub/Capture.lean` over the table of `DB/Sqlite.lean`. Exceptions of the database are logged by the handlers and leave the table as it is; `purge` is for one id
(`drop_matching_records` with `msg_id` — see C32 for lists of ids).
-/
namespace IPP.Capture

open IPP.DB

/-- `pending`, `all_completed` and the table — hub.py:142-205, sqlitedb.py:258-313 -/
structure SHub where
  rows : Sql.Rows
  pending : List Id
  done : List Id

/-- a call of the database whose exception, if any, is logged — hub.py:488-503, 556-560, 690-697, 753-760, 779-782, 858-861 -/
def SHub.call (s : SHub) (op : Op) : SHub := { s with rows := (Sql.step s.rows op).1 }

/-- `save_queue_request`, `save_task_request` — hub.py:465-503, 653-697 -/
def requestSql (s : SHub) (k : Kind) (m : Id) (q : Req) : SHub :=
  let s := s.call (match Sql.rowOf s.rows m with
    | some existing => .update m (merge k existing (resubmitPop k existing (initRecord k m q)))
    | none => .add m (initRecord k m q))
  { s with pending := if m ∈ s.pending then s.pending else s.pending ++ [m] }

/-- `save_queue_result`, `save_task_result` — hub.py:529-560, 718-760 -/
def resultSql (s : SHub) (k : Kind) (m : Id) (r : Rep) : SHub :=
  if m ∈ s.pending then
    SHub.call { s with pending := s.pending.filter (fun x => x ≠ m)
                       done := if m ∈ s.done then s.done else s.done ++ [m] } (.update m (resultFields k r))
  else match k with
    | .mux _ => if m ∈ s.done then s.call (.update m (resultFields k r)) else s
    | .task => s

/-- `save_iopub_message` — hub.py:813-861 -/
def iopubSql (s : SHub) (m : Id) (o : Out) : SHub :=
  let old := Sql.rowOf s.rows m
  let d := outFields old o
  if d = [] then s
  else match old with
    | none => s.call (.add m ((emptyRecord m).update d))
    | some _ => s.call (.update m d)

/-- hub.py:321-338, 762-782, 1217-1262 -/
def stepSql (s : SHub) : CEv → SHub
  | .request k m q => requestSql s k m q
  | .result k m r => resultSql s k m r
  | .destination m u => s.call (.update m [("engine_uuid", .text u)])
  | .iopub m o => iopubSql s m o
  | .purge m => if m ∈ s.pending then s else s.call (.drop m)

/-- the event loop of a hub that starts with an empty table — hub.py:321-338 -/
def runSql (evs : List CEv) : SHub := evs.foldl stepSql ⟨[], [], []⟩

end IPP.Capture
