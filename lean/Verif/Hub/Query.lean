import Verif.DB.SqliteProps
/-!
# Model of `db_query`: the hub's side (hub.py:1460-1505) and the client's side (client.py:2551-2594)

The reply carries the records without their buffers, two optional lists of lengths, and all buffers in one flat list. The numbers in `Val.bufs` stand for the buffers
themselves (nothing here looks inside one). The JSON packer turns timestamps into ISO text, the client parses four fields of every record back; the printing and parsing of a
timestamp are abstract (`Iso`). Headers (opaque `obj` values) go through `extract_dates` and are treated as unchanged. Not modelled: the other packers (with pickle,
`_parse_date` would be given datetimes), signatures, and what happens when the reply never comes.
-/
namespace IPP.Query

open IPP.DB

/-- `datetime.isoformat` and `dateutil.parser.parse` guarded by `ISO8601_PAT` — util.py:541-576 -/
structure Iso where
  fmt : Int → String
  parse : String → Option Int
  inv : ∀ t, parse (fmt t) = some t

/-- `key in rec` — `'buffers' in keys` and `rec.pop` — hub.py:1474-1490 -/
def has (r : Rec) (k : Key) : Bool := r.any (fun kv => kv.1 = k)

/-- `del rec[key]` — `rec.pop` — hub.py:1483-1487 -/
def del (r : Rec) (k : Key) : Rec := r.filter (fun kv => kv.1 ≠ k)

/-- `value or []`, of a buffer field — hub.py:1483, 1487 -/
def bufsOf : Val → List Nat
  | .bufs l => l
  | _ => []

/-- `rec.pop(key, empty) or empty` — hub.py:1484, 1488 (`Rec.get` of a missing key is null, so empty) -/
def popBufs (r : Rec) (k : Key) : List Nat × Rec := (bufsOf (r.get k), del r k)

/-- content and buffers of a `db_reply` — hub.py:1470-1504 -/
structure Reply where
  records : List Rec
  bufferLens : Option (List Nat)
  resultLens : Option (List Nat)
  buffers : List Nat
  deriving DecidableEq, Repr

/-- one turn of the loop over the records — hub.py:1482-1491 -/
def packOne (acc : Reply) (r : Rec) : Reply :=
  let p := popBufs r "buffers"
  let a1 : Reply := match acc.bufferLens with
    | none => acc
    | some ls => { acc with bufferLens := some (ls ++ [p.1.length]), buffers := acc.buffers ++ p.1 }
  let q := popBufs p.2 "result_buffers"
  let a2 : Reply := match a1.resultLens with
    | none => a1
    | some ls => { a1 with resultLens := some (ls ++ [q.1.length]), buffers := a1.buffers ++ q.1 }
  { a2 with records := a2.records ++ [q.2] }

/-- the lists of lengths before the loop — hub.py:1473-1480 -/
def startReply : Option (List Key) → Reply
  | none => { records := [], bufferLens := none, resultLens := none, buffers := [] }
  | some ks => { records := [], bufferLens := if "buffers" ∈ ks then some [] else none,
                 resultLens := if "result_buffers" ∈ ks then some [] else none, buffers := [] }

/-- hub.py:1472-1496 -/
def pack (keys : Option (List Key)) (recs : List Rec) : Reply := recs.foldl packOne (startReply keys)

/-- a value as JSON — jupyter_client's `json_default` as called by `session.send`, hub.py:1498-1505 -/
def toJson (iso : Iso) : Val → Val
  | .date t => .text (iso.fmt t)
  | v => v

/-- hub.py:1498-1505 -/
def wireRec (iso : Iso) (r : Rec) : Rec := r.map (fun kv => (kv.1, toJson iso kv.2))

/-- the reply as the client reads it: JSON content, buffers as they are — hub.py:1498-1505, client.py:2550-2597 -/
def wire (iso : Iso) (p : Reply) : Reply := { p with records := p.records.map (wireRec iso) }

/-- the fields parsed by the client — client.py:2578-2580 -/
def dateKeys : List Key := ["submitted", "started", "completed", "received"]

/-- `_parse_date` — util.py:563-576 -/
def parseDate (iso : Iso) : Val → Val
  | .text s => match iso.parse s with
    | some t => .date t
    | none => .text s
  | v => v

/-- "unpack datetime objects" — client.py:2574-2580 -/
def unDates (iso : Iso) (r : Rec) : Rec := r.map (fun kv => (kv.1, if kv.1 ∈ dateKeys then parseDate iso kv.2 else kv.2))

/-- `rec[key] = value` — client.py:2550-2597 -/
def setKey (r : Rec) (k : Key) (v : Val) : Rec := (k, v) :: del r k

/-- the loop over the records, from record number `i` on — client.py:2572-2587. `buffer_lens[i]` raises IndexError when the list is too short: `none`. -/
def unpackFrom (iso : Iso) (bl rl : Option (List Nat)) : Nat → List Nat → List Rec → Option (List Rec)
  | _, _, [] => some []
  | i, bufs, r :: rest =>
    let r0 := unDates iso r
    let s1 : Option (Rec × List Nat) := match bl with
      | none => some (r0, bufs)
      | some ls => (ls[i]?).map (fun n => (setKey r0 "buffers" (.bufs (bufs.take n)), bufs.drop n))
    match s1 with
    | none => none
    | some (r1, b1) =>
      let s2 : Option (Rec × List Nat) := match rl with
        | none => some (r1, b1)
        | some ls => (ls[i]?).map (fun n => (setKey r1 "result_buffers" (.bufs (b1.take n)), b1.drop n))
      match s2 with
      | none => none
      | some (r2, b2) => (unpackFrom iso bl rl (i + 1) b2 rest).map (fun l => r2 :: l)

/-- client.py:2564-2589 -/
def unpack (iso : Iso) (p : Reply) : Option (List Rec) := unpackFrom iso p.bufferLens p.resultLens 0 p.buffers p.records

/-- `Client.db_query` against a hub whose database answers `find_records` with `found` (`none`: it raised, so the reply has status 'error' and the client raises). — client.py:2550-2597 -/
def dbQuery (iso : Iso) (found : Option (List Rec)) (keys : Option (List Key)) : Option (List Rec) :=
  found.bind (fun recs => unpack iso (wire iso (pack keys recs)))

/-- SQLite's `find_records` with keys — sqlitedb.py:423-457: `msg_id` comes first; an unknown key raises; for an empty list every column is selected, but
`_list_to_dict` zips the row with the empty list, so the record has no fields at all. -/
def sqlFindKeys (rows : Sql.Rows) (check : Check) (keys : Option (List Key)) : Except Sql.Err (List Rec) :=
  match keys with
  | none => Sql.find rows check
  | some ks =>
    if ks.any (fun k => k ∉ Sql.columns) then .error .keyError
    else match Sql.find rows check with
      | .error e => .error e
      | .ok rs => .ok (if ks = [] then rs.map (fun _ => []) else rs.map (fun r => ("msg_id" :: ks.erase "msg_id").map (fun k => (k, r.get k))))

end IPP.Query
