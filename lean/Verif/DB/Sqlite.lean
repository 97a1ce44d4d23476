import Verif.DB.Props
/-!
# Model of `controller/sqlitedb.py`

A rendered query is a list of conjuncts (the string `" AND ".join(expressions)`), each with its own arguments; SQL's three-valued logic is
`Option Bool` (`none` = NULL). Simplifications: a timestamp is its own storage class (the code stores ISO text; all with the same UTC offset, so text order is time order);
`dict` and `bufs` columns round-trip. Values of different storage classes compare by class, as in SQLite.
-/
namespace IPP.DB.Sql

open IPP.DB

/-- the columns — sqlitedb.py:136-162 -/
def columns : List Key :=
  ["msg_id", "header", "metadata", "content", "buffers", "submitted", "client_uuid", "engine_uuid", "started", "completed", "resubmitted", "received",
   "result_header", "result_metadata", "result_content", "result_buffers", "queue", "execute_input", "execute_result", "error", "stdout", "stderr", "label"]

/-- binary operators — sqlitedb.py:37-55 -/
inductive Bin where
  | lt | gt | eq | ne | le | ge
  deriving DecidableEq, Repr

/-- a conjunct of the WHERE clause — sqlitedb.py:329-374 -/
inductive Atom where
  | isNull (k : Key)
  | notNull (k : Key)
  | cmp (k : Key) (op : Bin) (arg : Val)
  /-- `( k op ? OR k op ? … )` -/
  | anyOf (k : Key) (op : Bin) (args : List Val)
  /-- `( k op ? AND k op ? … )` -/
  | allOf (k : Key) (op : Bin) (args : List Val)
  deriving DecidableEq, Repr

/-- sqlitedb.py:329-374 -/
inductive Err where
  | keyError
  | valueError
  /-- sqlite3.OperationalError: the text is not SQL -/
  | syntaxError
  deriving DecidableEq, Repr

/-- One operator of a condition — sqlitedb.py:318-342. -/
def renderTest (k : Key) : Test → Except Err Atom
  | .lt v => .ok (.cmp k .lt v)
  | .gt v => .ok (.cmp k .gt v)
  | .lte v => .ok (.cmp k .le v)
  | .gte v => .ok (.cmp k .ge v)
  | .eq v => .ok (if v = .null then .isNull k else .cmp k .eq v)
  | .ne v => .ok (if v = .null then .notNull k else .cmp k .ne v)
  | .isin vs => if .null ∈ vs then .error .valueError else .ok (.anyOf k .eq vs)
  | .nin vs => if .null ∈ vs then .error .valueError else .ok (.allOf k .ne vs)
  | .mod _ _ => .error .keyError
  | .exist _ => .error .keyError

/-- sqlitedb.py:340-364 -/
def renderTests (k : Key) : List Test → Except Err (List Atom)
  | [] => .ok []
  | t :: ts => match renderTest k t with
    | .error e => .error e
    | .ok a => match renderTests k ts with
      | .error e => .error e
      | .ok l => .ok (a :: l)

/-- the loop of `_render_expression` — sqlitedb.py:317-350 -/
def renderConds : Check → Except Err (List Atom)
  | [] => .ok []
  | (k, .plain v) :: rest => match renderConds rest with
    | .error e => .error e
    | .ok l => .ok ((if v = .null then .isNull k else .cmp k .eq v) :: l)
  | (k, .ops ts) :: rest => match renderTests k ts with
    | .error e => .error e
    | .ok l => match renderConds rest with
      | .error e => .error e
      | .ok l' => .ok (l ++ l')

/-- `_render_expression` — sqlitedb.py:306-353. -/
def render (check : Check) : Except Err (List Atom) :=
  if check.any (fun kc => kc.1 ∉ columns) then .error .keyError else renderConds check

/-- no `( )` — what SQLite accepts of sqlitedb.py:329-374 -/
def atomOk : Atom → Bool
  | .anyOf _ _ [] => false
  | .allOf _ _ [] => false
  | _ => true

/-- is the text a WHERE clause? An empty one is not, nor is `( )`. — what SQLite accepts of sqlitedb.py:329-374 -/
def wellFormed (l : List Atom) : Bool := l ≠ [] ∧ l.all atomOk

/-- storage classes — SQLite, for the statements of sqlitedb.py:423-457 -/
def cls : Val → Nat
  | .null => 0
  | .num _ => 1
  | .text _ => 2
  | .date _ => 3
  | .bufs _ => 4
  | .obj _ => 5

/-- SQL `<` on values that are not NULL — SQLite, for the statements of sqlitedb.py:423-457 -/
def sqlLess (a b : Val) : Bool := match pyLt a b with
  | some x => x
  | none => cls a < cls b

/-- SQL comparison — sqlitedb.py:37-55 -/
def sqlCmp (op : Bin) (a b : Val) : Option Bool :=
  if a = .null ∨ b = .null then none
  else some (match op with
    | .eq => a = b
    | .ne => a ≠ b
    | .lt => sqlLess a b
    | .gt => sqlLess b a
    | .le => !sqlLess b a
    | .ge => !sqlLess a b)

/-- SQL `OR` of a list — SQLite, for sqlitedb.py:349-362 -/
def sqlOr : List (Option Bool) → Option Bool
  | [] => some false
  | x :: xs => match x, sqlOr xs with
    | some true, _ => some true
    | _, some true => some true
    | some false, some false => some false
    | _, _ => none

/-- SQL `AND` of a list — SQLite, for sqlitedb.py:373 -/
def sqlAnd : List (Option Bool) → Option Bool
  | [] => some true
  | x :: xs => match x, sqlAnd xs with
    | some false, _ => some false
    | _, some false => some false
    | some true, some true => some true
    | _, _ => none

/-- SQLite, for sqlitedb.py:329-374 -/
def Atom.eval (r : Rec) : Atom → Option Bool
  | .isNull k => some (r.get k = .null)
  | .notNull k => some (r.get k ≠ .null)
  | .cmp k op v => sqlCmp op (r.get k) v
  | .anyOf k op vs => sqlOr (vs.map (fun v => sqlCmp op (r.get k) v))
  | .allOf k op vs => sqlAnd (vs.map (fun v => sqlCmp op (r.get k) v))

/-- a row is selected when the WHERE clause is true (not NULL) — SQLite, for sqlitedb.py:416-457 -/
def selected (l : List Atom) (r : Rec) : Bool := sqlAnd (l.map (fun a => a.eval r)) = some true

/-! ### the store -/

/-- the table — sqlitedb.py:258-313 -/
abbrev Rows := List (Id × Rec)

/-- the text that `json.dumps` makes of the dict number `n` (any text that is never empty and different for different dicts; 0 is the empty dict) — sqlitedb.py:58-59 -/
def jsonText (n : Nat) : String := "{" ++ (if n = 0 then "" else toString n) ++ "}"

/-- what a value in a column reads back as: an empty buffer list is stored as NULL — sqlitedb.py:63-82 (converters are not called for NULL); the columns `execute_result` and `error` hold dicts but
are declared as `text`, for which there is no converter: the JSON text comes back — sqlitedb.py:183-184, 260-266 -/
def norm (k : Key) : Val → Val
  | .bufs [] => .null
  | .obj n => if k = "error" ∨ k = "execute_result" then .text (jsonText n) else .obj n
  | v => v

/-- sqlitedb.py:315-327 -/
def normRec (r : Rec) : Rec := columns.map (fun k => (k, norm k (r.get k)))

/-- sqlitedb.py:386-394 -/
def rowOf (rows : Rows) (i : Id) : Option Rec := (rows.find? (fun x => x.1 = i)).map Prod.snd

/-- `add_record`, `update_record`, `drop_record`, `drop_matching_records` — sqlitedb.py:355-401; the flag: raised. -/
def step (rows : Rows) : Op → Rows × Bool
  | .add i r =>
    if (rowOf rows i).isSome then (rows, true) -- IntegrityError: PRIMARY KEY
    else (rows ++ [(i, normRec (("msg_id", .text i) :: r))], false)
  | .update i new =>
    if new.any (fun kv => kv.1 ∉ columns) ∨ new = [] then (rows, true) -- OperationalError
    else (rows.map (fun x => if x.1 = i then (i, normRec (new ++ x.2)) else x), false)
  | .drop i => (rows.filter (fun x => x.1 ≠ i), false)
  | .dropMatching check => match render check with
    | .error _ => (rows, true)
    | .ok l => if wellFormed l then (rows.filter (fun x => !selected l x.2), false) else (rows, true)

/-- `find_records` (all keys) — sqlitedb.py:403-436. -/
def find (rows : Rows) (check : Check) : Except Err (List Rec) :=
  match render check with
  | .error e => .error e
  | .ok l => if wellFormed l then .ok ((rows.map Prod.snd).filter (fun r => selected l r)) else .error .syntaxError

/-- a sequence of calls of the methods of sqlitedb.py:376-465 -/
def run (ops : List Op) : Rows := ops.foldl (fun rows op => (step rows op).1) []

end IPP.DB.Sql
