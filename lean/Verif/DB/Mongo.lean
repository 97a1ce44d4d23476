import Verif.DB.Model

/-!
# Model of `controller/mongodb.py`: the task database in MongoDB

The server itself is taken from its documentation (and `pymongo`'s): a collection with a unique index on `msg_id`; `insert_one`, `update_one` with `$set`,
`delete_many`, `find`, `find_one`; comparison operators only compare values of the same type (null with null), a missing field counts as null;
`$exists` asks whether the field is there; `$mod` has the remainder of C; datetimes are stored with milliseconds.

Simplifications: as in `Verif.DB.Model` (here dates count microseconds); natural order is insertion order; queries on the two fields with lists of buffers
are not modelled (a comparison matches if one element does); an empty `$set` is accepted (MongoDB 5); `$all` and regular expressions given by the user
are not modelled; network errors are not.
-/
namespace IPP.DB.Mongo
open IPP.DB

/-! ### what is stored -/

/-- BSON's datetime: whole milliseconds — the documents of mongodb.py:84-102 -/
def ms : Val → Val
  | .date t => .date (t - t % 1000)
  | v => v

/-- a document — mongodb.py:84-102 -/
def msRec (r : Rec) : Rec := r.map (fun kv => (kv.1, ms kv.2))

/-- the documents of the collection — mongodb.py:69-74 -/
abbrev Docs := List Rec

/-- `find_one({'msg_id': msg_id})` — mongodb.py:92 -/
def docOf (docs : Docs) (i : Id) : Option Rec := docs.find? (fun r => r.get "msg_id" = .text i)

/-- `get_record` — mongodb.py:90-96: with the field `_id` that the server adds; `none` is KeyError. -/
def getRecord (docs : Docs) (i : Id) : Option Rec := (docOf docs i).map (fun r => ("_id", .obj 0) :: r)

/-! ### queries -/

/-- is the field there? — MongoDB, for mongodb.py:162 -/
def present (r : Rec) (k : Key) : Bool := r.any (fun kv => kv.1 = k)

/-- `$lt` of values of the same type — MongoDB, for mongodb.py:162 -/
def less (a b : Val) : Bool := pyLt a b = some true

/-- `$lte`; null is at most null — MongoDB, for mongodb.py:162 -/
def lessEq (a b : Val) : Bool := pyLe a b = some true ∨ a = .null ∧ b = .null

/-- The operators — MongoDB, for mongodb.py:162. -/
def testDoc (r : Rec) (k : Key) : Test → Bool
  | .lt b => less (r.get k) b
  | .gt b => less b (r.get k)
  | .eq b => r.get k = b
  | .ne b => r.get k ≠ b
  | .lte b => lessEq (r.get k) b
  | .gte b => lessEq b (r.get k)
  | .isin bs => r.get k ∈ bs
  | .nin bs => r.get k ∉ bs
  | .mod m q => match r.get k with
    | .num n => n.tmod m = q
    | _ => false
  | .exist b => present r k = b

/-- A condition of a query: as for DictDB, or `{'$glob': pattern}`, alone or with other operators — dictdb.py:49-62, mongodb.py:112-141 -/
inductive MCond where
  | base (c : Cond)
  | glob (pattern : String)
  | globAnd (pattern : String) (t : Test) (ts : List Test)
  deriving DecidableEq, Repr

/-- a query — mongodb.py:143 -/
abbrev MCheck := List (Key × MCond)

/-- The condition as the server gets it: `$glob` has become `$regex` — mongodb.py:126 -/
inductive SCond where
  | base (c : Cond)
  | regex (s : String)
  deriving DecidableEq, Repr

/-- Python data as the queries are made of — mongodb.py:112-141 -/
inductive J where
  | leaf (v : Val)
  | list (l : List J)
  | dict (l : List (Key × J))

/-- `fnmatch.translate` and the matching of a text by the server; that the server's regular expression `^…$` matches the texts that the pattern does is assumed. — mongodb.py:126 -/
structure Glob where
  translate : String → String
  matchText : String → String → Bool

/-- the keys of a dict — mongodb.py:121-128 -/
def keysOf (l : List (Key × J)) : List Key := l.map Prod.fst

/-- the pattern of a dict that has nothing else — mongodb.py:117-126 -/
def onlyGlob : List (Key × J) → Option String
  | [(_, .leaf (.text p))] => some p
  | _ => none

mutual
/-- `_translate` — mongodb.py:112-141. `none`: an Exception (of line 122, or of `fnmatch.translate` for something that is not a text). -/
def translate (g : Glob) : J → Option J
  | .leaf v => some (.leaf v)
  | .list l => (transL g l).map .list
  | .dict l =>
    if "$glob" ∈ keysOf l then
      (onlyGlob l).map (fun p => .dict [("$regex", .leaf (.text ("^" ++ g.translate p ++ "$")))])
    else (transD g l).map .dict
/-- mongodb.py:114-118 -/
def transL (g : Glob) : List J → Option (List J)
  | [] => some []
  | x :: xs => match translate g x, transL g xs with
    | some y, some ys => some (y :: ys)
    | _, _ => none
/-- mongodb.py:132-138 -/
def transD (g : Glob) : List (Key × J) → Option (List (Key × J))
  | [] => some []
  | (k, x) :: xs => match translate g x, transD g xs with
    | some y, some ys => some ((k, y) :: ys)
    | _, _ => none
end

/-- An operator as written in Python. — dictdb.py:49-62 -/
def encTest : Test → Key × J
  | .lt v => ("$lt", .leaf v)
  | .gt v => ("$gt", .leaf v)
  | .eq v => ("$eq", .leaf v)
  | .ne v => ("$ne", .leaf v)
  | .lte v => ("$lte", .leaf v)
  | .gte v => ("$gte", .leaf v)
  | .isin vs => ("$in", .list (vs.map .leaf))
  | .nin vs => ("$nin", .list (vs.map .leaf))
  | .mod m r => ("$mod", .list [.leaf (.num m), .leaf (.num r)])
  | .exist b => ("$exists", .leaf (.num (if b then 1 else 0)))

/-- A condition as written in Python. — mongodb.py:143-160 -/
def encCond : MCond → J
  | .base (.plain v) => .leaf v
  | .base (.ops ts) => .dict (ts.map encTest)
  | .glob p => .dict [("$glob", .leaf (.text p))]
  | .globAnd p t ts => .dict (("$glob", .leaf (.text p)) :: (t :: ts).map encTest)

/-- A query as written in Python. — mongodb.py:143-160 -/
def enc (c : MCheck) : J := .dict (c.map (fun kc => (kc.1, encCond kc.2)))

/-- A condition as the server gets it. — mongodb.py:162 -/
def encS (g : Glob) : SCond → J
  | .base (.plain v) => .leaf v
  | .base (.ops ts) => .dict (ts.map encTest)
  | .regex s => .dict [("$regex", .leaf (.text s))]

/-- what `_translate` makes of a condition — mongodb.py:112-141 -/
def serverCond (g : Glob) : MCond → Option SCond
  | .base c => some (.base c)
  | .glob p => some (.regex ("^" ++ g.translate p ++ "$"))
  | .globAnd _ _ _ => none

/-- does the server take the query? `$mod` by 0 is an error; a `$glob` that is still there too — MongoDB, for mongodb.py:106, 162 -/
def legalTest : Test → Bool
  | .mod m _ => m ≠ 0
  | _ => true

/-- the same for a condition — MongoDB, for mongodb.py:106, 162 -/
def legal : MCond → Bool
  | .base (.ops ts) => ts.all legalTest
  | _ => true

/-- A value in a query is made a BSON datetime too. — mongodb.py:106, 162 -/
def msTest : Test → Test
  | .lt v => .lt (ms v)
  | .gt v => .gt (ms v)
  | .eq v => .eq (ms v)
  | .ne v => .ne (ms v)
  | .lte v => .lte (ms v)
  | .gte v => .gte (ms v)
  | .isin vs => .isin (vs.map ms)
  | .nin vs => .nin (vs.map ms)
  | t => t

/-- does the document satisfy the condition? — MongoDB, for mongodb.py:106, 162 -/
def condDoc (g : Glob) (r : Rec) (k : Key) : MCond → Bool
  | .base (.plain v) => r.get k = ms v
  | .base (.ops ts) => (ts.map msTest).all (testDoc r k)
  | .glob p => match r.get k with
    | .text s => g.matchText p s
    | _ => false
  | .globAnd _ _ _ => false

/-- all conditions — MongoDB, for mongodb.py:106, 162 -/
def matchDoc (g : Glob) (check : MCheck) (r : Rec) : Bool := check.all (fun kc => condDoc g r kc.1 kc.2)

/-- The projection: pymongo takes an empty list for `['_id']`; `_id` is removed afterwards — mongodb.py:160-165 -/
def project : Option (List Key) → Rec → Rec
  | none, r => r
  | some [], _ => []
  | some (k :: ks), r =>
    let keys := if "msg_id" ∈ (k :: ks) then k :: ks else (k :: ks) ++ ["msg_id"]
    r.filter (fun kv => kv.1 ∈ keys)

/-- `find_records` — mongodb.py:143-165. `none`: an exception. -/
def find (g : Glob) (docs : Docs) (check : MCheck) (keys : Option (List Key)) : Option (List Rec) :=
  if (translate g (enc check)).isNone then none
  else if check.any (fun kc => !legal kc.2) then none
  else some ((docs.filter (matchDoc g check)).map (project keys))

/-! ### the calls -/

/-- `update_one`: the first document with this id — mongodb.py:98-102 -/
def updateFirst (i : Id) (new : Rec) : Docs → Docs
  | [] => []
  | r :: rs => if r.get "msg_id" = .text i then (new ++ r) :: rs else r :: updateFirst i new rs

/-- `add_record`, `update_record`, `drop_record`, `drop_matching_records` — mongodb.py:84-110; the flag: raised (DuplicateKeyError, OperationFailure).
`add_record` and `update_record` use the record's own `msg_id`. -/
def step (g : Glob) (docs : Docs) : Op → Docs × Bool
  | .add _ r =>
    if docs.any (fun x => x.get "msg_id" = r.get "msg_id") then (docs, true)
    else (docs ++ [msRec r], false)
  | .update i new =>
    if present new "msg_id" && new.get "msg_id" ≠ .text i && (docOf docs i).isSome &&
        docs.any (fun x => x.get "msg_id" = new.get "msg_id") then (docs, true)
    else (updateFirst i (msRec new) docs, false)
  | .drop i => (docs.filter (fun r => r.get "msg_id" ≠ .text i), false)
  | .dropMatching check =>
    if check.any (fun kc => !legal (.base kc.2)) then (docs, true)
    else (docs.filter (fun r => !matchDoc g (check.map (fun kc => (kc.1, .base kc.2))) r), false)

/-- `drop_matching_records` with `$glob`: the query is not translated, and the server does not know `$glob` — mongodb.py:104-106 -/
def dropGlob (docs : Docs) (check : MCheck) : Option Docs :=
  if check.any (fun kc => match kc.2 with | .base _ => false | _ => true) then none else some docs

/-- a sequence of calls — mongodb.py:84-110 -/
def run (g : Glob) (ops : List Op) : Docs := ops.foldl (fun d op => (step g d op).1) []

/-- submission time and id of a document — mongodb.py:167-170 -/
def stampOf (r : Rec) : Option (Int × Id) :=
  match submitted r, r.get "msg_id" with
  | some d, .text i => some (d, i)
  | _, _ => none

/-- `find({}, {'msg_id': 1}).sort('submitted')`: null sorts before dates — mongodb.py:167-170 -/
def history (docs : Docs) : List Val :=
  (docs.filter (fun r => submitted r = none)).map (fun r => r.get "msg_id") ++
  ((sortBy (docs.filterMap stampOf)).map (fun x => Val.text x.2))

end IPP.DB.Mongo
