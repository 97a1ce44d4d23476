/-!
# Model of `controller/dictdb.py`: the in-memory task database

Simplifications: a record is an association list (first entry wins; a missing key reads as `None`, which is what `rec.get(key, None)` gives; the hub always
stores all keys: hub.py:56-86); timestamps are numbers (all with timezone); a buffer is its length; dict-valued fields are opaque; values are immutable (`deepcopy` on the way
out, dictdb.py:160, 263; the record handed to `add_record` is not copied by the code: here the caller gives it away).
The operators `$all` and `$glob` are not modelled.
-/
namespace IPP.DB

/-- keys of records — hub.py:53-79 -/
abbrev Key := String
/-- message ids — dictdb.py:241 -/
abbrev Id := String

/-- The values stored in the fields of a record — dictdb.py:7-24. -/
inductive Val where
  | null
  | num (n : Int)
  | text (s : String)
  | date (t : Int)
  | bufs (sizes : List Nat)
  | obj (tag : Nat)
  deriving DecidableEq, Repr

/-- dicts — hub.py:53-79 -/
abbrev Rec := List (Key × Val)

/-- `rec.get(key, None)` — dictdb.py:149 -/
def Rec.get (r : Rec) (k : Key) : Val := ((r.find? (fun kv => kv.1 = k)).map Prod.snd).getD .null

/-- `dict.update` — dictdb.py:264 -/
def Rec.update (r new : Rec) : Rec := new ++ r

/-! ### queries -/

/-- The operators of `filters` — dictdb.py:49-62. -/
inductive Test where
  | lt (v : Val)
  | gt (v : Val)
  | eq (v : Val)
  | ne (v : Val)
  | lte (v : Val)
  | gte (v : Val)
  | isin (vs : List Val)
  | nin (vs : List Val)
  | mod (m r : Int)
  | exist (b : Bool)
  deriving DecidableEq, Repr

/-- Python's `a < b`; `none`: TypeError (different or unordered types; ordering of buffer lists is treated as unsupported). — used by dictdb.py:51-64 -/
def pyLt : Val → Val → Option Bool
  | .num a, .num b => some (a < b)
  | .text a, .text b => some (a < b)
  | .date a, .date b => some (a < b)
  | _, _ => none

/-- Python's `a <= b`. — used by dictdb.py:51-64 -/
def pyLe : Val → Val → Option Bool
  | .num a, .num b => some (a ≤ b)
  | .text a, .text b => some (¬ b < a)
  | .date a, .date b => some (a ≤ b)
  | _, _ => none

/-- The lambdas of `filters`, applied to the field `a` — dictdb.py:49-62. `$gt` is written `b > a`. `none`: an exception. -/
def Test.run (a : Val) : Test → Option Bool
  | .lt b => pyLt a b
  | .gt b => pyLt a b -- `lambda a, b: b > a`
  | .eq b => some (a = b)
  | .ne b => some (a ≠ b)
  | .lte b => pyLe a b
  | .gte b => pyLe b a
  | .isin bs => some (a ∈ bs)
  | .nin bs => some (a ∉ bs)
  | .mod m r => match a with
    | .num n => if m = 0 then none else some (n.fmod m = r)
    | _ => none
  | .exist b => some (if b then a ≠ .null else a = .null)

/-- A condition on one key: a plain value, or a dict of operators. — dictdb.py:153-162 -/
inductive Cond where
  | plain (v : Val)
  | ops (ts : List Test)
  deriving DecidableEq, Repr

/-- dictdb.py:153 -/
abbrev Check := List (Key × Cond)

/-- `CompositeFilter.__call__` — dictdb.py:81-85: stops at the first test that fails. -/
def runTests (a : Val) : List Test → Option Bool
  | [] => some true
  | t :: ts => match t.run a with
    | none => none
    | some false => some false
    | some true => runTests a ts

/-- The value that every plain test compares with: the closures share the variable `v` of the loop, whose final value is the condition of the *last*
key — dictdb.py:150-155. `none` when that is a dict: no field of ours equals a dict of operators. -/
def lastPlain : Check → Option Val
  | [] => none
  | [(_, .plain v)] => some v
  | [(_, .ops _)] => none
  | _ :: x :: rest => lastPlain (x :: rest)

/-- `tests[k](value)` — dictdb.py:150-155. -/
def Cond.run (last : Option Val) (a : Val) : Cond → Option Bool
  | .plain _ => some (some a = last)
  | .ops ts => runTests a ts

/-- `_match_one` — dictdb.py:139-144. -/
def matchOne (last : Option Val) (r : Rec) : Check → Option Bool
  | [] => some true
  | (k, c) :: rest => match c.run last (r.get k) with
    | none => none
    | some false => some false
    | some true => matchOne last r rest

/-- the loop over the records of `_match` — dictdb.py:157-160 -/
def matchAll (check : Check) : List (Id × Rec) → Option (List (Id × Rec))
  | [] => some []
  | (i, r) :: rest => match matchOne (lastPlain check) r check with
    | none => none
    | some b => match matchAll check rest with
      | none => none
      | some ms => some (if b then (i, r) :: ms else ms)

/-- `_extract_subdict` — dictdb.py:162-168: `msg_id` and the requested keys. -/
def extract (keys : List Key) (r : Rec) : Rec := ("msg_id" :: keys).map (fun k => (k, r.get k))

/-! ### the store -/

/-- Configuration — dictdb.py:108-137. `toCull` is `int(cull_fraction * record_limit)`, `sizeTarget` is `floor(size_limit * (1 - cull_fraction))`. -/
structure Cfg where
  recordLimit : Nat
  toCull : Nat
  sizeLimit : Int
  sizeTarget : Int
  deriving DecidableEq, Repr

/-- dictdb.py:109-111 -/
structure State where
  /-- `_records`, in insertion order -/
  records : List (Id × Rec)
  /-- `_culled_ids` -/
  culled : List Id
  /-- `_buffer_bytes` -/
  bytes : Int
  deriving DecidableEq, Repr

/-- dictdb.py:109-111 -/
def init : State := { records := [], culled := [], bytes := 0 }

/-- dictdb.py:178-188 -/
def bufBytes : Val → Nat
  | .bufs l => l.sum
  | _ => 0

/-- Sum over `('buffers', 'result_buffers')` — dictdb.py:172-183. -/
def recBytes (r : Rec) : Nat := bufBytes (r.get "buffers") + bufBytes (r.get "result_buffers")

/-- `self._records[m]['submitted']` when it is a date — dictdb.py:300-307 -/
def submitted (r : Rec) : Option Int := match r.get "submitted" with
  | .date d => some d
  | _ => none

/-- dictdb.py:250-256 -/
def lookup (s : State) (i : Id) : Option Rec := (s.records.find? (fun x => x.1 = i)).map Prod.snd

/-- stable insertion — part of `sorted`, dictdb.py:307 -/
def insertBy (a : Int × Id) : List (Int × Id) → List (Int × Id)
  | [] => [a]
  | b :: l => if a.1 ≤ b.1 then a :: b :: l else b :: insertBy a l

/-- Python's stable `sorted` — dictdb.py:300-307 -/
def sortBy (l : List (Int × Id)) : List (Int × Id) := l.foldr insertBy []

/-- records that have a submission time, with it — dictdb.py:300-307 -/
def stamped (s : State) : List (Int × Id) := s.records.filterMap (fun x => (submitted x.2).map (fun d => (d, x.1)))

/-- `get_history` — dictdb.py:305-312. -/
def history (s : State) : List Id := (sortBy (stamped s)).map Prod.snd

/-- `_drop_bytes` + `del` — dictdb.py:179-183, 276-280 (of an id that is there). -/
def erase (s : State) (i : Id) : State :=
  match lookup s i with
  | none => s
  | some r => { s with records := s.records.filter (fun x => x.1 ≠ i)
                       bytes := s.bytes - recBytes r }

/-- body of the loop of `_cull_oldest` — dictdb.py:190-195 -/
def cullOne (s : State) (i : Id) : State := { erase s i with culled := i :: (erase s i).culled }

/-- `_cull_oldest(n)` — dictdb.py:185-190. -/
def cullOldest (n : Nat) (s : State) : State := ((history s).take n).foldl cullOne s

/-- The `while` loop of the size culling — dictdb.py:213-215. The flag says that it spins for ever (no record can be culled). -/
def cullSize (limit : Int) : Nat → State → State × Bool
  | 0, s => (s, decide (s.bytes > limit))
  | n + 1, s =>
    if s.bytes > limit then
      if history s = [] then (s, true) else cullSize limit n (cullOldest 1 s)
    else (s, false)

/-- `_maybe_cull` — dictdb.py:192-224. -/
def maybeCull (c : Cfg) (s : State) : State × Bool :=
  let s := if s.records.length > c.recordLimit then cullOldest c.toCull s else s
  if s.bytes > c.sizeLimit then cullSize c.sizeTarget s.records.length s else (s, false)

/-- `_check_dates` — dictdb.py:226-236 (timezones are not modelled). -/
def datesOk (r : Rec) : Bool :=
  ["submitted", "started", "completed", "received"].all (fun k => match r.get k with
    | .null => true
    | .date _ => true
    | _ => false)

/-- the methods of dictdb.py:241-307 -/
inductive Op where
  | add (i : Id) (r : Rec)
  | update (i : Id) (r : Rec)
  | drop (i : Id)
  | dropMatching (check : Check)
  deriving DecidableEq, Repr

/-- How a call ends. — dictdb.py:241-307 -/
inductive Res where
  | ok
  | keyError
  | valueError
  | typeError
  /-- it never returns -/
  | hang
  deriving DecidableEq, Repr

/-- `drop_matching_records` after the matching: deletes by the `msg_id` field of each match — dictdb.py:269-274. -/
def dropAll (s : State) : List (Id × Rec) → State × Res
  | [] => (s, .ok)
  | (_, r) :: ms =>
    match r.get "msg_id" with
    | .text i =>
      if (lookup s i).isSome then dropAll { s with records := s.records.filter (fun x => x.1 ≠ i)
                                                   bytes := s.bytes - recBytes r } ms
      else ({ s with bytes := s.bytes - recBytes r }, .keyError)
    | _ => ({ s with bytes := s.bytes - recBytes r }, .keyError)

/-- The mutating API — dictdb.py:240-280. -/
def step (c : Cfg) (s : State) : Op → State × Res
  | .add i r =>
    if (lookup s i).isSome then (s, .keyError)
    else if ¬ datesOk r then (s, .valueError)
    else
      -- `_add_bytes` culls, then `add_record` culls again
      let s := { s with records := s.records ++ [(i, r)]
                        bytes := s.bytes + recBytes r }
      match maybeCull c s with
      | (s, true) => (s, .hang)
      | (s, false) => match maybeCull c s with
        | (s, true) => (s, .hang)
        | (s, false) => (s, .ok)
  | .update i new =>
    if i ∈ s.culled then (s, .keyError)
    else if ¬ datesOk new then (s, .valueError)
    else match lookup s i with
      | none => (s, .keyError)
      | some old =>
        let r := old.update new
        let s := { s with records := s.records.map (fun x => if x.1 = i then (i, r) else x)
                          bytes := s.bytes - recBytes old + recBytes r }
        match maybeCull c s with
        | (s, true) => (s, .hang)
        | (s, false) => (s, .ok)
  | .drop i =>
    match lookup s i with
    | none => (s, .keyError)
    | some _ => (erase s i, .ok)
  | .dropMatching check =>
    match matchAll check s.records with
    | none => (s, .typeError)
    | some ms => dropAll s ms

/-- `get_record` — dictdb.py:249-255; `none` is KeyError. -/
def get (s : State) (i : Id) : Option Rec := if i ∈ s.culled then none else lookup s i

/-- `find_records` — dictdb.py:282-303. `none`: an exception. -/
def find (s : State) (check : Check) (keys : Option (List Key)) : Option (List Rec) :=
  (matchAll check s.records).map (fun ms => match keys with
    | none | some [] => ms.map Prod.snd
    | some ks => ms.map (fun x => extract ks x.2))

/-- a sequence of calls of the methods of dictdb.py:241-307 -/
def run (c : Cfg) (ops : List Op) : State := ops.foldl (fun s op => (step c s op).1) init

end IPP.DB
