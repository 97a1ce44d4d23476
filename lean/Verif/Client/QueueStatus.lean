import Verif.Client.Targets

/-!
# `Client.queue_status`

From the targets to the dict that is returned: `_build_targets` (model of C42), the hub's
handler, the way of its content through JSON, `int_keys` and the choice of an entry.
-/
namespace IPP.Client.QStat

open IPP.Client (Target buildTargets)

abbrev Text := List Char

/-- Keys of the dict. -/
inductive Key where
  | str (s : Text)
  | int (n : Int)
deriving DecidableEq, Repr

/-- A list of message ids, or its length. -/
inductive Cell where
  | ids (l : List Nat)
  | count (n : Nat)
deriving DecidableEq, Repr

inductive Val where
  /-- `'ok'` -/
  | ok
  | engine (queue completed tasks : Cell)
  | unassigned (c : Cell)
deriving DecidableEq, Repr

/-- A dict in the order of insertion. -/
abbrev Dict := List (Key × Val)

/-- `d[k] = v` (hub.py:1199-1211). -/
def put (d : Dict) (k : Key) (v : Val) : Dict :=
  if d.any (fun p => p.1 == k) then d.map (fun p => if p.1 = k then (k, v) else p)
  else d ++ [(k, v)]

/-- What the hub has. -/
structure HubState where
  ids : List Int
  queues : Int → List Nat
  completed : Int → List Nat
  tasks : Int → List Nat
  unassigned : List Nat

/-- `str(t)` of an engine id; ids are never negative. -/
def strInt (n : Int) : Text := Nat.toDigits 10 n.toNat

/-- The handler's `queue` or `len(queue)` (hub.py:1204-1211). -/
def cell (verbose : Bool) (l : List Nat) : Cell := if verbose then .ids l else .count l.length

/-- `_validate_targets` for `None` and for a list of ids (hub.py:293-314); `none`: IndexError. -/
def validate (h : HubState) : Option (List Int) → Option (List Int)
  | none => some h.ids
  | some es => if es.any (fun e => !h.ids.contains e) then none else if es = [] then none else some es

/-- `Hub.queue_status`: the content of the reply (hub.py:1177-1215). -/
def hubContent (h : HubState) (verbose : Bool) (ts : List Int) : Dict :=
  put (ts.foldl (fun d t => put d (.str (strInt t))
      (.engine (cell verbose (h.queues t)) (cell verbose (h.completed t))
        (cell verbose (h.tasks t)))) [(.str "status".toList, .ok)])
    (.str "unassigned".toList) (.unassigned (cell verbose h.unassigned))

/-- `int(k)`. Simplified: digits only, no sign, spaces or underscores. -/
def pyInt (s : Text) : Option Int :=
  if s ≠ [] ∧ s.all Char.isDigit then some (Nat.ofDigitChars 10 s 0 : Nat) else none

inductive Err where
  /-- what `_build_targets` raises -/
  | target (e : IPP.Client.Err)
  /-- IndexError from the hub -/
  | noSuchEngine
  | keyError
deriving DecidableEq, Repr

/-- `int_keys`, for the keys of the loop (util.py:456-474). `float(k)` is left out: the keys are
numbers of engines, `unassigned` and `status`. -/
def intKeysLoop : List Key → Dict → Except Err Dict
  | [], d => .ok d
  | .int _ :: ks, d => intKeysLoop ks d
  | .str s :: ks, d =>
    match pyInt s with
    | none => intKeysLoop ks d
    | some n =>
      if d.any (fun p => p.1 == .int n) then .error .keyError
      else match d.lookup (.str s) with
        | none => .error .keyError
        | some v => intKeysLoop ks (d.filter (fun p => p.1 ≠ .str s) ++ [(.int n, v)])

def intKeys (d : Dict) : Except Err Dict := intKeysLoop (d.map (·.1)) d

/-- What a call returns. -/
inductive Out where
  | one (v : Val)
  | all (d : Dict)
deriving DecidableEq, Repr

/-- The end of the call (client.py:2322-2331). -/
def finishCall (t : Target) (content : Dict) : Except Err Out :=
  match intKeys (content.filter (fun p => p.1 ≠ .str "status".toList)) with
  | .error e => .error e
  | .ok d =>
    match t with
    | .int i => match d.lookup (.int i) with
      | none => .error .keyError
      | some v => .ok (.one v)
    | _ => .ok (.all d)

/-- The hub's part and the end of the call. -/
def ask (h : HubState) (t : Target) (verbose : Bool) (es : Option (List Int)) : Except Err Out :=
  match validate h es with
  | none => .error .noSuchEngine
  | some ts => finishCall t (hubContent h verbose ts)

/-- `Client.queue_status(targets, verbose)` (client.py:2305-2331). `.all` is `'all'` itself. -/
def queueStatus (c : IPP.Client.Client) (h : HubState) (t : Target) (verbose : Bool) :
    Except Err Out :=
  if t = .all then ask h t verbose none
  else match buildTargets c t with
    | .error e => .error (.target e)
    | .ok (_, es) => ask h t verbose (some es)

end IPP.Client.QStat
