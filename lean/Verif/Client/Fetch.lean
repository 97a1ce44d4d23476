import Verif.Hub.Msgs

/-!
# Model of fetching results: `Client.get_result`, `result_status`, `AsyncHubResult` — client/client.py:2116-2163, 2205-2303, 2344-2405;
client/asyncresult.py:1153-1210

The hub is the one of `Verif.Hub.Msgs` (`getResults`, hub.py:1383-1444).  Simplifications: message ids are numbers (ordered as the strings are); the content of a reply is
the number `tag`, of which the parameter `kindOf` tells whether it is a successful apply, a successful execution, or an error; `des` is
`deserialize_object` (C37).  A result value is not itself a dict with the keys of a record.  The calls are not interleaved with the io thread.
-/
namespace IPP.Client.Fetch
open IPP.Hub

deriving instance DecidableEq for Except

/-- What the content and header of a stored reply say — client.py:2284-2295. -/
inductive RKind where
  | applyOk
  | executeOk
  | failed
  deriving DecidableEq, Repr

/-- An entry of `client.results`: a value, an `ExecuteReply`, a `RemoteError`. — client/client.py:900-1028, 2205-2303 -/
inductive CRes (V : Type) where
  | value (v : V)
  | exec (tag : Nat)
  | failure (o : Outcome)
  deriving DecidableEq, Repr

/-- Exceptions. -/
inductive FErr where
  /-- the error in the hub's reply is raised — client.py:2246 -/
  | hub
  | keyError
  | typeError
  | attributeError
  | indexError
  /-- `deserialize_object` fails -/
  | decode
  /-- the failure of the only task asked for — client.py:2299-2300 -/
  | one (o : Outcome)
  /-- `CompositeError` — client.py:2302 -/
  | many (os : List Outcome)
  deriving DecidableEq, Repr

/-- The client's caches: `_futures` (requests whose reply or output is still to come), `results`. — client/client.py:1229-1320, 900-1028 -/
structure Cl (V : Type) where
  futures : Mid → Bool
  results : Mid → Option (CRes V)

/-- The loop over `theids`, which removes from the list it iterates over — client.py:2233-2237: after a removal the iteration
skips an element.  `i`: the iterator's position; the first argument bounds the number of turns (each advances `i` and the list does not
grow, so its length at the start suffices).  Result: what is left, and the ids found locally. -/
def scan (has : Mid → Bool) : Nat → Nat → List Mid → List Mid → List Mid × List Mid
  | 0, _, theids, loc => (theids, loc)
  | n + 1, i, theids, loc =>
    match theids[i]? with
    | none => (theids, loc)
    | some m => if has m then scan has n (i + 1) (theids.erase m) (loc ++ [m]) else scan has n (i + 1) theids loc

/-- insertion into a sorted list, keeping duplicates — part of `sorted` -/
def insertDup (m : Mid) : List Mid → List Mid
  | [] => [m]
  | x :: l => if m ≤ x then m :: x :: l else x :: insertDup m l

/-- `sorted(theids)` — `result_status` — client/client.py:2205-2303 -/
def pySorted (l : List Mid) : List Mid := l.foldr insertDup []

/-- Reading one record of the reply — client.py:2261-2297: the result and the remaining buffers.  An aborted task's content is
`{'status': 'aborted'}`: `_unwrap_exception` (802-810, error.py:265-272) fails with KeyError('ename'). -/
def readOne (kindOf : Nat → RKind) (des : List Nat → Option (V × List Nat)) (rec : TRec) (bufs : List Nat) :
    Except FErr (CRes V × List Nat) :=
  match rec.result with
  | none => .error .typeError
  | some (.died u) => .ok (.failure (.died u), bufs)
  | some (.reply r) =>
    if r.aborted then .error .keyError
    else match kindOf r.tag with
      | .applyOk =>
        match des bufs with
        | none => .error .decode
        | some (v, rest) => .ok (.value v, rest)
      | .executeOk => .ok (.exec r.tag, bufs)
      | .failed => .ok (.failure (.reply r), bufs)

/-- `results[m] = res` — `result_status` — client/client.py:2205-2303 -/
def Cl.store (c : Cl V) (m : Mid) (r : CRes V) : Cl V :=
  { c with results := fun x => if x = m then some r else c.results x }

/-- The loop over `sorted(theids)` — client.py:2261-2297.  `over`: ids whose entry in `content` is a result already (`content.update(local_results)` at
2258, `content[msg_id] = res` at 2297): reading it as a record is a TypeError. -/
def storeLoop (kindOf : Nat → RKind) (des : List Nat → Option (V × List Nat)) (completed : List Mid) (content : List (Mid × TRec)) :
    List Mid → List Mid → Cl V → List Nat → List Outcome → Cl V × Except FErr (List Outcome)
  | [], _, c, _, fails => (c, .ok fails)
  | m :: ms, over, c, bufs, fails =>
    if m ∉ completed then storeLoop kindOf des completed content ms over c bufs fails
    else if m ∈ over then (c, .error .typeError)
    else match getKey content m with
      | none => (c, .error .keyError)
      | some rec =>
        match readOne kindOf des rec bufs with
        | .error e => (c, .error e)
        | .ok (res, rest) =>
          let fails := match res with
            | .failure o => fails ++ [o]
            | _ => fails
          storeLoop kindOf des completed content ms (m :: over) (c.store m res) rest fails

/-- What `result_status` returns (the results themselves are in the cache). — `result_status` — client/client.py:2205-2303 -/
structure Status where
  pending : List Mid
  completed : List Mid
  deriving DecidableEq, Repr

/-- `result_status(msg_ids, status_only)` — client.py:2205-2303, when the hub is in state `hub`. -/
def resultStatus (kindOf : Nat → RKind) (des : List Nat → Option (V × List Nat)) (c : Cl V) (hub : Hub) (ids : List Mid)
    (statusOnly : Bool) : Cl V × Except FErr Status :=
  let (theids, loc) := scan (fun m => (c.results m).isSome) ids.length 0 ids []
  let reply : Option ResultReply :=
    if theids = [] then some { pending := [], completed := [], content := [], buffers := [] }
    else getResults hub theids statusOnly
  match reply with
  | none => (c, .error .hub)
  | some rep =>
    let st : Status := ⟨rep.pending, rep.completed ++ loc⟩
    if statusOnly then (c, .ok st)
    else
      let (c', r) := storeLoop kindOf des st.completed rep.content (pySorted theids) loc c rep.buffers []
      match r with
      | .error e => (c', .error e)
      | .ok [] => (c', .ok st)
      | .ok (o :: os) => if theids.length = 1 then (c', .error (.one o)) else (c', .error (.many (o :: os)))

/-! ## AsyncHubResult -/

/-- An `AsyncHubResult`: its ids, whether a single id was asked for, `owner`, `_return_exceptions` is False.  `outcome`: once resolved. — client/asyncresult.py:1153-1209 -/
structure HubAR (V : Type) where
  ids : List Mid
  single : Bool
  owner : Bool
  ready : Bool
  outcome : Option (Except FErr (List (Option (CRes V))))

/-- The polling loop — asyncresult.py:1180-1187; one hub state per poll; when the list ends the timeout has passed.
`some true`: no pending ids. -/
def pollLoop (kindOf : Nat → RKind) (des : List Nat → Option (V × List Nat)) (remote : List Mid) :
    List Hub → Cl V → Cl V × Except FErr Bool
  | [], c => (c, .ok false)
  | hub :: hubs, c =>
    match resultStatus kindOf des c hub remote false with
    | (c, .error e) => (c, .error e)
    | (c, .ok st) => if st.pending = [] then (c, .ok true) else pollLoop kindOf des remote hubs c

/-- `[self._client.results.pop(mid) for mid in self.msg_ids]` — asyncresult.py:1205-1207 (KeyError if it is not there; `metadata` has the
same keys). -/
def popAll : List Mid → Cl V → Cl V × Bool
  | [], c => (c, true)
  | m :: ms, c =>
    if (c.results m).isSome then popAll ms { c with results := fun x => if x = m then none else c.results x }
    else (c, false)

/-- The exceptions among results that are raised: `raise r` for a single result, else `_collect_exceptions` — 1193-1199. — client/asyncresult.py:513-546, 1153-1209 -/
def collectHub (single : Bool) (rs : List (Option (CRes V))) : Except FErr (List (Option (CRes V))) :=
  let fails := rs.filterMap (fun r => match r with | some (.failure o) => some o | _ => none)
  match fails with
  | [] => .ok rs
  | o :: os => if single then .error (.one o) else .error (.many (o :: os))

/-- `AsyncHubResult.wait` for ids none of which is outstanding locally (see `get_result`: others are never in an AsyncHubResult) —
asyncresult.py:1164-1210.  Result: the new client and AsyncHubResult, and whether it is ready or an exception left `wait`. -/
def hubWait (kindOf : Nat → RKind) (des : List Nat → Option (V × List Nat)) (polls : List Hub) (c : Cl V) (a : HubAR V) :
    Cl V × HubAR V × Except FErr Bool :=
  if a.ready then (c, a, .ok true)
  else
    let remote := a.ids.filter (fun m => (c.results m).isNone)
    let (c, r) := if remote = [] then (c, .ok true) else pollLoop kindOf des remote polls c
    match r with
    | .error e => (c, a, .error e)
    | .ok false => (c, a, .ok false)
    | .ok true =>
      let a := { a with ready := true, outcome := some (collectHub a.single (a.ids.map c.results)) }
      if a.owner then
        let (c, ok) := popAll a.ids c
        (c, a, if ok then .ok true else .error .keyError)
      else (c, a, .ok true)

/-- `AsyncHubResult.get()` — asyncresult.py:308-357 with the `wait` above; the value is the list of results (its only element for
a single id).  `none`: TimeoutError. -/
def hubGet (kindOf : Nat → RKind) (des : List Nat → Option (V × List Nat)) (polls : List Hub) (c : Cl V) (a : HubAR V) :
    Cl V × HubAR V × Option (Except FErr (List (Option (CRes V)))) :=
  match hubWait kindOf des polls c a with
  | (c, a, .error e) => (c, a, some (.error e))
  | (c, a, .ok false) => (c, a, none)
  | (c, a, .ok true) => (c, a, a.outcome)

/-! ## get_result -/

/-- What `get_result` constructs: an `AsyncResult` over local futures, or an `AsyncHubResult`. — `get_result` — client/client.py:2116-2164, 2367-2405 -/
inductive Made where
  | localResult (ids : List Mid) (single : Bool)
  | hubResult (ids : List Mid) (single : Bool)
  deriving DecidableEq, Repr

/-- An element of `futures` in `_asyncresult_from_jobs`: a msg_id (client.py:2381) or a `MessageFuture` (2383-2388). -/
inductive FutEntry where
  | str (m : Mid)
  | fut (m : Mid)
  deriving DecidableEq, Repr

/-- `AsyncResult(self, futures)` — asyncresult.py:82-125: if the first is a str all are taken for message ids (a Future among them is not found: KeyError),
otherwise all for futures (`f.msg_id` of a str: AttributeError); `children[0]` of an empty list: IndexError. -/
def makeLocal (single : Bool) : List FutEntry → Except FErr Made
  | [] => .error .indexError
  | .str m :: rest =>
    if rest.all (fun x => match x with | .str _ => true | .fut _ => false)
    then .ok (.localResult (m :: rest.map (fun x => match x with | .str m => m | .fut m => m)) single)
    else .error .keyError
  | .fut m :: rest =>
    if rest.all (fun x => match x with | .str _ => false | .fut _ => true)
    then .ok (.localResult (m :: rest.map (fun x => match x with | .str m => m | .fut m => m)) single)
    else .error .attributeError

/-- `_asyncresult_from_jobs(jobs)` — client.py:2367-2405, for message ids (`single`: not a list). -/
def fromJobs (c : Cl V) (single : Bool) (jobs : List Mid) : Except FErr Made :=
  let futures := jobs.filterMap (fun m =>
    if c.futures m then some (FutEntry.str m) else if (c.results m).isSome then some (.fut m) else none)
  let msgIds := jobs.filter (fun m => !c.futures m && (c.results m).isNone)
  if msgIds ≠ [] then .ok (.hubResult msgIds single)
  else makeLocal single futures

end IPP.Client.Fetch
