import Verif.Async.WaitProps
import Verif.Client.Targets

/-!
# Model of the access to parts of an `AsyncResult`: `successful`, `[...]`, attributes, iteration, `get_dict`, `abort`
— client/asyncresult.py:558-742, 369-378

The states, and what the io thread may do in between, are those of `Async/Wait.lean`.  A value of a task that is neither a list nor a tuple is not
subscriptable (a simplification: strings, arrays and dicts are).  Metadata values are opaque (`M`); dates are parsed on access (590-606), which is left out.
-/
namespace IPP.Async.Access
open IPP.Async IPP.Async.Wait
open IPP.Client (pyGet sliceIndices)

variable {V M : Type}

/-- Python exceptions these methods raise by themselves, or the exception with which the future was resolved. — client/asyncresult.py:558-742 -/
inductive Err where
  | timeout
  | runtimeError
  | typeError
  | indexError
  | valueError
  | keyError
  | attributeError
  /-- the exception of the future -/
  | stored (e : Exc)
  deriving DecidableEq, Repr

/-- The outcome with which the future was resolved (C72 describes when) — asyncresult.py:513-536. -/
def outcome (A : AR) (s : St V) : Option (Except Exc (Out V)) := (results A s).bind (resolve A.kind A.re)

/-- `successful()` — asyncresult.py:554-562 (`_success` is set together with the result, 531-536). -/
def successful (A : AR) (s : St V) : Except Err Bool :=
  if s.main ≠ .ready then .error .runtimeError
  else match outcome A s with
    | some (.ok _) => .ok true
    | _ => .ok false

/-- The objects that `self.result()[...]` ranges over; `none`: not subscriptable. — client/asyncresult.py:693-700 -/
def entries : Out V → Option (List (Res (Chunk V)))
  | .one (.val (.list l)) => some (l.map (fun v => .val (.scalar v)))
  | .one (.val (.tuple l)) => some (l.map (fun v => .val (.scalar v)))
  | .one _ => none
  | .many l => some l
  | .items l => some l

/-- What a user may put between the brackets — asyncresult.py:693-715. -/
inductive Key where
  | int (k : Int)
  | slice (start stop step : Option Int)
  | str (name : String)
  | other
  deriving DecidableEq, Repr

/-- What the brackets return. — client/asyncresult.py:693-715 -/
inductive Piece (V M : Type) where
  | entry (r : Res (Chunk V))
  | entries (l : List (Res (Chunk V)))
  | field (m : M)
  | fields (l : List M)
  deriving DecidableEq

/-- `self.result()` of a ready result — `concurrent.futures.Future.result`, as used at client/asyncresult.py:697, 700. -/
def result (A : AR) (s : St V) : Except Err (Out V) :=
  match outcome A s with
  | some (.ok o) => .ok o
  | some (.error e) => .error (.stored e)
  | none => .error .timeout

/-- `_collect_exceptions` with its exception — asyncresult.py:538-546. -/
def collect (re : Bool) (l : List (Res (Chunk V))) : Except Err (List (Res (Chunk V))) :=
  match collectFor re l with
  | .ok l => .ok l
  | .error e => .error (.stored e)

/-- `l[a:b:c]` (step 0: ValueError) — as used at client/asyncresult.py:700. -/
def sliceOf (l : List α) (a b c : Option Int) : Except Err (List α) :=
  match sliceIndices l.length a b c with
  | .error _ => .error .valueError
  | .ok is => .ok (is.filterMap (fun i => l[i.toNat]?))

/-- `[md[key] for md in self._metadata]` (an unknown key: KeyError), and the first of them for a single result — asyncresult.py:705-709. -/
def field (A : AR) (md : Nat → String → Option M) (name : String) : Except Err (Piece V M) :=
  match (List.range A.n).mapM (fun i => md i name) with
  | none => .error .keyError
  | some l => if A.kind = .single then (match l with
      | m :: _ => .ok (.field m)
      | [] => .error .indexError) else .ok (.fields l)

/-- `__getitem__` — asyncresult.py:693-715. `s` is the state when `_ready` is looked at. -/
def getitem (A : AR) (s : St V) (md : Nat → String → Option M) : Key → Except Err (Piece V M)
  | .int k =>
    if s.main ≠ .ready then .error .timeout
    else match result A s with
      | .error e => .error e
      | .ok o => match entries o with
        | none => .error .typeError
        | some l => match pyGet l k with
          | none => .error .indexError
          | some x => match collect A.re [x] with
            | .error e => .error e
            | .ok (y :: _) => .ok (.entry y)
            | .ok [] => .error .indexError
  | .slice a b c =>
    if s.main ≠ .ready then .error .timeout
    else match result A s with
      | .error e => .error e
      | .ok o => match entries o with
        | none => .error .typeError
        | some l => match sliceOf l a b c with
          | .error e => .error e
          | .ok l => match collect A.re l with
            | .error e => .error e
            | .ok l => .ok (.entries l)
  | .str name => field A md name
  | .other => .error .typeError

/-- `__getattr__` — asyncresult.py:717-724: TimeoutError and KeyError become AttributeError. -/
def getattr (A : AR) (s : St V) (md : Nat → String → Option M) (name : String) : Except Err (Piece V M) :=
  match getitem A s md (.str name) with
  | .error .timeout => .error .attributeError
  | .error .keyError => .error .attributeError
  | r => r

/-! ## Iteration -/

/-- How an iteration stands: suspended after a `yield`, exhausted, or an exception came out. — client/asyncresult.py:736-752 -/
inductive End where
  | suspended
  | stopped
  | raised (e : Err)
  deriving DecidableEq, Repr

/-- The branch `except TimeoutError` of `__iter__` (the result was not ready in the beginning): `i` children have been yielded — asyncresult.py:742-749.
The consumer may take its time between two items. -/
inductive Iterating (A : AR) (s0 : St V) : St V → Nat → List (Res (Chunk V)) → Prop where
  | start (s : St V) : Steps A s0 s → s.main ≠ .ready → Iterating A s0 s 0 []
  | next (s s' : St V) (i : Nat) (ys : List (Res (Chunk V))) (r : Res (Chunk V)) (l : List (Res (Chunk V))) :
      Iterating A s0 s i ys → Steps A s s' → i < A.n → s'.child i = some r → collect A.re [r] = .ok l →
      Iterating A s0 s' (i + 1) (ys ++ [r])

/-- `AsyncResult.__iter__`, called in `s0` — asyncresult.py:736-752 (map results have their own, see C08): the items obtained so far and how it
stands, in state `s`. -/
inductive IterRun (A : AR) (s0 : St V) : St V → List (Res (Chunk V)) → End → Prop where
  | single (s : St V) : A.kind = .single → Steps A s0 s → IterRun A s0 s [] (.raised .typeError)
  /-- `yield from rlist` after `get(0)` -/
  | readyItems (s : St V) (res : List (Res (Chunk V))) (l : List (Res (Chunk V))) (k : Nat) : A.kind = .list → Steps A s0 s → s.main = .ready → results A s = some res →
      finishGet A.kind A.re A.re res = .value (.many l) → IterRun A s0 s (l.take k) .suspended
  | readyAll (s : St V) (res : List (Res (Chunk V))) (l : List (Res (Chunk V))) : A.kind = .list → Steps A s0 s → s.main = .ready → results A s = some res →
      finishGet A.kind A.re A.re res = .value (.many l) → IterRun A s0 s l .stopped
  /-- `get(0)` raises -/
  | readyError (s : St V) (res : List (Res (Chunk V))) (e : Exc) : A.kind = .list → Steps A s0 s → s.main = .ready → results A s = some res →
      finishGet A.kind A.re A.re res = .raised e → IterRun A s0 s [] (.raised (.stored e))
  | some (s : St V) (i : Nat) (ys : List (Res (Chunk V))) : A.kind = .list → Iterating A s0 s i ys → IterRun A s0 s ys .suspended
  | all (s : St V) (i : Nat) (ys : List (Res (Chunk V))) : A.kind = .list → Iterating A s0 s i ys → i = A.n → IterRun A s0 s ys .stopped
  | error (s s' : St V) (i : Nat) (ys : List (Res (Chunk V))) (r : Res (Chunk V)) (e : Err) : A.kind = .list → Iterating A s0 s i ys → Steps A s s' →
      i < A.n → s'.child i = Option.some r → collect A.re [r] = .error e → IterRun A s0 s' ys (.raised e)

/-! ## get_dict, abort -/

/-- `get_dict()` of a ready result — asyncresult.py:567-588; `eng`: the engine that each message ran on. -/
def getDictOf (A : AR) (s : St V) (eng : Nat → Nat) : Except Err (List (Nat × Res (Chunk V))) :=
  match results A s with
  | none => .error .timeout
  | some res => match finishGet A.kind A.re A.re res with
    | .raised e => .error (.stored e)
    | .value o =>
      let rs := match o with
        | .one r => [r]
        | .many l => l
        | .items l => l
      match getDict (((List.range A.n).map eng).zip rs) [] with
      | .ok d => .ok d
      | .error _ => .error .valueError

/-- `abort()` — asyncresult.py:617-627: what is handed to `Client.abort`. -/
def abort (A : AR) (s : St V) (ids : List String) : Except Err (List String × Option (List (Option Nat))) :=
  if s.main = .ready then .error .runtimeError else .ok (ids, A.targets)

/-- what a user hands to `Client.abort` — client.py:1746-1758: a message id, an AsyncResult (its message ids), or something else -/
inductive Job where
  | id (m : String)
  | ar (ids : List String)
  | bad
  deriving DecidableEq, Repr

/-- the message ids in the abort request — client.py:1743-1759; `jobs = none`: all outstanding. A single id or AsyncResult counts as a list of one. -/
def abortIds (outstanding : List String) : Option (List Job) → Except Err (List String)
  | none => .ok outstanding
  | some jobs => if Job.bad ∈ jobs then .error .typeError else .ok (jobs.flatMap (fun
      | .id m => [m]
      | .ar ids => ids
      | .bad => []))

/-! ## Waiting for the send -/

/-- How a wait ends: it returns at a time, raises TimeoutError at a time, or blocks for ever. — client/asyncresult.py:636-669 -/
inductive Waited where
  | returned (t : Nat)
  | timedOut (t : Nat)
  | forever
  deriving DecidableEq, Repr

/-- `Event.wait(timeout)` at time `now` for an event that is set at time `at?`; `timeout = none`: no limit — Python. -/
def eventWait (at? : Option Nat) (now : Nat) (timeout : Option Nat) : Waited :=
  match at?, timeout with
  | some t, none => .returned (max now t)
  | some t, some d => if t ≤ now + d then .returned (max now t) else .timedOut (now + d)
  | none, some d => .timedOut (now + d)
  | none, none => .forever

/-- `self._tracker.wait(timeout)` (pyzmq): negative: no limit (pyzmq takes a week), raises NotDone — as used at client/asyncresult.py:663-669. -/
def trackerWait (done? : Option Nat) (now : Nat) (timeout : Int) : Waited :=
  eventWait done? now (if timeout < 0 then none else some timeout.toNat)

/-- `wait_for_send(timeout)` called at `now` — asyncresult.py:641-669; the messages are handed to zmq at `sent?`, and zmq has sent them at `done?`. Times are
natural numbers; computing takes no time. -/
def waitForSend (sent? done? : Option Nat) (now : Nat) (timeout : Option Int) : Waited :=
  let isSet := match sent? with
    | some t => decide (t ≤ now)
    | none => false
  if isSet then trackerWait done? now (timeout.getD (-1))
  else match timeout with
    | none => match eventWait sent? now none with
      | .returned t => trackerWait done? t (-1)
      | w => w
    | some d =>
      if d < 0 then match eventWait sent? now none with
        | .returned t => trackerWait done? t (-1)
        | w => w
      else if d = 0 then .timedOut now
      else match eventWait sent? now (some d.toNat) with
        | .returned t => trackerWait done? t (max 0 (d - (t - now)))
        | w => w

/-- `wait_for_output(timeout)` — asyncresult.py:380-391: like `Event.wait`, a negative timeout means none; returns False instead of raising. -/
def waitForOutput (ready? : Option Nat) (now : Nat) (timeout : Option Int) : Waited :=
  if (match ready? with
    | some t => decide (t ≤ now)
    | none => false) then .returned now
  else eventWait ready? now (match timeout with
    | none => none
    | some d => if d < 0 then none else some d.toNat)

end IPP.Async.Access
