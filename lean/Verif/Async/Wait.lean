import Verif.Async.Model

/-!
# Model of waiting: `AsyncResult.wait`, `get`, `split`, `join` — client/asyncresult.py:308-367, 399-552

The client's io thread completes message futures one after the other; a user thread waits.  What the user thread sees depends on the
steps between the two: a `concurrent.futures.Future` first becomes *done* (its waiters are notified), then its
callbacks run.  An `AsyncResult` is itself a Future that is set by a callback of the combined future of its children
(`_resolve_result`), and only a callback of *its own* (`_finalize_result`, 548-552) sets `_ready`.  So there are three stages:
pending, done (resolved; `concurrent.futures.wait` reports it), ready (`_ready` and `_ready_event` are set).

Simplifications: time is not modelled, a call with a timeout may time out at any moment (`tmo = true`); output (`wait_for_output(0)`) is C60;
callbacks of different futures may run in any order once enabled (the code's orders are among them).
-/
namespace IPP.Async.Wait
open IPP.Map (Dist)
open IPP.Async

/-- Which class of result: `AsyncResult` of a single message (`_single_result`), of a list of messages, `AsyncMapResult`. — client/asyncresult.py:52-110, 1055-1086 -/
inductive Kind where
  | single
  | list
  | map (d : Dist)
  deriving DecidableEq, Repr

/-- An `AsyncResult` — asyncresult.py:69-110: `n` children (at least one: `children[0]` at 90), the attribute
`_return_exceptions`, the engines (`None` for load-balanced and map results). -/
structure AR where
  kind : Kind
  n : Nat
  re : Bool
  targets : Option (List (Option Nat))
  deriving DecidableEq, Repr

/-- What `get()` may return: one result, a list with one entry per task, or the items of a map. — client/asyncresult.py:297-306, 1088-1103 -/
inductive Out (V : Type u) where
  | one (r : Res (Chunk V))
  | many (l : List (Res (Chunk V)))
  | items (l : List (Item V))
  deriving DecidableEq

/-- `_resolve_result` — asyncresult.py:513-536: the outcome with which the future is resolved; `none`: an exception escapes and the
future is never resolved (see `resolveMap`).  For a single result `isinstance(r, Exception)` is raised whatever
`_return_exceptions` is (526-528). -/
def resolve (k : Kind) (re : Bool) (res : List (Res (Chunk V))) : Option (Except Exc (Out V)) :=
  match k with
  | .single =>
    match res with
    | .exc e :: _ => some (.error e)
    | .val v :: _ => some (.ok (.one (.val v)))
    | [] => none
  | .list => some ((collectFor re res).map .many)
  | .map d => (resolveMap d re res).map (fun x => x.map .items)

/-- `_reconstruct_result(self._raw_results)` — asyncresult.py:355, 297-306, 1088-1102. -/
def rawOut (k : Kind) (re : Bool) (res : List (Res (Chunk V))) : Except Exc (Out V) :=
  match k with
  | .single =>
    match res with
    | r :: _ => .ok (.one r)
    | [] => .error (.other "IndexError")
  | .list => .ok (.many res)
  | .map d => (reconstruct d re res).map .items

/-- `split()` — asyncresult.py:424-456: the class of the parts: `children=msg_future` (single) unless this is a map result,
whose parts are lists of one message. -/
def partKind : Kind → Kind
  | .map _ => .list
  | _ => .single

/-- How far a future's completion has come. — client/asyncresult.py:112-141, 513-552 -/
inductive Stage where
  | pending
  | done
  | ready
  deriving DecidableEq, Repr

/-- What both threads see: the children's results, the stage of the AsyncResult, whether `split()` was called, the stages of its parts. — client/asyncresult.py:52-141, 425-456 -/
structure St (V : Type u) where
  child : Nat → Option (Res (Chunk V))
  main : Stage
  isSplit : Bool
  part : Nat → Stage

/-- A freshly constructed AsyncResult; some of its children may be complete (`_init_futures`, asyncresult.py:112-142). -/
def St.init (child : Nat → Option (Res (Chunk V))) : St V :=
  ⟨child, .pending, false, fun _ => .pending⟩

/-- The results of all children in order, if all are complete. — `self._children` — client/asyncresult.py:112-141, 513-536 -/
def results (A : AR) (s : St V) : Option (List (Res (Chunk V))) := (List.range A.n).mapM s.child

/-- The steps of the io thread (and of the constructor in `split()`). -/
inductive Step (A : AR) : St V → St V → Prop where
  /-- the reply of child `i` arrives: `future.set_result(...)` -/
  | finish (s : St V) (i : Nat) (r : Res (Chunk V)) : i < A.n → s.child i = none →
      Step A s { s with child := fun j => if j = i then some r else s.child j }
  /-- the combined future is done (C09) and its callback `_resolve_result` sets this one — asyncresult.py:140, 513-536 -/
  | mainDone (s : St V) (res : List (Res (Chunk V))) : s.main = .pending → results A s = some res →
      (resolve A.kind A.re res).isSome → Step A s { s with main := .done }
  /-- `_finalize_result` — asyncresult.py:142, 548-552 -/
  | mainReady (s : St V) : s.main = .done → Step A s { s with main := .ready }
  /-- `split()` creates one AsyncResult per child (only if there are several) — asyncresult.py:436-456 -/
  | split (s : St V) : A.n ≠ 1 → Step A s { s with isSplit := true }
  /-- the part for child `i` is resolved -/
  | partDone (s : St V) (i : Nat) : i < A.n → s.isSplit = true → (s.child i).isSome → s.part i = .pending →
      Step A s { s with part := fun j => if j = i then .done else s.part j }
  /-- ... and finalized -/
  | partReady (s : St V) (i : Nat) : s.part i = .done →
      Step A s { s with part := fun j => if j = i then .ready else s.part j }

/-- Any number of steps. — any interleaving of the two threads of client/asyncresult.py:112-141, 513-552 -/
inductive Steps (A : AR) : St V → St V → Prop where
  | refl (s : St V) : Steps A s s
  | tail {s t u : St V} : Steps A s t → Step A t u → Steps A s u

/-- Stage of the `i`-th element of `split()`: `(self,)` if there is one child — asyncresult.py:436-439. -/
def stageOf (A : AR) (s : St V) (i : Nat) : Stage := if A.n = 1 then s.main else s.part i

/-- Outcome of the `i`-th element of `split()`, once resolved. — client/asyncresult.py:425-456 -/
def outcomeOf (A : AR) (s : St V) (i : Nat) : Option (Except Exc (Out V)) :=
  match s.child i with
  | none => none
  | some r => if A.n = 1 then resolve A.kind A.re [r] else resolve (partKind A.kind) A.re [r]

/-- `f.exception() is not None` / `not ar._success` of a resolved part. — client/asyncresult.py:458-511 -/
def failedPart (A : AR) (s : St V) (i : Nat) : Bool :=
  match outcomeOf A s i with
  | some (.error _) => true
  | _ => false

/-- The constants of `concurrent.futures` — client/asyncresult.py:308-367, 458-511 -/
inductive When where
  | allCompleted
  | firstCompleted
  | firstException
  deriving DecidableEq, Repr

/-- `concurrent.futures.wait(parts, return_when=w)` may return with `d` as the set of done parts — the condition under which it does not block
any longer (documentation of the standard library). — as called by client/asyncresult.py:458-511 -/
def Enough (A : AR) (s : St V) (w : When) (d : List Nat) : Prop :=
  (∀ i, i < A.n → i ∈ d) ∨
  match w with
  | .allCompleted => False
  | .firstCompleted => d ≠ []
  | .firstException => ∃ i ∈ d, failedPart A s i = true

/-- `done, pending = self.wait(timeout, return_when=w)` called in state `s0` returns in state `s` — asyncresult.py:493-501.
`d`, `p`: the indices of the parts in the two sets.  Parts done at the time of the call are reported done. -/
structure WaitReturns (A : AR) (s0 : St V) (tmo : Bool) (w : When) (s : St V) (d p : List Nat) : Prop where
  steps : Steps A s0 s
  split : A.n = 1 ∨ s.isSplit = true
  sound : ∀ i ∈ d, i < A.n ∧ stageOf A s i ≠ .pending
  known : ∀ i, i < A.n → stageOf A s0 i ≠ .pending → i ∈ d
  pending : p = (List.range A.n).filter (fun i => i ∉ d)
  enough : Enough A s w d ∨ tmo = true

/-- `self.wait(timeout)` returns `b` — asyncresult.py:484-491. -/
structure WaitAll (A : AR) (s0 : St V) (tmo : Bool) (s : St V) (b : Bool) : Prop where
  steps : Steps A s0 s
  flag : b = decide (s.main = .ready)
  enough : s.main = .ready ∨ tmo = true

/-- What a call of `get` does: return a value or raise. — client/asyncresult.py:308-367 -/
inductive Got (V : Type u) where
  | value (o : Out V)
  | raised (e : Exc)
  deriving DecidableEq

/-- The branch `if self._ready:` of `get` — asyncresult.py:349-357, for an AsyncResult of kind `k` whose children's results are
`res`. -/
def finishGet (k : Kind) (re : Bool) (retExc : Bool) (res : List (Res (Chunk V))) : Got V :=
  match resolve k re res with
  | some (.ok o) => .value o
  | some (.error e) =>
    if retExc then
      match rawOut k re res with
      | .ok o => .value o
      | .error e' => .raised e'
    else .raised e
  | none => .raised .timeout

/-- `get(timeout, return_exceptions, return_when)` called in `s0` — asyncresult.py:308-367.  `w = none` stands for `None`,
`ALL_COMPLETED` and `FIRST_COMPLETED` (330-340), otherwise FIRST_EXCEPTION; `retExc` is the argument or else the
attribute (345-347). -/
inductive GetReturns (A : AR) (s0 : St V) (tmo : Bool) (retExc : Bool) : (firstException : Bool) → St V → Got V → Prop where
  /-- `self.ready()` at 342, or `_ready` at 349 after waiting -/
  | ready (fe : Bool) (s : St V) (res : List (Res (Chunk V))) : Steps A s0 s → s.main = .ready → results A s = some res →
      GetReturns A s0 tmo retExc fe s (finishGet A.kind A.re retExc res)
  /-- not ready after `wait(timeout)`: line 367 -/
  | timeout (s : St V) (s' : St V) : WaitAll A s0 tmo s false → Steps A s s' → s'.main ≠ .ready →
      GetReturns A s0 tmo retExc false s' (.raised .timeout)
  /-- FIRST_EXCEPTION, not ready, a done part failed: `ar.get(return_exceptions=...)` — 359-366; that call waits for `ar` itself -/
  | part (s s' s'' : St V) (d p : List Nat) (i : Nat) (r : Res (Chunk V)) :
      WaitReturns A s0 tmo .firstException s d p → Steps A s s' → s'.main ≠ .ready →
      i ∈ d → failedPart A s' i = true → Steps A s' s'' → stageOf A s'' i = .ready → s''.child i = some r →
      GetReturns A s0 tmo retExc true s''
        (finishGet (if A.n = 1 then A.kind else partKind A.kind) A.re retExc [r])
  /-- FIRST_EXCEPTION, not ready, no done part failed: line 367 -/
  | nothing (s s' : St V) (d p : List Nat) :
      WaitReturns A s0 tmo .firstException s d p → Steps A s s' → s'.main ≠ .ready →
      (∀ i ∈ d, failedPart A s' i = false) →
      GetReturns A s0 tmo retExc true s' (.raised .timeout)

/-! ## join -/

/-- `AsyncResult.join(*parts)` — asyncresult.py:399-422: `ars` are the children (message ids) and targets of each, `onMap`: called through
`AsyncMapResult` (whose constructor takes no `targets`: TypeError).  `chain(*(ar._targets ...))` with `None` is a TypeError. -/
def join (onMap : Bool) (ars : List (List String × Option (List (Option Nat)))) :
    Except Exc (List String × Option (List (Option Nat))) :=
  match ars with
  | [] => .error (.other "ValueError")
  | [a] => .ok a
  | ars =>
    match ars.mapM Prod.snd with
    | none => .error .typeError
    | some ts => if onMap then .error .typeError else .ok (ars.flatMap Prod.fst, some ts.flatten)

/-- `split()` — asyncresult.py:424-456, children and targets of the parts (`zip` stops at the shorter list; `repeat(None)` if there are no
targets). -/
def splitIds (ids : List String) (targets : Option (List (Option Nat))) :
    List (List String × Option (List (Option Nat))) :=
  if ids.length = 1 then [(ids, targets)]
  else
    ((targets.getD (List.replicate ids.length none)).zip ids).map (fun x => ([x.2], some [x.1]))

/-! ## AsyncHubResult -/

/-- `AsyncHubResult.get(timeout, return_when=FIRST_EXCEPTION)` when its `wait` (asyncresult.py:1164-1210, which ignores
`return_when` and returns a bool) timed out: `done, pending = wait_result` (363) raises TypeError. -/
def hubGetNotReady (firstException : Bool) : Got V :=
  if firstException then .raised .typeError else .raised .timeout

end IPP.Async.Wait
