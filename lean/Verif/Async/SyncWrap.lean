/-!
# `_sync` methods

`AsyncFirst` of `_async.py`: the names of the wrappers (`__getattr__`, `__dir__`), the choice
between an own event loop and the background thread (`_synchronize`), and the calls that go
through the background thread (`_in_thread`, `_thread_main`), made by any number of threads
at any times.

A thread runs from one access of a shared attribute, event, queue or future to the next
without being interrupted; the interruptions in between change nothing.
-/
namespace IPP.Async.SyncWrap

/-- What the coroutine of a call does in the end: return, raise an `Exception`, raise
something that is a `BaseException` but not an `Exception` (`asyncio.CancelledError` since
Python 3.8, `KeyboardInterrupt`, `SystemExit`), or not end.  (_async.py:52-56) -/
inductive Outcome where
  | ret (v : Nat)
  | exc (e : Nat)
  | base (e : Nat)
  | never
deriving DecidableEq, Repr

/-- How a call ends: with a value or with an exception (any, by its number). -/
inductive Res where
  | value (v : Nat)
  | raised (e : Nat)
  | raisedBase (e : Nat)
deriving DecidableEq, Repr

/-- What the concurrent future of a call is given (`thread_callback`): `set_result`,
`set_exception` for an `Exception`, nothing for other exceptions.  (_async.py:50-56) -/
def toFuture : Outcome → Option Res
  | .ret v => some (.value v)
  | .exc e => some (.raised e)
  | .base _ => none
  | .never => none

/-- `_asyncio_run(coro)`: `run_sync` of a new loop gives the result of the task, whatever it
is.  (_async.py:14-25) -/
def asyncioRun : Outcome → Option Res
  | .ret v => some (.value v)
  | .exc e => some (.raised e)
  | .base e => some (.raisedBase e)
  | .never => none

/-- `_synchronize`: the background thread if there is a running loop in this thread.
(_async.py:61-75) -/
inductive Way where
  | inThread
  | ownLoop
deriving DecidableEq, Repr

/-- `asyncio.get_running_loop()` raises RuntimeError if there is none. (_async.py:67-75) -/
def synchronize (loopRunning : Bool) : Way := if loopRunning then .inThread else .ownLoop

/-! ## The background thread -/

/-- A callback in the queue of a loop: `self._loop_started.set` of an event, or the
`thread_callback` of a call. (_async.py:39, 58) -/
inductive Cb where
  | setEvent (e : Nat)
  | run (i : Nat)
deriving DecidableEq, Repr

/-- A background thread: created, started, its loop made and put in `_thread_loop`, its loop
running. (_async.py:37-40, 46-47) -/
inductive TPC where
  | created
  | started
  | loopMade
  | running
deriving DecidableEq, Repr

/-- Errors of `_in_thread` itself: `self._thread_loop` is not there (AttributeError), a
thread started twice (RuntimeError). -/
inductive Err where
  | noThreadLoop
  | startedTwice
deriving DecidableEq, Repr

/-- Where a call of `_in_thread` is. (_async.py:42-59) -/
inductive PC where
  | idle
  /-- has seen `_async_thread is None` (line 44) -/
  | seenNone
  /-- has set `_loop_started` (line 45) -/
  | eventMade
  /-- has set `_async_thread` (line 46) -/
  | threadMade
  /-- has started `self._async_thread` (line 47) -/
  | threadStarted
  /-- in `wait(timeout=5)` of an event (line 48) -/
  | waiting (e : Nat)
  /-- after the `if` -/
  | ready
  /-- in `future.result()` (line 59) -/
  | inResult
  | done (r : Res)
  | failed (e : Err)
deriving DecidableEq, Repr

/-- The coroutine of a call. -/
inductive CPC where
  | notBegun
  | begun (k : Nat)
  | ended
deriving DecidableEq, Repr

/-- The attributes of the object, the background threads with their loops (the loop of
thread `k` has the same number), the queues of all loops in one list in the order of the
additions, and the calls. `runs` counts how often the coroutine of a call has been begun. -/
structure St where
  events : Nat := 0
  isSet : Nat → Bool := fun _ => false
  loopStarted : Option Nat := none
  threads : Nat := 0
  thread : Nat → TPC := fun _ => .created
  asyncThread : Option Nat := none
  threadLoop : Option Nat := none
  queue : List (Nat × Cb) := []
  coro : Nat → CPC := fun _ => .notBegun
  future : Nat → Option Res := fun _ => none
  runs : Nat → Nat := fun _ => 0
  pc : Nat → PC := fun _ => .idle
  /-- the call in whose `future.result()` the code running in loop `k` waits -/
  blockedBy : Nat → Option Nat := fun _ => none

/-- Change one value of a function. -/
def upd {α : Type} (f : Nat → α) (i : Nat) (a : α) : Nat → α := fun j => if j = i then a else f j

/-- Labels: only what the theorems speak about. -/
inductive Lbl where
  | begin (i : Nat)
  | beginInside (i k : Nat)
  | timeout (i : Nat)
  | other
deriving DecidableEq, Repr

/-- One step of a thread or of a loop. `out i` is what the coroutine of call `i` does.
(_async.py:37-59) -/
inductive Step (out : Nat → Outcome) : St → Lbl → St → Prop
  /-- line 44, from a thread that is not a background thread -/
  | begin (s : St) (i : Nat) (h : s.pc i = .idle) :
      Step out s (.begin i)
        { s with pc := upd s.pc i (if s.asyncThread = none then .seenNone else .ready) }
  /-- line 44, from a coroutine that runs in the loop of background thread `k`: the loop
  goes on only when this call has returned -/
  | beginInside (s : St) (i j k : Nat) (h : s.pc i = .idle) (hj : s.coro j = .begun k)
      (hb : s.blockedBy k = none) :
      Step out s (.beginInside i k)
        { s with pc := upd s.pc i (if s.asyncThread = none then .seenNone else .ready)
                 blockedBy := upd s.blockedBy k (some i) }
  /-- line 45 -/
  | newEvent (s : St) (i : Nat) (h : s.pc i = .seenNone) :
      Step out s .other
        { s with pc := upd s.pc i .eventMade, loopStarted := some s.events
                 isSet := upd s.isSet s.events false, events := s.events + 1 }
  /-- line 46 -/
  | newThread (s : St) (i : Nat) (h : s.pc i = .eventMade) :
      Step out s .other
        { s with pc := upd s.pc i .threadMade, asyncThread := some s.threads
                 thread := upd s.thread s.threads .created, threads := s.threads + 1 }
  /-- line 47: `self._async_thread` is read again -/
  | start (s : St) (i k : Nat) (h : s.pc i = .threadMade) (hk : s.asyncThread = some k)
      (hn : s.thread k = .created) :
      Step out s .other
        { s with pc := upd s.pc i .threadStarted, thread := upd s.thread k .started }
  | startTwice (s : St) (i k : Nat) (h : s.pc i = .threadMade) (hk : s.asyncThread = some k)
      (hn : s.thread k ≠ .created) :
      Step out s .other { s with pc := upd s.pc i (.failed .startedTwice) }
  /-- line 48: `self._loop_started` is read again -/
  | wait (s : St) (i e : Nat) (h : s.pc i = .threadStarted) (he : s.loopStarted = some e) :
      Step out s .other { s with pc := upd s.pc i (.waiting e) }
  | woken (s : St) (i e : Nat) (h : s.pc i = .waiting e) (he : s.isSet e = true) :
      Step out s .other { s with pc := upd s.pc i .ready }
  | timedOut (s : St) (i e : Nat) (h : s.pc i = .waiting e) :
      Step out s (.timeout i) { s with pc := upd s.pc i .ready }
  /-- line 58 -/
  | add (s : St) (i k : Nat) (h : s.pc i = .ready) (hk : s.threadLoop = some k) :
      Step out s .other
        { s with pc := upd s.pc i .inResult, queue := s.queue ++ [(k, .run i)] }
  | addFails (s : St) (i : Nat) (h : s.pc i = .ready) (hk : s.threadLoop = none) :
      Step out s .other { s with pc := upd s.pc i (.failed .noThreadLoop) }
  /-- line 38 -/
  | makeLoop (s : St) (k : Nat) (h : s.thread k = .started) :
      Step out s .other
        { s with thread := upd s.thread k .loopMade, threadLoop := some k }
  /-- lines 39-40 -/
  | runLoop (s : St) (k e : Nat) (h : s.thread k = .loopMade) (he : s.loopStarted = some e) :
      Step out s .other
        { s with thread := upd s.thread k .running, queue := s.queue ++ [(k, .setEvent e)] }
  /-- a loop takes the first callback of its queue -/
  | doSet (s : St) (k e : Nat) (pre post : List (Nat × Cb)) (h : s.thread k = .running)
      (hb : s.blockedBy k = none) (hq : s.queue = pre ++ (k, .setEvent e) :: post)
      (hpre : ∀ p ∈ pre, p.1 ≠ k) :
      Step out s .other { s with isSet := upd s.isSet e true, queue := pre ++ post }
  | doRun (s : St) (k i : Nat) (pre post : List (Nat × Cb)) (h : s.thread k = .running)
      (hb : s.blockedBy k = none) (hq : s.queue = pre ++ (k, .run i) :: post)
      (hpre : ∀ p ∈ pre, p.1 ≠ k) :
      Step out s .other
        { s with coro := upd s.coro i (.begun k), runs := upd s.runs i (s.runs i + 1)
                 queue := pre ++ post }
  /-- the coroutine ends (lines 52-56) -/
  | finish (s : St) (i k : Nat) (h : s.coro i = .begun k) (hb : s.blockedBy k = none)
      (hn : out i ≠ .never) :
      Step out s .other
        { s with coro := upd s.coro i .ended, future := upd s.future i (toFuture (out i)) }
  /-- line 59 -/
  | result (s : St) (i : Nat) (r : Res) (h : s.pc i = .inResult) (hr : s.future i = some r) :
      Step out s .other
        { s with pc := upd s.pc i (.done r)
                 blockedBy := fun k => if s.blockedBy k = some i then none else s.blockedBy k }

/-- Any number of steps, with their labels. -/
inductive Steps (out : Nat → Outcome) : St → List Lbl → St → Prop
  | nil (s : St) : Steps out s [] s
  | cons (s t u : St) (l : Lbl) (ls : List Lbl) (h : Step out s l t) (hs : Steps out t ls u) :
      Steps out s (l :: ls) u

/-- A new object. -/
def init : St := {}

/-- What can be reached from a new object. -/
def Reach (out : Nat → Outcome) (s : St) : Prop := ∃ ls, Steps out init ls s

/-! ## The names -/

/-- What a name means in a class: its coroutine functions and its other attributes. -/
structure ClassDict where
  coros : List String
  others : List String
deriving Repr

/-- The classes of the object in the order of the mro: where a name is found first decides.
`some true` is a coroutine function. (`super().__getattribute__`, _async.py:81) -/
def find : List ClassDict → String → Option Bool
  | [], _ => none
  | d :: ds, n =>
    if n ∈ d.coros then some true else if n ∈ d.others then some false else find ds n

/-- `name.endswith("_sync")` and `name[:-5]`. (_async.py:78-80) -/
def stem (name : List Char) : Option (List Char) :=
  if name.drop (name.length - 5) = "_sync".toList then some (name.take (name.length - 5))
  else none

/-- What an attribute of the object is. -/
inductive Attr where
  | plain
  /-- the wrapper of a coroutine method -/
  | wrapper (name : String)
  | attributeError
deriving DecidableEq, Repr

/-- `obj.name`: an ordinary attribute, else `__getattr__`. Attributes of the instance are
left out. (_async.py:77-86) -/
def getAttr (mro : List ClassDict) (name : String) : Attr :=
  match find mro name with
  | some _ => .plain
  | none =>
    match stem name.toList with
    | none => .attributeError
    | some n =>
      match find mro (String.ofList n) with
      | some true => .wrapper (String.ofList n)
      | _ => .attributeError

/-- The loop of `__dir__`: `seen` are the names of the classes before; each class adds its
coroutine functions that are new. A name is in a class once. (_async.py:88-99) -/
def dirSync : List ClassDict → List String → List String
  | [], _ => []
  | d :: ds, seen =>
    (d.coros.filter (fun n => n ∉ seen)).map (· ++ "_sync") ++
      dirSync ds (seen ++ d.coros ++ d.others)

end IPP.Async.SyncWrap
