/-!
# The process of `ipcluster start` and of `ipcluster engines` (cluster/app.py)

cluster/app.py:328-531 (`IPClusterEngines`), 543-631 (`IPClusterStart`), cluster/launcher.py:261-298 (`on_stop`, `notify_stop`), cluster/cluster.py:53-72 (`atexit`).

The process is an event loop. One iteration runs the callbacks that were in the queue when it began, in order; what they add to the queue is left for the next iteration; `loop.stop()` lets the iteration finish
and then ends the loop (asyncio's `run_forever`, which is what tornado's `IOLoop` is). A callback that is a coroutine function only makes a task, whose first step is another entry of the queue. An exception in a callback or task is logged and the loop goes on;
`SystemExit` leaves it at once.

What the `Cluster` object does is not in this file (see `Model.lean`): its `start_cluster`/`start_engines` and `stop_cluster` are coroutines that end at some time, with or without an exception; controller and engines may stop at any time.
Not modelled: log messages, the output of failed engines, `clean_logs`, `SIGUSR1`, `SIGUSR2` and `SIGINFO` (relayed to the engines by both commands), `zmq.ZMQError` from the loop (it uses no sockets).
-/
namespace IPP.Ipcluster

/-- the command — app.py:328, 543 -/
inductive Kind where
  | start
  | engines
deriving DecidableEq, Repr

/-- the command line; `early`: `early_shutdown` is not 0 — app.py:354-369 -/
structure Conf where
  kind : Kind
  daemonize : Bool
  early : Bool
deriving DecidableEq, Repr

/-- entries of the loop's queue — app.py:430-510, 567-587, 611 -/
inductive Cb where
  /-- the coroutine function `start_cluster`/`start_engines` is called — app.py:516, 614 -/
  | callStart
  /-- the first step of its task -/
  | start
  /-- `await self.cluster.start_cluster()` (`start_engines()`) is over; `ctl`, `set`: `cluster.controller` and `cluster.engine_set` are not None -/
  | startDone (ok ctl set : Bool)
  /-- the coroutine function `stop_cluster` is called -/
  | callStop
  /-- the first step of its task -/
  | stop
  /-- `await self.cluster.stop_cluster()` is over -/
  | stopDone (ok : Bool)
  /-- `loop.stop` -/
  | loopStop
  /-- the `early_shutdown` timeout: `engines_started_ok` -/
  | timer
  /-- `notify_stop` of the engine set -/
  | enginesStop
  /-- `notify_stop` of the controller -/
  | controllerStop
  /-- `cluster.signal_engines` is called — app.py:423-425 -/
  | relay
deriving DecidableEq, Repr

/-- how far `start_cluster`/`start_engines` is; `failed`: ended by an exception — app.py:441-454, 569-578 -/
inductive Phase where
  | none
  | running
  | ok
  | failed
deriving DecidableEq, Repr

/-- which callback has been given to the engine set's `on_stop` — app.py:456-470 -/
inductive Watch where
  | no
  | plain
  | early
deriving DecidableEq, Repr

/-- the application; `begun`, `finished`, `relayed` (not in the code): calls of `Cluster.stop_cluster` by the loop, calls that have returned, signals relayed — app.py:328-631 -/
structure App where
  queue : List Cb := []
  /-- `loop.stop()` has been called -/
  flag : Bool := false
  phase : Phase := .none
  /-- `early_shutdown ≠ 0` -/
  early : Bool := true
  /-- the timeout has been added -/
  timer : Bool := false
  /-- `_stopping` -/
  stopping : Bool := false
  /-- `stop_cluster` is at its `await` -/
  inStop : Bool := false
  watch : Watch := .no
  ctlWatch : Bool := false
  enginesAfter : Bool := false
  ctlAfter : Bool := false
  begun : Nat := 0
  finished : Nat := 0
  relayed : Nat := 0
  /-- the process has left the loop, with this exit code -/
  ended : Option Nat := none
deriving DecidableEq, Repr

/-- `loop.add_callback` — app.py:451, 494, 503, 574, 583 -/
def App.push (a : App) (c : Cb) : App := { a with queue := a.queue ++ [c] }

/-- `engines_stopped`: `ipcluster start` ignores it — app.py:495-496, 563-565 -/
def enginesStopped (cf : Conf) (a : App) : App := match cf.kind with
  | .engines => { a with flag := true }
  | .start => a

/-- `engines_stopped_early` — app.py:472-493 -/
def enginesStoppedEarly (cf : Conf) (a : App) : App :=
  enginesStopped cf (if a.early ∧ ¬ a.stopping then a.push .callStop else a)

/-- the callback given to `on_stop` is called — launcher.py:261-268, 295-296 -/
def onEnginesStop (cf : Conf) (a : App) : App := match a.watch with
  | .no => a
  | .plain => enginesStopped cf a
  | .early => enginesStoppedEarly cf a

/-- `watch_engines`: a launcher that has already stopped calls back at once — app.py:456-470, launcher.py:265-266 -/
def watchEngines (cf : Conf) (a : App) : App :=
  if a.early then
    let a := { a with watch := .early }
    { (if a.enginesAfter then onEnginesStop cf a else a) with timer := true }
  else
    let a := { a with watch := .plain }
    if a.enginesAfter then onEnginesStop cf a else a

/-- `controller_stopped` — app.py:580-583 -/
def controllerStopped (a : App) : App := if a.stopping then a else a.push .callStop

/-- the rest of `start_cluster` — app.py:570-578; `cluster.controller` or `cluster.engine_set` may be None after a stop in between: `AttributeError` -/
def afterStart (cf : Conf) (ctl set : Bool) (a : App) : App :=
  let a := if cf.daemonize then a.push .loopStop else a
  if ctl then
    let a := { a with ctlWatch := true }
    let a := if a.ctlAfter then controllerStopped a else a
    if set then watchEngines cf { a with phase := .ok } else { a with phase := .failed }
  else { a with phase := .failed }

/-- the rest of `start_engines` — app.py:444-454 -/
def afterStartEngines (cf : Conf) (set : Bool) (a : App) : App :=
  if cf.daemonize then { a.push .loopStop with phase := .ok }
  else if set then watchEngines cf { a with phase := .ok } else { a with phase := .failed }

/-- one callback — app.py:430-503, 567-587 -/
def callback (cf : Conf) (a : App) : Cb → App
  | .callStart => a.push .start
  | .start => { a with phase := .running }
  | .startDone ok ctl set =>
    if a.phase = .running then
      match cf.kind, ok with
      | .start, true => afterStart cf ctl set a
      | .start, false => { a with phase := .failed }
      | .engines, true => afterStartEngines cf set a
      | .engines, false => { a with phase := .failed, ended := some 1 }
    else a
  | .callStop => a.push .stop
  | .stop => if a.stopping then a else { a with stopping := true, inStop := true, begun := a.begun + 1 }
  | .stopDone ok =>
    if a.inStop then
      if ok then ({ a with inStop := false, finished := a.finished + 1 } : App).push .loopStop else { a with inStop := false }
    else a
  | .loopStop => { a with flag := true }
  | .timer => if a.timer then { a with early := false } else a
  | .enginesStop => if a.enginesAfter then a else onEnginesStop cf { a with enginesAfter := true }
  | .controllerStop => if a.ctlAfter then a else
    if a.ctlWatch then controllerStopped { a with ctlAfter := true } else { a with ctlAfter := true }
  | .relay => { a with relayed := a.relayed + 1 }

/-- `SystemExit` ends the process in the middle of an iteration: the rest of the queue is not run — app.py:445-447 -/
def handle (cf : Conf) (a : App) (c : Cb) : App := if a.ended.isSome then a else callback cf a c

/-- one iteration of the loop — app.py:519, 616 -/
def iter (cf : Conf) (a : App) : App :=
  if a.ended.isSome then a
  else
    let b := a.queue.foldl (handle cf) { a with queue := [] }
    if b.ended.isSome then b else if b.flag then { b with ended := some 0 } else b

/-- what happens outside of the loop -/
inductive Ev where
  | iter
  /-- SIGINT or SIGTERM; both have the handler `sigint_handler` — app.py:420-421, 427-428, 585-588 -/
  | signal
  /-- the loop is given the end of an `await`, the timeout or a notice that a component has stopped -/
  | startDone (ok ctl set : Bool)
  | stopDone (ok : Bool)
  | timer
  | enginesStop
  | controllerStop
deriving DecidableEq, Repr

/-- app.py:420-434, 585-588, and the loop -/
def step (cf : Conf) (a : App) : Ev → App
  | .iter => iter cf a
  | .signal => a.push (match cf.kind with
    | .start => .callStop
    | .engines => .relay)
  | .startDone ok ctl set => a.push (.startDone ok ctl set)
  | .stopDone ok => a.push (.stopDone ok)
  | .timer => a.push .timer
  | .enginesStop => a.push .enginesStop
  | .controllerStop => a.push .controllerStop

/-- `start()`: the coroutine function is put into the queue and the loop is started — app.py:507-519, 611-616 -/
def init (cf : Conf) : App := { queue := [.callStart], early := cf.early }

/-- the life of the process — app.py:507-631 -/
def run (cf : Conf) (h : List Ev) : App := h.foldl (step cf) (init cf)

end IPP.Ipcluster
