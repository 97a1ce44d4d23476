/-!
# An engine and its nanny (engine/nanny.py, engine/app.py:650-664, client/client.py:1681-1766)

Control requests (`clear`, `abort`, `send_signal`, `shutdown`) come to the nanny, which handles signals itself and relays everything else, in both directions.
It also watches the engine's process and tells the hub when it has ended.

Messages in transit are queues; an event is one callback of the nanny, of the engine, or something that happens to the engine's process.
Not modelled: authentication, malformed messages (dropped by the nanny, nanny.py:132-144), what the engine does with a request other than its reply, `LINGER` of the hub message (3 s).
-/
namespace IPP.Nanny

/-- what a control request asks for: a signal (`some n`, or a name the engine's platform does not have), or something the engine answers itself — engine/nanny.py:137-190 -/
inductive Kind where
  | signal (sig : Option Nat)
  | other (content : Nat)
deriving DecidableEq

/-- engine/nanny.py:137-175 -/
structure Req where
  id : Nat
  kind : Kind
deriving DecidableEq

/-- engine/nanny.py:137-190 -/
inductive Answer where
  | ok
  | error
  /-- the engine's own reply -/
  | engine (content : Nat)
deriving DecidableEq

/-- engine/nanny.py:37-80 -/
structure St where
  /-- controller to nanny -/
  toNanny : List Req := []
  /-- nanny to engine -/
  toEngine : List Req := []
  /-- engine to nanny -/
  fromEngine : List (Nat × Answer) := []
  /-- nanny to client -/
  replies : List (Nat × Answer) := []
  /-- signals the engine's process got: request and number -/
  signals : List (Nat × Nat) := []
  /-- requests the engine has executed -/
  executed : List Req := []
  alive : Bool := true
  /-- `_finish_called` -/
  finished : Bool := false
  /-- the nanny's loop has stopped -/
  stopped : Bool := false
  /-- `unregistration_request`s sent to the hub -/
  hub : Nat := 0
deriving DecidableEq

inductive Ev where
  /-- a client sends a control request -/
  | send (r : Req)
  /-- `dispatch_control` (nanny.py:128-168) -/
  | control
  /-- the engine handles a request -/
  | engine
  /-- `dispatch_parent` (nanny.py:170-172) -/
  | relay
  /-- the engine's process ends -/
  | die
  /-- `wait_for_parent_thread` has seen it, its callback runs (nanny.py:81-93) -/
  | watcher
  /-- `pipe_handler` (nanny.py:95-111) -/
  | pipe
  /-- the callback `loop.stop` (nanny.py:126) -/
  | stop
deriving DecidableEq

/-- `KernelNanny.signal_request` (nanny.py:176-184), and the exception handler of `dispatch_control`:
the answer, and the signal that is sent. `send_signal` to a process that has ended raises `NoSuchProcess`. -/
def signalRequest (alive : Bool) : Option Nat → Answer × Option Nat
  | none => (.error, none)
  | some n => if alive then (.ok, some n) else (.error, none)

/-- `KernelNanny.finish` (nanny.py:120-126) with `notify_exit` (nanny.py:113-118) -/
def finish (s : St) : St := if s.finished then s else { s with finished := true, hub := s.hub + 1 }

/-- `respond`: what the engine answers to a request's content — engine/nanny.py:95-190 -/
def step (respond : Nat → Nat) (s : St) : Ev → St
  | .send r => { s with toNanny := s.toNanny ++ [r] }
  | .control =>
    if s.stopped then s
    else match s.toNanny with
      | [] => s
      | r :: t => match r.kind with
        | .signal sig =>
          let a := signalRequest s.alive sig
          { s with toNanny := t, replies := s.replies ++ [(r.id, a.1)],
                   signals := s.signals ++ (match a.2 with | some n => [(r.id, n)] | none => []) }
        | .other _ => { s with toNanny := t, toEngine := s.toEngine ++ [r] }
  | .engine =>
    if s.alive then
      match s.toEngine with
      | [] => s
      | r :: t => { s with toEngine := t, executed := s.executed ++ [r],
                           fromEngine := s.fromEngine ++ [(r.id, match r.kind with | .other c => .engine (respond c) | .signal _ => .error)] }
    else s
  | .relay =>
    if s.stopped then s
    else match s.fromEngine with
      | [] => s
      | a :: t => { s with fromEngine := t, replies := s.replies ++ [a] }
  | .die => { s with alive := false }
  | .watcher => if s.alive || s.stopped then s else finish s
  | .pipe => if s.alive || s.stopped then s else finish s
  | .stop => if s.finished then { s with stopped := true } else s

/-- the event loop of the nanny, engine/nanny.py:192-235 -/
def run (respond : Nat → Nat) (s : St) (h : List Ev) : St := h.foldl (step respond) s

end IPP.Nanny
