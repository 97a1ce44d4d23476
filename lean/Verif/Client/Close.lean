/-!
# `Client.close` (client/client.py:1385-1402) against requests, replies and other calls of `close` in other threads

client.py:1039-1045 (`_stop_io_thread`), 1063-1092 (the IO thread), 1249-1311 (`_send`), 599-602 (`shutdown_notification` closes the client in the IO thread), 625-659 (`__del__`, `__exit__`).

Threads are interleaved at the granularity of the lines that matter: the check of `_closed`, `add_callback`, `join`, the closing of the sockets, the setting of `_closed`. The IO thread runs an event loop: it takes the callbacks that are in the queue
(a batch) and runs them in order; `loop.stop()` lets the batch finish and then ends the loop (asyncio's `run_forever`). `add_callback` on a loop that has ended does nothing (tornado's `BaseAsyncIOLoop.add_callback` swallows the error).
A send on a closed socket raises in the callback, and is logged. Requests are numbered; a number is the `msg_id`.
Simplified: `_send` enters the request in its tables in the same step in which it checks `_closed`; a reply is one message (output and metadata are in other models); a client that was never connected is not modelled.
-/
namespace IPP.ClientClose

/-- a thread: the IO thread of the client (client.py:1063-1092) or any other -/
inductive Thread where
  | io
  | app (n : Nat)
deriving DecidableEq, Repr

/-- callbacks of the loop — client.py:1042, 1302-1311 -/
inductive Cb where
  /-- `_really_send` -/
  | send (m : Nat)
  /-- `loop.stop` -/
  | stop
deriving DecidableEq, Repr

/-- where a thread is — client.py:1264-1311, 1391-1402 -/
inductive Pc where
  | idle
  /-- in `_send`, the callback has not been added -/
  | sending (m : Nat)
  /-- in `close`, after the check of `_closed` -/
  | closing
  /-- before `self._io_thread.join()` -/
  | joining
  /-- `_stop_io_thread` has returned -/
  | joined
  /-- the sockets are closed, `_closed` is not set -/
  | socketsClosed
deriving DecidableEq, Repr

/-- the client; `accepted`, `submitted`, `refused`, `sent`, `resolved`, `returned` record what happened: requests that passed the check, calls that returned a future, calls that raised OSError, messages given to a socket, futures that are done,
and calls of `close` that returned — client.py:1039-1092, 1249-1311, 1385-1402 -/
structure St where
  pc : Thread → Pc := fun _ => .idle
  batch : List Cb := []
  queue : List Cb := []
  /-- `loop.stop()` has been called -/
  flag : Bool := false
  /-- the IO thread is over -/
  ended : Bool := false
  /-- the sockets are open -/
  sockets : Bool := true
  /-- `_closed` -/
  closed : Bool := false
  accepted : List Nat := []
  submitted : List Nat := []
  refused : List Nat := []
  sent : List Nat := []
  resolved : List Nat := []
  returned : List Thread := []

/-- a thread moves on -/
def St.goto (s : St) (t : Thread) (p : Pc) : St := { s with pc := fun u => if u = t then p else s.pc u }

/-- `loop.add_callback` — client.py:1042, 1313 (tornado: nothing happens when the loop has been closed) -/
def St.add (s : St) (c : Cb) : St := if s.ended then s else { s with queue := s.queue ++ [c] }

/-- what can happen -/
inductive Ev where
  /-- a thread makes a request — client.py:1249 -/
  | request (t : Thread) (m : Nat)
  /-- a thread calls `close` — client.py:1385 -/
  | close (t : Thread)
  /-- a thread that is inside a call goes on -/
  | step (t : Thread)
  /-- the loop goes on -/
  | loop
  /-- the reply to a request arrives — client.py:1095-1120 -/
  | reply (m : Nat)
deriving DecidableEq, Repr

/-- a thread goes on — client.py:1302-1313, 1039-1045, 1391-1402 -/
def advance (s : St) (t : Thread) : St := match s.pc t with
  | .idle => s
  | .sending m => { (s.add (.send m)).goto t .idle with submitted := s.submitted ++ [m] }
  | .closing => (s.add .stop).goto t (if t = .io then .joined else .joining)
  | .joining => if s.ended then s.goto t .joined else s
  | .joined => { s.goto t .socketsClosed with sockets := false }
  | .socketsClosed => { s.goto t .idle with closed := true, returned := s.returned ++ [t] }

/-- one callback — client.py:1042, 1302-1311 -/
def callback (s : St) : Cb → St
  | .send m => if s.sockets then { s with sent := s.sent ++ [m] } else s
  | .stop => { s with flag := true }

/-- the loop goes on, unless the IO thread is inside a call or over — client.py:1081-1092 -/
def loopStep (s : St) : St :=
  if s.pc .io ≠ .idle ∨ s.ended then s
  else match s.batch with
    | c :: l => callback { s with batch := l } c
    | [] => if s.flag then { s with ended := true } else { s with batch := s.queue, queue := [] }

/-- client.py:1039-1120, 1249-1313, 1385-1402 -/
def step (s : St) : Ev → St
  | .request t m =>
    if s.pc t ≠ .idle ∨ (t = .io ∧ s.ended) then s
    else if s.closed then { s with refused := s.refused ++ [m] }
    else { s.goto t (.sending m) with accepted := s.accepted ++ [m] }
  | .close t =>
    if s.pc t ≠ .idle ∨ (t = .io ∧ s.ended) then s
    else if s.closed then { s with returned := s.returned ++ [t] }
    else s.goto t .closing
  | .step t => advance s t
  | .loop => loopStep s
  | .reply m => if s.pc .io = .idle ∧ ¬ s.ended ∧ s.sockets ∧ m ∈ s.sent ∧ m ∉ s.resolved then { s with resolved := s.resolved ++ [m] } else s

/-- a history of the client; it begins when the client is connected — client.py:796 -/
def run (h : List Ev) : St := h.foldl step {}

end IPP.ClientClose
