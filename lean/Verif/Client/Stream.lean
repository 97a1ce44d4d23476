import Verif.Client.DisplayProps
/-!
# Showing output while it arrives: `AsyncResult.stream_output`

ipyparallel/client/asyncresult.py:143-277 (`_iopub_streaming_output_callback`, `stream_output`), ipyparallel/client/client.py:1121-1227 (`_dispatch_iopub`: the output is stored, then the callbacks of the request are run).

Two threads: the user's (it enters `stream_output`, runs the body, leaves) and the client's IO thread (it stores each message and then runs the callbacks). Their steps interleave in any way.
Simplified: a callback runs as a whole (the interpreter could switch threads inside); the requests are not forgotten by the client meanwhile (client.py:1301-1308 forgets a request when its reply and the last output message are there; C60);
tracebacks and values are numbers. `display_data` is shown only inside IPython (asyncresult.py:209-215): the model has it.
-/
namespace IPP.Stream
open IPP.Output (Text Md Pub)
open IPP.Display

/-- the steps of the user's thread, asyncresult.py:231-277 -/
inductive Instr where
  /-- :238 `msg_future.iopub_callbacks.append(iopub_callback)` -/
  | register (k : Nat)
  /-- :244-251 publish the text that has been captured so far -/
  | text (k : Nat) (err : Bool)
  /-- :252-258 the loop over `md["outputs"]`, at index `i` -/
  | outputs (k i : Nat)
  /-- :259-265 -/
  | result (k : Nat)
  /-- :268 `yield`: the body of the `with` statement ends -/
  | body
  /-- :276 -/
  | remove (k : Nat)
deriving DecidableEq, Repr

/-- the loop :231-265 for one child -/
def enter (k : Nat) : List Instr := [.register k, .text k false, .text k true, .outputs k 0, .result k]

/-- The whole `with` statement for a result with `n` children; `targets` is `self._targets`. `none`: TypeError, `zip(None, …)`. `zip` stops at the shorter of both. — `stream_output` — client/asyncresult.py:218-276 -/
def program (targets : Option (List Nat)) (n : Nat) : Option (List Instr) :=
  targets.map fun ts =>
    let ks := List.range (min ts.length n)
    ks.flatMap enter ++ [.body] ++ ks.map .remove

structure St where
  /-- the metadata of each child -/
  md : Nat → Md := fun _ => {}
  /-- the callback is in the child's `iopub_callbacks` -/
  reg : Nat → Bool := fun _ => false
  /-- the message that the IO thread has stored and whose callbacks it has not run yet -/
  flight : Option (Nat × Pub) := none
  /-- what the user's thread has yet to do -/
  pc : List Instr := []
  /-- the calls of the callback, in order -/
  log : List (Nat × Pub) := []
  /-- inside a kernel: the displays, by id (`{msg_id}-{name}`; `none`: the message that stands for captured text has no parent, so its id is `-{name}`), asyncresult.py:156-173 -/
  board : Option Nat × Bool → Option (Nat × Text) := fun _ => none

/-- client/asyncresult.py:143-276 -/
inductive Ev where
  /-- the IO thread receives and stores a message for child `k` -/
  | store (k : Nat) (p : Pub)
  /-- the IO thread runs the callbacks for it -/
  | call
  /-- the next step of the user's thread -/
  | main
deriving DecidableEq, Repr

/-- client/asyncresult.py:143-216 -/
def textOf (md : Md) (err : Bool) : Text := if err then md.stderr else md.stdout

/-- `_iopub_streaming_output_callback(eid, msg_future, msg)`; `parent`: the message has a parent header — client/asyncresult.py:143-216 -/
def callback (eid : Nat → Nat) (s : St) (k : Nat) (parent : Bool) (p : Pub) : St :=
  { s with
    log := s.log ++ [(k, p)]
    board := match p with
      | .stream err _ => fun i => if i = (if parent then some k else none, err) then some (eid k, textOf (s.md k) err) else s.board i
      | _ => s.board }

/-- one step of the user's thread — client/asyncresult.py:218-276 -/
def mainStep (eid : Nat → Nat) (s : St) : St :=
  match s.pc with
  | [] => s
  | .register k :: pc => { s with pc := pc, reg := fun j => if j = k then true else s.reg j }
  | .text k err :: pc =>
    let s := { s with pc := pc }
    if textOf (s.md k) err = [] then s else callback eid s k false (.stream err (textOf (s.md k) err))
  | .outputs k i :: pc =>
    match (s.md k).outputs[i]? with
    | none => { s with pc := pc }
    | some d => callback eid { s with pc := .outputs k (i + 1) :: pc } k false (.display d)
  | .result k :: pc =>
    let s := { s with pc := pc }
    match (s.md k).result with
    | none => s
    | some r => callback eid s k false (.result r)
  | .body :: pc => { s with pc := pc }
  | .remove k :: pc => { s with pc := pc, reg := fun j => if j = k then false else s.reg j }

/-- client/asyncresult.py:143-276, client/client.py:1122-1227 -/
def step (eid : Nat → Nat) (s : St) : Ev → St
  | .store k p => match s.flight with
    | some _ => s -- the IO thread is busy
    | none => { s with md := fun j => if j = k then (s.md k).add p else s.md j, flight := some (k, p) }
  | .call => match s.flight with
    | none => s
    | some (k, p) => let s := { s with flight := none }
      if s.reg k then callback eid s k true p else s
  | .main => mainStep eid s

/-- any interleaving of client/asyncresult.py:218-276 and client/client.py:1122-1227 -/
def run (eid : Nat → Nat) (prog : List Instr) (evs : List Ev) : St := evs.foldl (step eid) { pc := prog }

/-- What one call of the callback shows on a terminal (not in a kernel) — asyncresult.py:174-215. `ipython`: `get_ipython() is not None`. -/
def showPub (ipython : Bool) (eid : Nat → Nat) (s : Screen) : Nat × Pub → Screen
  | (k, .stream err t) => displayStream s t (pfx err (eid k)) err
  | (_, .error e) => show1 s (.error e)
  | (_, .result r) => show1 s (.value r)
  | (k, .display d) => if ipython then show1 (show1 s (.label (eid k))) (.rich d) else s
  | _ => s

/-- the terminal — client/asyncresult.py:143-216 -/
def terminal (ipython : Bool) (eid : Nat → Nat) (s : St) : Screen := s.log.foldl (showPub ipython eid) {}

/-! ## Specification -/

/-- the messages for child `k` that were received -/
def received (k : Nat) : Bool → List Ev → List Pub
  | _, [] => []
  | busy, .store j p :: l => if busy then received k true l else if j = k then p :: received k true l else received k true l
  | _, .call :: l => received k false l
  | busy, .main :: l => received k busy l

/-- text of one stream among messages -/
def streamText (err : Bool) : List Pub → Text
  | [] => []
  | .stream e t :: l => if e = err then t ++ streamText err l else streamText err l
  | _ :: l => streamText err l

def displays : List Pub → List Nat
  | [] => []
  | .display d :: l => d :: displays l
  | _ :: l => displays l

/-- what the callback was called with for child `k` -/
def shown (k : Nat) (s : St) : List Pub := s.log.filterMap fun x => if x.1 = k then some x.2 else none

/-- The user's thread is entering: it has registered the callback of child `k` and has not yet shown all that had been captured. -/
def Entering (k : Nat) (s : St) : Prop := s.reg k = true ∧ ∃ i ∈ s.pc, (∃ e, i = .text k e) ∨ (∃ j, i = .outputs k j) ∨ i = .result k

/-- No message for child `k` is stored or handed to callbacks while the user's thread is entering. -/
def Quiet (eid : Nat → Nat) (prog : List Instr) (k : Nat) (evs : List Ev) : Prop :=
  ∀ p q, evs = p ++ q → Entering k (run eid prog p) → ∀ pub, (run eid prog p).flight ≠ some (k, pub)

/-- The user's thread has entered and is still in the body. -/
def Inside (k : Nat) (s : St) : Prop := s.reg k = true ∧ ¬ Entering k s

end IPP.Stream
