import Verif.Client.Cr
/-!
# The output of tasks as the client collects it

ipyparallel/client/client.py:1121-1308 (`_dispatch_iopub`, `create_message_futures`, `_send`), :900-1030 (`_handle_execute_reply`, `_handle_apply_reply`: the parts that concern metadata and output futures), :2431-2459 (`purge_local_results`); ipyparallel/client/asyncresult.py:85-140, :380-397, :550 (`AsyncResult.__init__`, `_init_futures`, `wait_for_output`, `_resolve_output`, the results taken out by `_finalize_result`).

Metadata objects live on a heap, because the client's table (`client.metadata`) and the output future of a request refer to the same object, and the table forgets it when the request is complete while the `AsyncResult` keeps it.

Simplified: message ids are compared for equality only; every payload but the stream text is a number; the other fields of the metadata (engine, times, label) are left out; comm messages and user callbacks are left out.
-/
namespace IPP.Output

/-- strings of client/client.py:1122-1227 -/
abbrev Text := List Char

/-- the fields of a `Metadata` object that output is stored in (client.py:97-140) -/
structure Md where
  stdout : Text := []
  stderr : Text := []
  outputs : List Nat := []
  error : Option Nat := none
  input : Option Nat := none
  result : Option Nat := none
  data : List (Nat × Nat) := []
deriving DecidableEq, Repr

/-- an IOPub message (client.py:1150-1173); `stream` has the name `stderr` if the flag is set -/
inductive Pub where
  | stream (err : Bool) (text : Text)
  | error (e : Nat)
  | input (code : Nat)
  | display (d : Nat)
  | result (r : Nat)
  | data (kv : List (Nat × Nat))
  | status (idle : Bool)
deriving DecidableEq, Repr

/-- client.py:1150-1155, the new text of a stream -/
def addText (old text : Text) : Text := if '\r' ∈ text then Cr.sub (old ++ text) else old ++ text

/-- `dict.update` on an association list — `md.update(…)` — client/client.py:1122-1227 -/
def update (d kv : List (Nat × Nat)) : List (Nat × Nat) :=
  kv.foldl (fun d p => (p.1, p.2) :: d.filter (fun q => q.1 ≠ p.1)) d

/-- client.py:1150-1167, what a message does to the metadata object -/
def Md.add (md : Md) : Pub → Md
  | .stream false t => { md with stdout := addText md.stdout t }
  | .stream true t => { md with stderr := addText md.stderr t }
  | .error e => { md with error := some e }
  | .input c => { md with input := some c }
  | .display d => { md with outputs := md.outputs ++ [d] }
  | .result r => { md with result := some r }
  | .data kv => { md with data := update md.data kv }
  | .status _ => md

/-- the statuses of a reply that make a difference to output (client.py:930-958, :993-1027): `ok`, an error reported by an engine (`engine_info` in the content), an error without it (engine death, a scheduler's answer), `aborted` -/
inductive Kind where
  | ok | engineError | otherError | aborted
deriving DecidableEq, Repr

/-- client.py:1011-1026: no output is expected of the request -/
def Kind.noOutput : Kind → Bool
  | .ok => false
  | .engineError => false
  | .otherError => true
  | .aborted => true

inductive Ev (I : Type) where
  /-- `_send` of an execute or apply request -/
  | send (m : I)
  /-- a message on the IOPub channel whose parent has the id `m`; `own`: the parent's session is this client's -/
  | iopub (own : Bool) (m : I) (p : Pub)
  /-- an execute (`exec`) or apply reply -/
  | reply (exec : Bool) (m : I) (k : Kind)
  /-- an `AsyncResult` that owns its results takes one out of the cache (asyncresult.py:550) -/
  | popResult (m : I)
  /-- `purge_local_results` of these jobs; `purge_local_results('all')` is this with a list of all ids -/
  | purge (ms : List I)
deriving Repr

/-- `_futures`, `_output_futures`, `metadata` — client/client.py:1122-1245 -/
structure St (I : Type) where
  heap : Nat → Md := fun _ => {}
  /-- the next object that is allocated -/
  next : Nat := 0
  /-- `client.metadata`, a `defaultdict` of references -/
  metadata : I → Option Nat := fun _ => none
  /-- the object the output future of the request refers to, for ever -/
  held : I → Option Nat := fun _ => none
  /-- `m in client._futures`, `m in client._output_futures`, `m in client.results`, `m in client.outstanding`, `m in client.history` -/
  futures : I → Bool := fun _ => false
  outputFutures : I → Bool := fun _ => false
  results : I → Bool := fun _ => false
  outstanding : I → Bool := fun _ => false
  history : I → Bool := fun _ => false
  /-- the result future, the output future of the request is done -/
  resDone : I → Bool := fun _ => false
  outDone : I → Bool := fun _ => false

variable {I : Type} [DecidableEq I]

/-- dict assignment of client/client.py:1122-1245 -/
def set {α} (f : I → α) (m : I) (v : α) : I → α := fun x => if x = m then v else f x

/-- mutation of a `Metadata` object — client/client.py:1122-1227 -/
def setObj (h : Nat → Md) (r : Nat) (v : Md) : Nat → Md := fun x => if x = r then v else h x

/-- `self.metadata[msg_id]` of a `defaultdict` (client.py:968, :1135): the object, made if there is none -/
def touch (s : St I) (m : I) : St I × Nat :=
  match s.metadata m with
  | some r => (s, r)
  | none => ({ s with heap := setObj s.heap s.next {}, next := s.next + 1, metadata := set s.metadata m (some s.next) }, s.next)

/-- client.py:1300-1307, `cleanup`; it runs when both futures of the request are done -/
def cleanup (s : St I) (m : I) : St I :=
  { s with results := set s.results m false, futures := set s.futures m false, outputFutures := set s.outputFutures m false, metadata := set s.metadata m none }

/-- client.py:1014-1016, :1170-1173: `future = self._output_futures.get(msg_id); if future and not future.done(): future.set_result(None)` -/
def resolveOutput (s : St I) (m : I) : St I :=
  if s.outputFutures m ∧ ¬ s.outDone m then
    let s := { s with outDone := set s.outDone m true }
    if s.resDone m then cleanup s m else s
  else s

/-- client.py:962, :1028-1029: `if future: future.set_result(...)`; a future that is done raises -/
def resolveResult (s : St I) (m : I) (registered : Bool) : St I :=
  if registered ∧ ¬ s.resDone m then
    let s := { s with resDone := set s.resDone m true }
    if s.outDone m then cleanup s m else s
  else s

/-- client.py:1242-1310, :1225-1248 -/
def send (s : St I) (m : I) : St I :=
  let s := { s with outstanding := set s.outstanding m true, history := set s.history m true, futures := set s.futures m true, outputFutures := set s.outputFutures m true }
  let p := touch s m
  { p.1 with held := set p.1.held m (some p.2) }

/-- client.py:1121-1220 -/
def iopub (s : St I) (own : Bool) (m : I) (p : Pub) : St I :=
  if own = false then s
  else match p, s.metadata m with
    | .status _, none => s
    | .status false, some _ => s
    | .status true, some _ => resolveOutput s m
    | p, _ =>
      let q := touch s m
      { q.1 with heap := setObj q.1.heap q.2 ((q.1.heap q.2).add p) }

/-- client.py:900-962, :968-1029. `print(self.results[msg_id])` of an apply reply that is stale (client.py:981) raises a `KeyError` if the result is gone: the handler stops there. -/
def reply (s : St I) (exec : Bool) (m : I) (k : Kind) : St I :=
  if exec = false ∧ s.outstanding m = false ∧ s.history m = true ∧ s.results m = false then s
  else
    let registered := s.futures m
    let s := { s with outstanding := set s.outstanding m false }
    let s := (touch s m).1
    let s := { s with results := set s.results m true }
    let s := if k.noOutput then resolveOutput s m else s
    resolveResult s m registered

/-- client.py:2431-2459 -/
def purge (s : St I) (ms : List I) : St I :=
  if ms.any s.outstanding then s
  else ms.foldl cleanup s

/-- client/client.py:1094-1227 -/
def step (s : St I) : Ev I → St I
  | .send m => send s m
  | .iopub own m p => iopub s own m p
  | .reply e m k => reply s e m k
  | .popResult m => { s with results := set s.results m false }
  | .purge ms => purge s ms

/-- any interleaving of client/client.py:1094-1320 -/
def run (evs : List (Ev I)) : St I := evs.foldl step {}

/-! ### what the user sees -/

/-- the metadata an `AsyncResult` shows for a request it was made for (asyncresult.py:107: `[f.output.metadata for f in self._children]`) -/
def shown (s : St I) (m : I) : Md := match s.held m with | some r => s.heap r | none => {}

/-- `ar.stdout` (asyncresult.py:709-723): the stdout of the requests, in the order of the requests -/
def arStdout (s : St I) (ms : List I) : List Text := ms.map (fun m => (shown s m).stdout)

/-- `ar.wait_for_output()` returns (asyncresult.py:135-140, :380-397) -/
def outputReady (s : St I) (ms : List I) : Bool := ms.all (fun m => s.resDone m && s.outDone m)

/-! ### what the engines said -/

/-- the output messages for request `m` in a history, in order -/
def pubs (m : I) (evs : List (Ev I)) : List Pub :=
  evs.filterMap (fun | .iopub true m' p => if m' = m then some p else none | _ => none)

/-- the text of a message of one of the streams -/
def Pub.text (err : Bool) : Pub → Option Text
  | .stream e t => if e = err then some t else none
  | _ => none

/-- what is displayed by a message, reported as an error, or the value of an expression -/
def Pub.displayed : Pub → Option Nat
  | .display d => some d
  | _ => none

def Pub.raised : Pub → Option Nat
  | .error d => some d
  | _ => none

def Pub.value : Pub → Option Nat
  | .result d => some d
  | _ => none

def Pub.code : Pub → Option Nat
  | .input d => some d
  | _ => none

/-- the text written to a stream by request `m`, message by message -/
def texts (err : Bool) (m : I) (evs : List (Ev I)) : List Text := (pubs m evs).filterMap (Pub.text err)

/-- an engine said that it has finished the request -/
def idle (m : I) (evs : List (Ev I)) : Bool := (pubs m evs).any (fun p => p = .status true)

/-- the replies to request `m` -/
def replies (m : I) (evs : List (Ev I)) : List Kind :=
  evs.filterMap (fun | .reply _ m' k => if m' = m then some k else none | _ => none)

/-- the request is purged from the client's caches at some time -/
def purged (m : I) (evs : List (Ev I)) : Bool := evs.any (fun | .purge ms => m ∈ ms | _ => false)

/-- a reply after which no output can be expected: the request was aborted, or an error was reported by somebody else than an engine -/
def silentReply (k : Kind) : Bool := k = .aborted || k = .otherError

/-- the request is complete: there is a reply, and the end of its output has been announced or the reply says that there is none -/
def complete (m : I) (evs : List (Ev I)) : Bool :=
  !(replies m evs).isEmpty && (idle m evs || (replies m evs).any silentReply)

/-- the request is sent -/
def sends (m : I) (evs : List (Ev I)) : Bool := evs.any (fun | .send m' => m' = m | _ => false)

end IPP.Output
