/-!
# Model of the parallel magics (C79): `client/magics.py`

`%px`, `%%px`, `%pxresult`, `%pxconfig` (magics.py:250-480) and `%autopx` (482-590).

What a call does is recorded as a list of events. The blocking calls on a result (`wait`, `wait_for_output`, `wait_interactive`, `get`) are answered by an environment, which says whether Ctrl-C arrives during the call and what the engines answer; what is shown by `stream_output` and `display_outputs` is C75/C76.
Simplifications: names, cells and signals are numbers; `eval` of a target string is a function of the environment (`none`: it raises); the argument parser is left out (arguments are a record); `progress_after` is an integer (seconds).
-/
namespace IPP.Magics

/-- `view.targets` — client/magics.py:211-264 -/
inductive Targets where
  | all
  | one (id : Nat)
  | list (ids : List Nat)
  deriving DecidableEq, Repr

/-- how a blocking call on a result ends — client/magics.py:342-444 -/
inductive Call where
  | fine
  | interrupt
  deriving DecidableEq, Repr

/-- how `result.get()` ends: a result, Ctrl-C, a CompositeError, or another exception (the RemoteError of a single engine, EngineError, …) — client/magics.py:342-444 -/
inductive Got where
  | fine
  | interrupt
  | composite
  | other
  deriving DecidableEq, Repr

/-- one execution as seen by the client — client/magics.py:342-444 -/
structure Env where
  /-- `view.execute` submits (otherwise it raises: no engines, unknown target) -/
  submitOk : Bool
  /-- `result.wait(progress_after)` and the `wait_for_output` after it -/
  wait1 : Call
  wait2 : Call
  /-- `result.done()` after them -/
  done : Bool
  /-- `wait_interactive()` and `wait_for_output(1)` -/
  wait3 : Call
  wait4 : Call
  get : Got
  /-- `result._output_ready` when `get` raises -/
  outputReady : Bool
  /-- `wait_for_output(1)` in the `finally` clause -/
  wait5 : Call
  /-- `send_signal` works -/
  signalOk : Bool
  /-- `eval` of the target string -/
  eval : Nat → Option Targets

/-- client/magics.py:292-560 -/
inductive Ev where
  | say
  | submit (cell : Nat) (targets : Targets)
  | stream
  | unstream
  | display (groupby : Nat)
  | signal (sig : Nat) (targets : Targets)
  | localRun (cell : Nat)
  deriving DecidableEq, Repr

/-- exceptions — client/magics.py:342-444 -/
inductive Exn where
  | interrupt | composite | alreadyDisplayed | other | usage
  deriving DecidableEq, Repr

/-- configuration of the magics and the view — magics.py:216-236 -/
structure Conf where
  targets : Targets
  block : Bool
  verbose : Bool
  stream : Bool
  progressAfter : Int
  signal : Option Nat
  deriving DecidableEq, Repr

/-- client/magics.py:211-255 -/
structure St where
  conf : Conf
  /-- number of the next result -/
  next : Nat
  last : Option Nat
  /-- `shell.user_ns` -/
  ns : List (Nat × Nat)
  deriving DecidableEq, Repr

/-- what a magic returns: nothing, a result, or it raises — client/magics.py:292-498 -/
inductive Out where
  | none
  | result (r : Nat)
  | raised (e : Exn)
  deriving DecidableEq, Repr

/-- magics.py:385-416: the body of `with cm` and the translation of a CompositeError; `none`: no exception -/
def body (env : Env) (stream : Bool) (after : Int) : Option Exn :=
  let getting : Option Exn := match env.get with
    | .fine => none
    | .interrupt => some .interrupt
    | .composite => if stream && env.outputReady then some .alreadyDisplayed else some .composite
    | .other => some .other
  let interactive : Option Exn :=
    if after ≥ 0 then
      if env.wait3 = .interrupt then some .interrupt
      else if env.wait4 = .interrupt then some .interrupt
      else getting
    else getting
  if after > 0 then
    if env.wait1 = .interrupt then some .interrupt
    else if env.wait2 = .interrupt then some .interrupt
    else if env.done then getting
    else interactive
  else interactive

/-- magics.py:417-428: what remains of the exception after the `except KeyboardInterrupt` clause, and the signal sent -/
def onInterrupt (env : Env) (sig : Option Nat) (targets : Targets) : Option Exn → Option Exn × List Ev
  | some .interrupt => match sig with
    | some s => (if env.signalOk then none else some .other, [.signal s targets])
    | none => (some .interrupt, [])
  | e => (e, [])

/-- magics.py:429-437: the `finally` clause -/
def finally_ (env : Env) (stream : Bool) (groupby : Nat) (e : Option Exn) : Option Exn × List Ev :=
  if stream then (e, [])
  else if env.wait5 = .interrupt then (some .interrupt, [])
  else (e, [.display groupby])

/-- `parallel_execute` — magics.py:344-440 -/
def execute (env : Env) (s : St) (cell : Nat) (block : Option Bool) (groupby : Nat) (save : Option Nat) (stream : Option Bool) (after : Option Int) (sig : Option Nat) : St × List Ev × Out :=
  let block := block.getD s.conf.block
  let stream := stream.getD s.conf.stream
  let sig := sig.or s.conf.signal
  let targets := s.conf.targets
  let said := if s.conf.verbose then [Ev.say] else []
  let r := s.next
  let s' : St := { s with next := s.next + 1, last := some r, ns := match save with | some n => (n, r) :: s.ns | none => s.ns }
  if env.submitOk = false then (s, said, .raised .other)
  else if block then
    let after := after.getD s.conf.progressAfter
    let e := body env stream after
    let x := onInterrupt env sig targets e
    let y := finally_ env stream groupby x.1
    (s', said ++ [.submit cell targets] ++ (if stream then [.stream, .unstream] else []) ++ x.2 ++ y.2, y.1.elim .none .raised)
  else (s', said ++ [.submit cell targets], .result r)

/-- arguments of `%%px`; `targets`: a string — client/magics.py:77-208 -/
structure Args where
  targets : Option Nat
  block : Option Bool
  stream : Option Bool
  verbose : Option Bool
  after : Option Int
  signal : Option Nat
  groupby : Nat
  save : Option Nat
  isLocal : Bool
  deriving DecidableEq, Repr

/-- `%px line` — magics.py:325-342 -/
def px (env : Env) (s : St) (cell : Nat) : St × List Ev × Out := execute env s cell none 0 none none none none

/-- magics.py:465-479: the part of `cell_px` after `parallel_execute` has returned -/
def afterExecute (env : Env) (s : St) (args : Args) (cell : Nat) (out : Out) : List Ev × Out :=
  let block := args.block.getD s.conf.block
  let shown : List Ev × Out :=
    if args.isLocal then
      if block then match env.get with
        | .fine => ([.localRun cell, .display args.groupby], .none)
        | .interrupt => ([.localRun cell], .raised .interrupt)
        | .composite => ([.localRun cell], .raised .composite)
        | .other => ([.localRun cell], .raised .other)
      else ([.localRun cell], out)
    else ([], out)
  match shown.2 with
  | .raised e => (shown.1, .raised e)
  | o => (shown.1, if block then .none else o)

/-- `%%px` — magics.py:442-480 -/
def cellPx (env : Env) (s : St) (args : Args) (cell : Nat) : St × List Ev × Out :=
  let evaluated : Option Targets := match args.targets with
    | none => some s.conf.targets
    | some t => env.eval t
  match evaluated with
  | none => (s, [], .raised .other)
  | some t =>
    let s1 : St := { s with conf := { s.conf with targets := t } }
    let block := if args.isLocal then some false else args.block
    let r := execute env s1 cell block args.groupby args.save args.stream args.after args.signal
    let s2 : St := { r.1 with conf := { r.1.conf with targets := s.conf.targets } }
    match r.2.2 with
    | .raised e => (s2, r.2.1, .raised e)
    | o => let x := afterExecute env s2 args cell o; (s2, r.2.1 ++ x.1, x.2)

/-- `%pxresult` — magics.py:288-322 -/
def pxresult (env : Env) (s : St) (save : Option Nat) (groupby : Nat) : St × List Ev × Out := match s.last with
  | none => (s, [], .raised .usage)
  | some r => match save with
    | some n => ({ s with ns := (n, r) :: s.ns }, [], .none)
    | none => match env.get with
      | .fine => (s, [.display groupby], .none)
      | .interrupt => (s, [], .raised .interrupt)
      | .composite => (s, [], .raised .composite)
      | .other => (s, [], .raised .other)

/-- `%pxconfig` — magics.py:266-284 -/
def pxconfig (env : Env) (s : St) (args : Args) : St × Out :=
  let set := fun (c : Conf) => { c with
    block := args.block.getD c.block, verbose := args.verbose.getD c.verbose, stream := args.stream.getD c.stream,
    signal := args.signal.or c.signal, progressAfter := args.after.getD c.progressAfter }
  match args.targets with
  | none => ({ s with conf := set s.conf }, .none)
  | some t => match env.eval t with
    | none => (s, .raised .other)
    | some t => ({ s with conf := set { s.conf with targets := t } }, .none)

/-! ## `%autopx` -/

/-- a line of a cell: code, or the magic `%autopx` with a suffix (`activate(suffix=…)`); the suffix as numbers of characters — client/magics.py:500-560 -/
inductive Line where
  | blank
  | code (n : Nat)
  | auto (suffix : List Char)
  deriving DecidableEq, Repr

/-- characters of `\w` (ASCII) — client/magics.py:576-592 -/
def wordChar (c : Char) : Bool := c.isAlphanum || c == '_'

/-- `re.search(r'^\s*%autopx\b', cell)` — magics.py:566: the first line that is not blank is the magic, and its name ends there or goes on with a character outside `\w` -/
def matchesAuto : List Line → Bool
  | .blank :: r => matchesAuto r
  | .auto [] :: _ => true
  | .auto (c :: _) :: _ => !wordChar c
  | _ => false

/-- the shell: whether `run_cell`/`run_ast_nodes` are the original ones or those of the magics (one set of magics with suffix `suffix`) — magics.py:524-562 -/
structure Shell where
  suffix : List Char
  autopx : Bool
  /-- `shell.run_cell` is `pxrun_cell` -/
  installed : Bool
  deriving DecidableEq, Repr

inductive AEv where
  | locally (n : Nat)
  | remotely (cell : List Line)
  deriving DecidableEq, Repr

/-- `autopx` — magics.py:509-512 with `_enable_autopx`, `_disable_autopx` -/
def toggle (sh : Shell) : Shell := if sh.autopx then { sh with autopx := false, installed := false } else { sh with autopx := true, installed := true }

/-- a cell run by the original `run_ast_nodes`: line after line; a magic of another name is an unknown magic and does nothing here — IPython's `run_ast_nodes` as restored by client/magics.py:554-560 -/
def runLocal (sh : Shell) : List Line → Shell × List AEv
  | [] => (sh, [])
  | .blank :: r => runLocal sh r
  | .code n :: r => let x := runLocal sh r; (x.1, .locally n :: x.2)
  | .auto sfx :: r => runLocal (if sfx = sh.suffix then toggle sh else sh) r

/-- IPython's `run_cell` does nothing with a cell that is blank — IPython's `run_cell`, called by client/magics.py:576-592 -/
def blankCell (cell : List Line) : Bool := cell.all (· = .blank)

/-- one cell typed by the user: `run_cell` (original, or `pxrun_cell` which calls it) and then `run_ast_nodes` resp. `pxrun_nodes` — magics.py:564-590 -/
def typed (sh : Shell) (cell : List Line) : Shell × List AEv :=
  if blankCell cell then (sh, [])
  else if sh.installed then
    if matchesAuto cell then (if sh.autopx then { sh with autopx := false, installed := false } else sh, [])
    else (sh, [.remotely cell])
  else runLocal sh cell

/-- a sequence of cells under client/magics.py:500-592 -/
def session : Shell → List (List Line) → Shell × List AEv
  | sh, [] => (sh, [])
  | sh, c :: r => let x := typed sh c; let y := session x.1 r; (y.1, x.2 ++ y.2)

end IPP.Magics
