import Verif.Namespace.Model
import Verif.Sched.Model
/-!
# Load-balanced tasks from end to end
(client/view.py:1336-1447, controller/dependency.py:30-75, serialize/canning.py:503-512, controller/task_scheduler.py, engine/kernel.py:71-181)

The scheduler of `Sched/Model.lean` and the engines of `Namespace/Model.lean`, with messages in transit between them.
A task is a function, perhaps with functional dependencies (`@depend`, `@require`), and arguments. The scheduler does not look at it: it keeps the message and sends it on.

Simplifications: one client connection (results are routed by C50); aborts are C45; an engine's channel from and to the scheduler is FIFO; messages are only lost when an engine crashes.
-/
namespace IPP.LB
open IPP.Namespace

/-- a function as it is submitted: plain, or `dependent` (dependency.py:41-61) on the result of another one; `@depend(g) @depend(h) def f` nests them -/
inductive Callable (V : Type) where
  | plain (f : Fn V)
  | dep (f : Callable V) (df : Fn V) (dargs : List V) (dkwargs : List (String × V))

/-- client/view.py:1336-1447 -/
structure Task (V : Type) where
  f : Callable V
  args : List (Arg V)
  kwargs : List (String × Arg V)

/-- the exception whose name means that the engine refuses the task — error.py:55-57, engine/kernel.py:82-93 -/
def unmet : Err := .user "UnmetDependency"

/-- the interpreter, and which results are `False` — engine/kernel.py:138-208 -/
structure Interp (V : Type) extends Namespace.Interp V where
  isFalse : Ret V → Bool

variable {V : Type}

/-- `CannedObject.get_object` (canning.py:129-139) of a `dependent`, with `_uncan_dependent_hook` and `check_dependency` (canning.py:504-505, dependency.py:55-57):
the wrapped function is restored first (so inner dependencies are checked first), then `df` is called -/
def uncan (i : Interp V) : Callable V → Space V → Space V × Except Err (Fn V)
  | .plain f, ns => (ns, .ok f)
  | .dep f df a k, ns => match uncan i f ns with
    | (ns1, .error e) => (ns1, .error e)
    | (ns1, .ok g) => match df ns1 a k with
      | (ns2, .raised e) => (ns2, .error e)
      | (ns2, .ok r) => if i.isFalse r then (ns2, .error unmet) else (ns2, .ok g)

/-- engine/kernel.py:138-208 -/
def isOk {ε α : Type} : Except ε α → Bool
  | .ok _ => true
  | .error _ => false

/-- `do_apply` (kernel.py:134-181) with `unpack_apply_message`, which restores the function before the arguments (serialize.py:189-213).
The namespace afterwards, whether the task's own function was called, and the outcome. -/
def execute (i : Interp V) (ns : Space V) (msg : String) (t : Task V) : Space V × Bool × Outcome V :=
  match uncan i t.f ns with
  | (ns1, .error e) => (ns1, false, .raised e)
  | (ns1, .ok f) =>
    let r := doApply i.toInterp ns1 msg f t.args t.kwargs
    (r.1, isOk (resolveAll ns1 t.args) && isOk (resolveAll ns1 (t.kwargs.map (·.2))), r.2)

/-- `metadata['dependencies_met']` is false (kernel.py:89): the exception has this name, wherever it was raised -/
def refused : Outcome V → Bool
  | .raised e => e = unmet
  | .ok _ => false

/-- task_scheduler.py:607-641 -/
def succeeded : Outcome V → Bool
  | .ok _ => true
  | .raised _ => false

/-- what the client gets for a task -/
inductive Final (V : Type) where
  /-- the engine's reply, passed on -/
  | reply (o : Outcome V)
  /-- the reply made up for an engine that died (task_scheduler.py:310-325) -/
  | engineError
  /-- `fail_unreachable` (task_scheduler.py:455-494) -/
  | failed (why : Sched.Why)

/-- an execution on an engine: the namespace before and after, whether the function was called, the outcome — engine/kernel.py:138-208 -/
structure Exec (V : Type) where
  engine : Sched.Engine
  msg : MsgId
  before : Space V
  after : Space V
  started : Bool
  out : Outcome V

/-- task_scheduler.py:132-200, engine/kernel.py:39-48 -/
structure Sys (V : Type) where
  sched : Sched.State := {}
  /-- what has happened to the scheduler (history variable) -/
  evs : List Sched.Event := []
  task : MsgId → Option (Task V)
  inbox : Sched.Engine → List MsgId
  outbox : Sched.Engine → List (MsgId × Outcome V)
  ns : Sched.Engine → Space V
  dead : Sched.Engine → Bool
  /-- replies of the client's tasks, latest last -/
  client : List (MsgId × Final V) := []
  /-- executions (history variable) -/
  log : List (Exec V) := []

/-- task_scheduler.py:202-215, engine/kernel.py:105-136 -/
inductive Ev (V : Type) where
  /-- `apply_async(f, *args, **kwargs)` with the view's flags -/
  | submit (m : MsgId) (sub : Sched.Submission) (t : Task V)
  | register (e : Sched.Engine)
  /-- the hub says that the engine is gone -/
  | unregister (e : Sched.Engine)
  /-- the engine takes its next message -/
  | work (e : Sched.Engine)
  /-- the scheduler takes the next reply of the engine -/
  | deliver (e : Sched.Engine)
  /-- the engine's process ends; `k` replies have left it -/
  | crash (e : Sched.Engine) (k : Nat)
  | strandTimer (e : Sched.Engine)
  | jobTimer (m : MsgId) (tid : Nat)

/-- messages to engine `e` among what the scheduler does — task_scheduler.py:594-605 -/
def sentTo (e : Sched.Engine) : Sched.Obs → Option MsgId
  | .send e' m => if e' = e then some m else none
  | _ => none

/-- messages to the client; `cur`: the reply being handled, if it is an engine's — task_scheduler.py:455-488, 642-663 -/
def toClient (cur : Option (Outcome V)) : Sched.Obs → Option (MsgId × Final V)
  | .relay _ m _ => some (m, match cur with | some o => .reply o | none => .engineError)
  | .fail m why => some (m, .failed why)
  | _ => none

/-- one handler of the scheduler, with the messages it sends — task_scheduler.py:217-790 -/
def dispatch (cfg : Sched.Config) (s : Sys V) (ev : Sched.Event) (cur : Option (Outcome V)) : Sys V :=
  let st := Sched.step cfg s.sched ev
  let new := st.trace.drop s.sched.trace.length
  { s with sched := st, evs := s.evs ++ [ev], inbox := fun e => s.inbox e ++ new.filterMap (sentTo e), client := s.client ++ new.filterMap (toClient cur) }

/-- the state of one engine, engine/kernel.py:39-48 -/
def upd {A : Type} (f : Sched.Engine → A) (e : Sched.Engine) (a : A) : Sched.Engine → A := fun x => if x = e then a else f x

/-- task_scheduler.py:217-790, engine/kernel.py:105-208 -/
def step (i : Interp V) (cfg : Sched.Config) (s : Sys V) : Ev V → Sys V
  | .submit m sub t => dispatch cfg { s with task := fun x => if x = m then some t else s.task x } (.submit m sub) none
  | .register e => dispatch cfg s (.register e) none
  | .unregister e => dispatch cfg s (.unregister e) none
  | .work e =>
    if s.dead e then s
    else match s.inbox e with
      | [] => s
      | m :: rest => match s.task m with
        | none => s
        | some t =>
          let r := execute i (s.ns e) (toString m) t
          { s with inbox := upd s.inbox e rest, ns := upd s.ns e r.1, outbox := upd s.outbox e (s.outbox e ++ [(m, r.2.2)]),
                   log := s.log ++ [⟨e, m, s.ns e, r.1, r.2.1, r.2.2⟩] }
  | .deliver e => match s.outbox e with
    | [] => s
    | (m, o) :: rest => dispatch cfg { s with outbox := upd s.outbox e rest } (.result e m (succeeded o) (!refused o)) (some o)
  | .crash e k => { s with dead := upd s.dead e true, inbox := upd s.inbox e [], outbox := upd s.outbox e ((s.outbox e).take k) }
  | .strandTimer e => dispatch cfg s (.strandTimer e) none
  | .jobTimer m tid => dispatch cfg s (.jobTimer m tid) none

/-- nothing has happened — task_scheduler.py:202-215 -/
def init (i : Interp V) : Sys V := { task := fun _ => none, inbox := fun _ => [], outbox := fun _ => [], ns := fun _ => i.initial, dead := fun _ => false }

/-- any interleaving of task_scheduler.py:202-215 and engine/kernel.py:105-136 -/
def run (i : Interp V) (cfg : Sched.Config) (h : List (Ev V)) : Sys V := h.foldl (step i cfg) (init i)

end IPP.LB
