import Verif.Sched.Model
import Verif.Dependency.Props

/-!
# Specification vocabulary for the scheduler: everything here is about the observable trace only
-/
namespace IPP.Sched

/-- Tasks whose success was reported to the client. -/
def okIds (tr : List Obs) : List MsgId := tr.filterMap fun
  | .relay _ m true => some m
  | _ => none

/-- Tasks whose failure was reported to the client (by the engine, or by the scheduler itself). -/
def failIds (tr : List Obs) : List MsgId := tr.filterMap fun
  | .relay _ m false => some m
  | .fail m _ => some m
  | _ => none

/-- Tasks that succeeded on engine `e`. -/
def okOn (e : Engine) (tr : List Obs) : List MsgId := tr.filterMap fun
  | .relay e' m true => if e' = e then some m else none
  | _ => none

/-- Tasks that failed on engine `e`. -/
def failOn (e : Engine) (tr : List Obs) : List MsgId := tr.filterMap fun
  | .relay e' m false => if e' = e then some m else none
  | _ => none

/-- Engine `e` is registered: it registered more often than it unregistered. -/
def Registered (e : Engine) (tr : List Obs) : Prop := tr.count (.unregistered e) < tr.count (.registered e)

/-- Tasks that were sent to `e` and that `e` has not answered. -/
def outstanding (e : Engine) (tr : List Obs) : List MsgId := tr.foldl (fun l o => match o with
  | .send e' m => if e' = e then l ++ [m] else l
  | .received e' m _ _ => if e' = e then l.erase m else l
  | _ => l) []

/-- Engines only answer what they were asked: every reply is for a task outstanding on that engine. -/
def Faithful (tr : List Obs) : Prop :=
  ∀ p e m ok dm q, tr = p ++ .received e m ok dm :: q → m ∈ outstanding e p

/-- Number of failures of task `m` known to the scheduler: error replies of engines, and engines that died with it. -/
def failures (m : MsgId) (tr : List Obs) : Nat := tr.countP fun
  | .received _ m' false true => m' = m
  | .stranded _ m' => m' = m
  | _ => false

/-- Number of final replies the client got for task `m`. -/
def replies (m : MsgId) (tr : List Obs) : Nat := tr.countP fun
  | .relay _ m' _ => m' = m
  | .fail m' _ => m' = m
  | _ => false

/-- Number of engine replies (real or made up for a dead engine) for `m` that were passed on to the client. -/
def relays (m : MsgId) (tr : List Obs) : Nat := tr.countP fun
  | .relay _ m' _ => m' = m
  | _ => false

/-- Number of successes of task `m` reported by engines. -/
def successes (m : MsgId) (tr : List Obs) : Nat := tr.countP fun
  | .received _ m' true true => m' = m
  | _ => false

/-- Number of times the task was sent to some engine. -/
def sends (m : MsgId) (tr : List Obs) : Nat := tr.countP fun
  | .send _ m' => m' = m
  | _ => false

/-- Number of times the task was taken back from an engine. -/
def takenBack (m : MsgId) (tr : List Obs) : Nat := tr.countP fun
  | .retry _ m' _ => m' = m
  | _ => false

/-- Number of times the task was taken back because it failed. -/
def retried (m : MsgId) (tr : List Obs) : Nat := tr.countP fun
  | .retry _ m' .failure => m' = m
  | _ => false

/-- When a task was last sent to `e`: the number of observations up to then, 0 if never. -/
def lastSend (e : Engine) (tr : List Obs) : Nat :=
  tr.length - tr.reverse.findIdx (fun o => match o with | .send e' _ => e' = e | _ => false)

/-- Tasks assigned to `e`: sent to it, not answered, and not given up because the engine is dead. -/
def assigned (e : Engine) (tr : List Obs) : List MsgId := tr.foldl (fun l o => match o with
  | .send e' m => if e' = e then l ++ [m] else l
  | .received e' m _ _ => if e' = e then l.erase m else l
  | .stranded e' m => if e' = e then l.erase m else l
  | _ => l) []

/-- Engines answer only tasks assigned to them: what they were asked, once, and not after the scheduler has given them up for dead. -/
def Prompt (cfg : Config) (evs : List Event) : Prop :=
  ∀ p e m ok dm q, evs = p ++ .result e m ok dm :: q → m ∈ assigned e (run cfg p).trace

end IPP.Sched
