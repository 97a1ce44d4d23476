import Verif.Sched.FailSpec

/-!
# Specification: which waiting tasks must the scheduler act upon?  (about the observable trace only)
-/
namespace IPP.Sched

/-- What the scheduler decides: to send a task to an engine, or to answer it with an error of its own. -/
def isDecision : Obs → Bool
  | .send .. | .fail .. => true
  | _ => false

/-- What the scheduler has heard when it begins to decide what to do about the event `ev` after the history `evs`. -/
def heard (cfg : Config) (evs : List Event) (ev : Event) : List Obs :=
  (run cfg evs).trace ++ ((run cfg (evs ++ [ev])).trace.drop (run cfg evs).trace.length).takeWhile (fun o => !isDecision o)

/-- Task `m` was submitted, is unanswered, and is on no engine. -/
def Waits (m : MsgId) (tr : List Obs) : Prop := (∃ sub, Obs.submitted m sub ∈ tr) ∧ replies m tr = 0 ∧ ∀ e, m ∉ assigned e tr

/-- Engine `e` is registered and has nothing to do. -/
def Idle (e : Engine) (tr : List Obs) : Prop := Registered e tr ∧ assigned e tr = []

/-- The time dependency of the submission is met. -/
def AfterMet (sub : Submission) (p : List Obs) : Prop := ∀ a, sub.after = some a → Satisfied a (okIds p) (failIds p)

/-- Task `m` can never run: a dependency of its cannot be satisfied any more; or its turn has come, but two tasks it must follow have succeeded
on different engines, or each engine on which it may run has failed or refused it or is not registered. -/
def Doomed (p : List Obs) (m : MsgId) : Prop :=
  ∃ sub, Obs.submitted m sub ∈ p ∧ ((∃ d, (sub.after = some d ∨ sub.follow = d) ∧ Hopeless d p) ∨
    (AfterMet sub p ∧ ((sub.follow.all = true ∧ ∃ a b ea eb, a ∈ sub.follow.ids ∧ b ∈ sub.follow.ids ∧ Obs.relay ea a true ∈ p ∧ Obs.relay eb b true ∈ p ∧ ea ≠ eb) ∨
      (sub.targets ≠ [] ∧ ∀ t ∈ sub.targets, (∃ c, Obs.retry t m c ∈ p) ∨ ¬ Registered t p))))

/-- Task `m` can run on engine `e`: its turn has come, the engine is registered, is among its targets and has not failed or refused it, and the tasks it must follow
have succeeded there. -/
def Runnable (p : List Obs) (m : MsgId) (e : Engine) : Prop :=
  ∃ sub, Obs.submitted m sub ∈ p ∧ AfterMet sub p ∧ Registered e p ∧ (∀ c, Obs.retry e m c ∉ p) ∧ (sub.targets = [] ∨ e ∈ sub.targets) ∧
    Satisfied sub.follow (okOn e p) []

/-- The events after which the scheduler must go through its queue: an engine registers, or a registered engine answers. -/
def Wakes (cfg : Config) (evs : List Event) (ev : Event) : Prop :=
  (∃ e, ev = .register e) ∨ ∃ e m ok dm, ev = .result e m ok dm ∧ Registered e (run cfg evs).trace

end IPP.Sched
