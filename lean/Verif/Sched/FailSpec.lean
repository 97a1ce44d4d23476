import Verif.Sched.Spec

/-!
# Specification: when may the scheduler answer a task with an error of its own?  (about the observable trace only)
-/
namespace IPP.Sched

/-- Task `i` has ended, in a way that `d` does not accept. -/
def Wrong (d : Dep) (p : List Obs) (i : MsgId) : Prop :=
  (d.success = false ∧ i ∈ okIds p) ∨ (d.failure = false ∧ i ∈ failIds p)

/-- `d` cannot be satisfied any more: one task (if all are needed), or every task, has ended in the wrong way. -/
def Hopeless (d : Dep) (p : List Obs) : Prop :=
  (d.all = true ∧ ∃ i ∈ d.ids, Wrong d p i) ∨ (d.all = false ∧ d.ids ≠ [] ∧ ∀ i ∈ d.ids, Wrong d p i)

/-- After `p`, the answer `why` to task `m` is justified. -/
def Justified (p : List Obs) (m : MsgId) (why : Why) : Prop :=
  ∃ sub, Obs.submitted m sub ∈ p ∧ match why with
    | .invalid => ∃ d i, (sub.after = some d ∨ sub.follow = d) ∧ i ∈ d.ids ∧ (i = m ∨ ∀ sub', Obs.submitted i sub' ∉ p)
    | .timeout => sub.hasTimeout = true
    | .impossible => (∃ d, (sub.after = some d ∨ sub.follow = d) ∧ Hopeless d p) ∨
        (sub.follow.all = true ∧ ∃ a b ea eb oka okb, a ∈ sub.follow.ids ∧ b ∈ sub.follow.ids ∧
          Obs.relay ea a oka ∈ p ∧ Obs.relay eb b okb ∈ p ∧ ea ≠ eb) ∨
        (sub.targets ≠ [] ∧ ∀ t ∈ sub.targets, (∃ c, Obs.retry t m c ∈ p) ∨ ¬ Registered t p)

end IPP.Sched
