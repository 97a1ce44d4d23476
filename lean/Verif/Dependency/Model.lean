/-!
# Model of `controller/dependency.py:Dependency`

A message id is a `Nat` (uuid strings in the code).  A Python `set` is a `List Nat` of which only membership is used.
-/
namespace IPP

/-- message ids (strings in controller/dependency.py) as numbers -/
abbrev MsgId := Nat

/-- A `Dependency`: a set of message ids with three flags — dependency.py:128-178. -/
structure Dep where
  ids : List MsgId
  all : Bool := true
  success : Bool := true
  failure : Bool := false
  deriving DecidableEq, Repr, Inhabited

/-- `s.issubset(t)` — dependency.py:180-206 -/
def subset (s t : List MsgId) : Bool := s.all (fun x => t.contains x)

/-- `s.isdisjoint(t)` — dependency.py:180-206 -/
def disjoint (s t : List MsgId) : Bool := s.all (fun x => !t.contains x)

/-- `s.difference(t)` — task_scheduler.py:415 -/
def difference (s t : List MsgId) : List MsgId := s.filter (fun x => !t.contains x)

/-- `Dependency(ids, all, success, failure)` — dependency.py:151-178: ValueError (`none`) if neither successes nor failures
count.  `ids` are already strings; extraction of ids from AsyncResults is not modelled. -/
def Dep.mk? (ids : List MsgId) (all success failure : Bool) : Option Dep :=
  if !(success || failure) then none else some ⟨ids, all, success, failure⟩

/-- `Dependency.check(completed, failed)` — dependency.py:180-192. `failed = none` is Python's `None`. -/
def Dep.check (d : Dep) (completed : List MsgId) (failed : Option (List MsgId)) : Bool :=
  if d.ids.length = 0 then true
  else
    let against := if d.success then completed else []
    let against := match failed with
      | some f => if d.failure then against ++ f else against
      | none => against
    if d.all then subset d.ids against else !disjoint d.ids against

/-- `Dependency.unreachable(completed, failed)` — dependency.py:194-206. -/
def Dep.unreachable (d : Dep) (completed : List MsgId) (failed : Option (List MsgId)) : Bool :=
  if d.ids.length = 0 then false
  else
    let against := if !d.success then completed else []
    let against := match failed with
      | some f => if !d.failure then against ++ f else against
      | none => against
    if d.all then !disjoint d.ids against else subset d.ids against

/-- The dict form used on the wire (all keys optional on input). — dependency.py:154-159, 208-215 -/
structure DepDict where
  dependencies : Option (List MsgId)
  all : Option Bool
  success : Option Bool
  failure : Option Bool

/-- `Dependency.as_dict()` — dependency.py:208-215. -/
def Dep.asDict (d : Dep) : DepDict := ⟨some d.ids, some d.all, some d.success, some d.failure⟩

/-- `Dependency(dict)` — dependency.py:152-157, 173-178, with the defaults of the signature. -/
def Dep.ofDict (x : DepDict) : Option Dep :=
  Dep.mk? (x.dependencies.getD []) (x.all.getD true) (x.success.getD true) (x.failure.getD false)

/-- `MET = Dependency([])` — task_scheduler.py:89. -/
def Dep.met : Dep := { ids := [] }

end IPP
