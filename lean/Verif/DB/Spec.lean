import Verif.DB.Model
/-!
# What the task database must do
-/
namespace IPP.DB

/-! ### a plain map (C33) -/

/-- The effect of a call on a plain map from ids to records, given whether the call raised. -/
def mapStep (m : Id → Option Rec) (op : Op) (raised : Bool) : Id → Option Rec := fun j =>
  if raised then m j else match op with
    | .add i r => if j = i then some r else m j
    | .update i new => if j = i then (m i).map (fun old => new ++ old) else m j
    | .drop i => if j = i then none else m j
    | .dropMatching check => match m j with
      | none => none
      | some r => if matchOne (lastPlain check) r check = some true then none else some r

/-- did the call raise? -/
def Res.raised : Res → Bool
  | .keyError | .valueError | .typeError => true
  | .ok | .hang => false

/-- state and plain map after a history of calls -/
def both (c : Cfg) (ops : List Op) : State × (Id → Option Rec) :=
  ops.foldl (fun sm op => ((step c sm.1 op).1, mapStep sm.2 op (step c sm.1 op).2.raised)) (init, fun _ => none)

/-- The hub stores records under their own id, and never changes the `msg_id` of a record — hub.py:457-470, 560-600. -/
def Op.Own : Op → Prop
  | .add i r => r.get "msg_id" = .text i
  | .update i r => r.get "msg_id" = .text i ∨ ∀ kv ∈ r, kv.1 ≠ "msg_id"
  | _ => True

/-- The hub records a submission time with every record. -/
def Op.Stamped : Op → Prop
  | .add _ r => ∃ d, r.get "submitted" = .date d
  | .update _ r => (∃ d, r.get "submitted" = .date d) ∨ ∀ kv ∈ r, kv.1 ≠ "submitted"
  | _ => True

/-! ### queries (C34) -/

/-- order of values of the same type -/
def Less : Val → Val → Prop
  | .num a, .num b => a < b
  | .text a, .text b => a < b
  | .date a, .date b => a < b
  | _, _ => False

/-- less or equal, of values of the same ordered type -/
def LessEq : Val → Val → Prop
  | .num a, .num b => a ≤ b
  | .text a, .text b => ¬ b < a
  | .date a, .date b => a ≤ b
  | _, _ => False

/-- MongoDB's meaning of the operators -/
def Test.Sat (a : Val) : Test → Prop
  | .lt b => Less a b
  | .gt b => Less b a
  | .eq b => a = b
  | .ne b => a ≠ b
  | .lte b => LessEq a b
  | .gte b => LessEq b a
  | .isin bs => a ∈ bs
  | .nin bs => a ∉ bs
  | .mod m r => m ≠ 0 ∧ ∃ n, a = .num n ∧ n.fmod m = r
  | .exist b => a ≠ .null ↔ b = true

def Cond.Sat (a : Val) : Cond → Prop
  | .plain v => a = v
  | .ops ts => ∀ t ∈ ts, t.Sat a

/-- the record satisfies every condition of the check -/
def Sat (r : Rec) (check : Check) : Prop := ∀ kc ∈ check, kc.2.Sat (r.get kc.1)

/-! ### sizes (C35) -/

/-- real size of the stored buffers -/
def realSize (s : State) : Nat := (s.records.map (fun x => recBytes x.2)).sum

/-- Records disappear from `s` to `s'` only oldest first: whatever is gone was submitted no later than whatever (with a submission time) is left. -/
def OldestFirst (s s' : State) : Prop :=
  (∀ x ∈ s'.records, x ∈ s.records) ∧
  ∀ x ∈ s.records, x ∉ s'.records → ∃ d, submitted x.2 = some d ∧ ∀ y ∈ s'.records, ∀ e, submitted y.2 = some e → d ≤ e

end IPP.DB
