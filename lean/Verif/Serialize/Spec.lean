import Verif.Serialize.Wire
/-! # What the receiver should see -/
namespace IPP.Ser

mutual
/-- values a user can have: canned objects other than references do not occur, and keys of dicts are different -/
def plain : Obj → Bool
  | .atom _ | .bytes _ | .view _ | .arr .. | .ref _ => true
  | .cell c => plain c
  | .func _ _ ds kd cl => plainList ds && plainKV kd && plainList cl
  | .partial_ f args kw => plain f && plainList args && plainKV kw && decide (kw.map (·.1)).Nodup
  | .seq _ xs => plainList xs
  | .dict kv => plainKV kv && decide (kv.map (·.1)).Nodup
  | .dep f df => plain f && plain df
  | _ => false
def plainList : List Obj → Bool
  | [] => true
  | x :: r => plain x && plainList r
def plainKV : List (Key × Obj) → Bool
  | [] => true
  | (_, x) :: r => plain x && plainKV r
end

mutual
/-- references looked up in `g`, also in the values of (nested) dicts -/
def resolve (g : Nat → Option Obj) : Obj → Option Obj
  | .ref n => g n
  | .dict kv => do
    let kv' ← resolveKV g kv
    some (.dict kv')
  | o => some o
def resolveKV (g : Nat → Option Obj) : List (Key × Obj) → Option (List (Key × Obj))
  | [] => some []
  | (k, x) :: r => do
    let x' ← resolve g x
    let r' ← resolveKV g r
    some ((k, x') :: r')
end

def resolveList (g : Nat → Option Obj) : List Obj → Option (List Obj)
  | [] => some []
  | x :: r => do
    let x' ← resolve g x
    let r' ← resolveList g r
    some (x' :: r')

/-- the namespace in which a function's defaults are resolved: that of its module; `none`: the module cannot be imported -/
def funcNs (E : Env) (g : Nat → Option Obj) : Option Nat → Option (Nat → Option Obj)
  | none => some g
  | some m => E.mods m

mutual
/-- what an argument is after the transport: itself, with the references in it resolved: in arguments of partials, defaults, closures, dependent functions and dicts -/
def seen (E : Env) (g : Nat → Option Obj) : Obj → Option Obj
  | .ref n => g n
  | .dict kv => resolve g (.dict kv)
  | .cell c => do
    let c' ← seen E g c
    some (.cell c')
  | .func code m ds kd cl =>
    match funcNs E g m with
    | none => none
    | some g' => do
      let ds' ← seenList E g' ds
      let kd' ← seenKV E (fun _ => none) kd
      let cl' ← seenList E g' cl
      some (.func code m ds' kd' cl')
  | .partial_ f args kw => do
    let f' ← seen E g f
    let args' ← seenList E g args
    let kw' ← seenKV E g kw
    some (.partial_ f' args' kw')
  | .dep f df => do
    let f' ← seen E g f
    let df' ← seen E g df
    if E.met (.dep f' df') then some (.dep f' df') else none
  | o => some o
def seenList (E : Env) (g : Nat → Option Obj) : List Obj → Option (List Obj)
  | [] => some []
  | x :: r => do
    let x' ← seen E g x
    let r' ← seenList E g r
    some (x' :: r')
def seenKV (E : Env) (g : Nat → Option Obj) : List (Key × Obj) → Option (List (Key × Obj))
  | [] => some []
  | (k, x) :: r => do
    let x' ← seen E g x
    let r' ← seenKV E g r
    some ((k, x') :: r')
end

mutual
/-- no references, no dependent functions, and modules of functions can be imported by the receiver -/
def closed (E : Env) : Obj → Bool
  | .ref _ | .dep .. => false
  | .cell c => closed E c
  | .func _ m ds kd cl => (match m with
      | none => true
      | some m => (E.mods m).isSome) && closedList E ds && closedKV E kd && closedList E cl
  | .partial_ f args kw => closed E f && closedList E args && closedKV E kw
  | .seq _ xs => closedList E xs
  | .dict kv => closedKV E kv
  | _ => true
def closedList (E : Env) : List Obj → Bool
  | [] => true
  | x :: r => closed E x && closedList E r
def closedKV (E : Env) : List (Key × Obj) → Bool
  | [] => true
  | (_, x) :: r => closed E x && closedKV E r
end

/-- equality of Python values at the top: dicts do not depend on their order, sets neither -/
inductive Same : Obj → Obj → Prop where
  | refl (x : Obj) : Same x x
  | dict {a b : List (Key × Obj)} : a.Perm b → Same (.dict a) (.dict b)
  | set {a b : List Obj} : a.Perm b → Same (.seq .set a) (.seq .set b)

end IPP.Ser
