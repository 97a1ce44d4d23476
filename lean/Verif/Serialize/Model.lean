/-!
# `ipyparallel.serialize`: canning and serialization

serialize.py and canning.py. Python objects are finite trees; `Option` is "or an exception". What pickle does is abstract: a pickled object arrives as an equal object (`Part.pkl`), and pickling fails for
memoryviews, closure cells and functions that cannot be imported by name. Not modelled: classes defined in `__main__` (`CannedClass`), custom entries of `can_map`, `use_dill`, cyclic objects,
and attributes of functions besides code, module, defaults and closure (annotations are handled like keyword-only defaults).
-/
namespace IPP.Ser

/-- contents of a buffer: raw bytes, or the pickle of an array — serialize/canning.py:319-382 -/
inductive Data where
  | raw (b : List Nat)
  | pick (dtype shape : Nat) (b : List Nat)
  deriving DecidableEq, Repr

/-- a buffer; `view`: it is a memoryview, else `bytes` — serialize/serialize.py:43-75 -/
structure Buf where
  data : Data
  view : Bool
  deriving DecidableEq, Repr

/-- dict keys; strings are given by their rank in the order of strings — keys of dicts, serialize/canning.py:443-455 -/
inductive Key where
  | num (n : Int)
  | str (n : Nat)
  deriving DecidableEq, Repr

/-- serialize/canning.py:457-464 -/
inductive SeqKind where
  | list
  | tuple
  | set
  deriving DecidableEq, Repr

/-- how numpy arrays are treated — canning.py:333-353 -/
inductive ArrKind where
  /-- sent as its memory -/
  | buffer
  /-- object dtype or empty shape: pickled -/
  | pickled
  /-- dtypes without the buffer interface: `memoryview(obj)` raises -/
  | noBuffer
  deriving DecidableEq, Repr

/-- Python objects. The constructors from `cBytes` on are the `CannedObject`s, `ref` is one too. — serialize/canning.py:105-382 -/
inductive Obj where
  /-- anything else: pickled as it is -/
  | atom (n : Nat)
  | bytes (b : List Nat)
  | view (b : List Nat)
  | arr (k : ArrKind) (dtype shape : Nat) (b : List Nat)
  | ref (name : Nat)
  | cell (content : Obj)
  /-- `module`: `none` is `__main__` -/
  | func (code : Nat) (module : Option Nat) (defaults : List Obj) (kwdefaults : List (Key × Obj)) (closure : List Obj)
  | partial_ (f : Obj) (args : List Obj) (kw : List (Key × Obj))
  | seq (k : SeqKind) (xs : List Obj)
  | dict (kv : List (Key × Obj))
  /-- `dependent(f, df, ...)` -/
  | dep (f df : Obj)
  | cBytes (bufs : List (Option Buf))
  | cView (bufs : List (Option Buf))
  | cArr (pickled : Bool) (dtype shape : Nat) (bufs : List (Option Buf))
  | cCell (content : Obj)
  | cFunc (code : Nat) (module : Option Nat) (defaults : List Obj) (kwdefaults : List (Key × Obj)) (closure : List Obj)
  | cPartial (f : Obj) (args : List Obj) (kw : List (Key × Obj)) (bufs : List (Option Buf)) (counts : List Nat) (kwCounts : List (Key × Nat))
  | cDep (f df : Obj)

/-! ## keys -/

/-- `sorted(obj)` — serialize/serialize.py:77-115 -/
def Key.le : Key → Key → Bool
  | .num a, .num b => a ≤ b
  | .num _, .str _ => true
  | .str _, .num _ => false
  | .str a, .str b => a ≤ b

/-- `sorted(obj)` — serialize/serialize.py:77-115 -/
def Key.isStr : Key → Bool
  | .str _ => true
  | .num _ => false

/-- insertion into a list sorted by key — `sorted(obj)` — serialize/serialize.py:77-115 -/
def insertKV {α : Type} (e : Key × α) : List (Key × α) → List (Key × α)
  | [] => [e]
  | x :: r => if e.1.le x.1 then e :: x :: r else x :: insertKV e r

/-- `sorted` by key — `sorted(obj)` — serialize/serialize.py:77-115 -/
def sortKV {α : Type} (l : List (Key × α)) : List (Key × α) := l.foldr insertKV []

/-- Python compares numbers with numbers and strings with strings only — `sorted(obj)` — serialize/serialize.py:77-115 -/
def comparable {α : Type} (l : List (Key × α)) : Bool := l.all (fun e => e.1.isStr) || l.all (fun e => !e.1.isStr)

/-! ## canned objects -/

/-- `isinstance(obj, CannedObject)` — serialize/serialize.py:52-75 -/
def isCanned : Obj → Bool
  | .ref _ | .cBytes _ | .cView _ | .cArr .. | .cCell _ | .cFunc .. | .cPartial .. | .cDep .. => true
  | _ => false

/-- `obj.buffers`; `CannedCell` has no such attribute — canning.py:150-153 -/
def buffers : Obj → Option (List (Option Buf))
  | .cBytes b | .cView b | .cArr _ _ _ b => some b
  | .cPartial _ _ _ b _ _ => some b
  | .ref _ | .cFunc .. | .cDep .. => some []
  | _ => none

/-- `obj.buffers = b` — serialize/serialize.py:52-75 -/
def setBuffers (b : List (Option Buf)) : Obj → Obj
  | .cBytes _ => .cBytes b
  | .cView _ => .cView b
  | .cArr p d s _ => .cArr p d s b
  | .cPartial f args kw _ c kc => .cPartial f args kw b c kc
  | o => o

/-- consolidating the buffers of a partial's arguments — canning.py:244-250: the arguments without their buffers, the counts and the buffers -/
def consolidate : List Obj → Option (List Obj × List Nat × List (Option Buf))
  | [] => some ([], [], [])
  | c :: r => do
    let (r', cs, bs) ← consolidate r
    if isCanned c then
      let b ← buffers c
      some (setBuffers [] c :: r', b.length :: cs, b ++ bs)
    else some (c :: r', 0 :: cs, bs)

/-- the same for keyword arguments in the order of their keys — canning.py:251-257 -/
def consolidateKW : List (Key × Obj) → Option (List (Key × Nat) × List (Option Buf))
  | [] => some ([], [])
  | (k, c) :: r => do
    let (cs, bs) ← consolidateKW r
    if isCanned c then
      let b ← buffers c
      some ((k, b.length) :: cs, b ++ bs)
    else some (cs, bs)

/-- `CannedPartial(f)`, given the canned function and arguments — canning.py:232-257 -/
def mkPartial (f : Obj) (args : List Obj) (kw : List (Key × Obj)) : Option Obj := do
  let (args', counts, b1) ← consolidate args
  let (kwCounts, b2) ← consolidateKW (sortKV kw)
  some (.cPartial f args' (kw.map (fun e => (e.1, if isCanned e.2 then setBuffers [] e.2 else e.2))) (b1 ++ b2) counts kwCounts)

mutual
/-- `can` — canning.py:425-447 with the constructors of the canned classes -/
def can : Obj → Option Obj
  | .bytes b => some (.cBytes [some ⟨.raw b, false⟩])
  | .view b => some (.cView [some ⟨.raw b, true⟩])
  | .arr .buffer d s b => some (.cArr false d s [some ⟨.raw b, true⟩])
  | .arr .pickled d s b => some (.cArr true d s [some ⟨.pick d s b, false⟩])
  | .arr .noBuffer _ _ _ => none
  | .cell c => do
    let c' ← can c
    some (.cCell c')
  | .func code m ds kd cl => do
    let ds' ← canList ds
    let kd' ← canKV kd
    let cl' ← canList cl
    some (.cFunc code m ds' kd' cl')
  | .partial_ f args kw => do
    let f' ← can f
    let args' ← canList args
    let kw' ← canKV kw
    mkPartial f' args' kw'
  | .dep f df => do
    let f' ← can f
    let df' ← can df
    some (.cDep f' df')
  | o => some o
/-- serialize/canning.py:457-464 -/
def canList : List Obj → Option (List Obj)
  | [] => some []
  | x :: r => do
    let x' ← can x
    let r' ← canList r
    some (x' :: r')
/-- serialize/canning.py:443-455 -/
def canKV : List (Key × Obj) → Option (List (Key × Obj))
  | [] => some []
  | (k, x) :: r => do
    let x' ← can x
    let r' ← canKV r
    some ((k, x') :: r')
end

/-- what uncanning depends on — `g` and the machine of serialize/canning.py:466-502 -/
structure Env where
  /-- the engine's namespace -/
  ns : Nat → Option Obj
  /-- namespaces of modules; `none`: the module cannot be imported -/
  mods : Nat → Option (Nat → Option Obj)
  /-- `check_dependency()` passes -/
  met : Obj → Bool

/-- the contents of buffers; fails when one is missing — serialize/canning.py:319-382 -/
def datas (b : List (Option Buf)) : Option (List Data) := b.mapM (fun x => x.map (·.data))

/-- own buffers of an object; objects without buffers have none — serialize/canning.py:105-139 -/
def own (o : Obj) : Option (List Data) := datas ((buffers o).getD [])

/-- slices of the buffers for the keyword arguments — canning.py:273-277 -/
def slices : List (Key × Nat) → List Data → List (Key × List Data) × List Data
  | [], b => ([], b)
  | (k, n) :: r, b => ((k, b.take n) :: (slices r (b.drop n)).1, (slices r (b.drop n)).2)

/-- dict lookup — Python's dict lookup, used by serialize/canning.py:142-159 -/
def look {α : Type} (k : Key) : List (Key × α) → Option α
  | [] => none
  | (k', v) :: r => if k = k' then some v else look k r

mutual
/-- `uncan` of an object whose `.buffers` are `b` — canning.py:483-501 with the `get_object` methods. `g`: the namespace given. -/
def uncanWith (E : Env) (g : Nat → Option Obj) : Obj → List Data → Option Obj
  | .ref n, _ => g n
  | .dict kv, _ => do
    let kv' ← uncanKV E g kv
    some (.dict kv')
  | .cBytes _, b =>
    match b with
    | .raw x :: _ => some (.bytes x)
    | _ => none
  | .cView _, b =>
    match b with
    | .raw x :: _ => some (.view x)
    | _ => none
  | .cArr false d s _, b =>
    match b with
    | .raw x :: _ => some (.arr .buffer d s x)
    | _ => none
  | .cArr true _ _ _, b =>
    match b with
    | .pick d s x :: _ => some (.arr .pickled d s x)
    | _ => none
  | .cCell c, _ => do
    let bc ← own c
    let c' ← uncanWith E g c bc
    some (.cell c')
  | .cFunc code m ds kd cl, _ =>
    match m with
    | none => do
      let ds' ← uncanList E g ds
      let kd' ← uncanKV E (fun _ => none) kd
      let cl' ← uncanList E g cl
      some (.func code m ds' kd' cl')
    | some mm =>
      match E.mods mm with
      | none => none
      | some g' => do
        let ds' ← uncanList E g' ds
        let kd' ← uncanKV E (fun _ => none) kd
        let cl' ← uncanList E g' cl
        some (.func code m ds' kd' cl')
  | .cPartial f args kw _ counts kwCounts, b => do
    let bf ← own f
    if b.isEmpty then
      let args' ← uncanList E g args
      let kw' ← uncanKV E g kw
      let f' ← uncanWith E g f bf
      some (.partial_ f' args' kw')
    else
      let (args', rest) ← uncanArgs E g args counts b
      let kw' ← uncanKW E g kw (slices (sortKV kwCounts) rest).1
      if (slices (sortKV kwCounts) rest).2.isEmpty then
        let f' ← uncanWith E g f bf
        some (.partial_ f' args' kw')
      else none
  | .cDep f df, _ => do
    let bf ← own f
    let f' ← uncanWith E g f bf
    let bdf ← own df
    let df' ← uncanWith E g df bdf
    if E.met (.dep f' df') then some (.dep f' df') else none
  | o, _ => some o
/-- every element with its own buffers — serialize/canning.py:496-502 -/
def uncanList (E : Env) (g : Nat → Option Obj) : List Obj → Option (List Obj)
  | [] => some []
  | x :: r => do
    let b ← own x
    let x' ← uncanWith E g x b
    let r' ← uncanList E g r
    some (x' :: r')
/-- serialize/canning.py:486-494 -/
def uncanKV (E : Env) (g : Nat → Option Obj) : List (Key × Obj) → Option (List (Key × Obj))
  | [] => some []
  | (k, x) :: r => do
    let b ← own x
    let x' ← uncanWith E g x b
    let r' ← uncanKV E g r
    some ((k, x') :: r')
/-- the arguments of a partial take their buffers from `b` by the counts — canning.py:265-269 -/
def uncanArgs (E : Env) (g : Nat → Option Obj) : List Obj → List Nat → List Data → Option (List Obj × List Data)
  | [], _, b => some ([], b)
  | x :: r, [], b => do
    let bx ← own x
    let x' ← uncanWith E g x bx
    let (r', b') ← uncanArgs E g r [] b
    some (x' :: r', b')
  | x :: r, n :: cs, b => do
    let bx ← if n = 0 then own x else some (b.take n)
    let x' ← uncanWith E g x bx
    let (r', b') ← uncanArgs E g r cs (b.drop n)
    some (x' :: r', b')
/-- the keyword arguments take the slices assigned to their keys — serialize/serialize.py:190-213 -/
def uncanKW (E : Env) (g : Nat → Option Obj) : List (Key × Obj) → List (Key × List Data) → Option (List (Key × Obj))
  | [], _ => some []
  | (k, x) :: r, sl => do
    let bx ← match look k sl with
      | some b => some b
      | none => own x
    let x' ← uncanWith E g x bx
    let r' ← uncanKW E g r sl
    some ((k, x') :: r')
end

/-- `uncan` — canning.py:483-501 -/
def uncan (E : Env) (g : Nat → Option Obj) (o : Obj) : Option Obj := do
  let b ← own o
  uncanWith E g o b

end IPP.Ser
