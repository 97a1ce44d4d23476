/-!
# C84: `view.sync_imports()` — client/view.py:410-507

A program is a tree of import statements, `with view.sync_imports():` blocks and raised exceptions. An import statement calls whatever `builtins.__import__` is at that moment; what importing the module
does (its own import statements, its failure) is part of the tree, so that the theorems are about all programs. Each statement has the frame it is executed in; a function called by the block, a module's
body and another thread have frames of their own.

Not modelled: `local=False` (every import of the block then raises `NotImplementedError`, view.py:468-471), `quiet` and the printed lines, `import … as …` (documented as ignored, view.py:415), failures of `apply_async` itself, what `__import__` returns.
-/
namespace IPP.Imports

abbrev Name := List Char

/-- the arguments of `__import__` — client/view.py:452 -/
structure Stmt where
  /-- possibly dotted -/
  name : Name
  fromlist : List Name := []
  level : Nat := 0
  deriving DecidableEq, Repr

/-- `','.join(names)` — client/view.py:473 -/
def joinComma : List Name → List Char
  | [] => []
  | [x] => x
  | x :: y :: l => x ++ ',' :: joinComma (y :: l)

/-- `name + ':' + ','.join(fromlist or [])` — client/view.py:473 -/
def key (i : Stmt) : List Char := i.name ++ ':' :: joinComma i.fromlist

inductive Err where
  | importError
  /-- another local exception -/
  | other
  /-- a remote failure, raised by `r.get()` -/
  | remote
  deriving DecidableEq, Repr

/-- what is executed -/
inductive Act where
  /-- an import statement in `frame`; importing executes `nested` and then fails or not; `caught`: an error is caught around this statement -/
  | imp (i : Stmt) (frame : Nat) (nested : List Act) (fails : Option Err) (caught : Bool)
  /-- `with v.sync_imports(): body` in `frame` -/
  | block (v frame : Nat) (body : List Act) (caught : Bool)
  | raise (e : Err)

/-- what `builtins.__import__` can be: the real one, or the `view_import` of block number `b` of view `v` with its `context_frame` and `local_import` — client/view.py:429, 435, 452 -/
inductive Hook where
  | real
  | view (b v ctx : Nat) (prev : Hook)
  deriving DecidableEq, Repr

/-- a call of `apply_async(remote_import, …)` — client/view.py:485 -/
structure Req where
  block : Nat
  view : Nat
  stmt : Stmt
  deriving DecidableEq, Repr

structure St where
  /-- `builtins.__import__` -/
  hook : Hook := .real
  /-- number of the next block -/
  next : Nat := 0
  sent : List Req := []
  /-- calls of the real `__import__` -/
  log : List Stmt := []
  deriving DecidableEq, Repr

/-- `key not in modules`: a key is added exactly when a request is sent — client/view.py:474-485 -/
def St.fresh (s : St) (b : Nat) (i : Stmt) : Bool := !((s.sent.filter (fun r => r.block = b)).map (fun r => key r.stmt)).contains (key i)

/-- A call of the function `h` in place of `__import__`, from the frame `caller` (`none`: from a `view_import`) — client/view.py:452-490. Note that only the last line puts `save_import` back. -/
def through (nested : St → St × Option Err) (fails : Option Err) (i : Stmt) : Hook → Option Nat → St → St × Option Err
  | .real, _, s =>
    let r := nested { s with log := s.log ++ [i] }
    (r.1, r.2.or fails)
  | .view b v ctx prev, caller, s =>
    let save := s.hook
    let s := { s with hook := prev }
    if caller ≠ some ctx then through nested fails i prev none s
    else
      match through nested fails i prev none s with
      | (s, some e) => (s, some e)
      | (s, none) =>
        let s := if i.level = 0 ∧ s.fresh b i = true then { s with sent := s.sent ++ [⟨b, v, i⟩] } else s
        ({ s with hook := save }, none)

/-! ### the engines -/

/-- an engine's (or the client's) modules — `sys.modules` after an import, by full name — and their attributes -/
structure World where
  mods : Name → Option Nat
  attr : Nat → Name → Option Nat

/-- `user_ns[key] = getattr(mod, key)` for every key — client/view.py:447-448; `false`: `AttributeError` -/
def bindAll (w : World) (m : Nat) : List Name → (Name → Option Nat) → (Name → Option Nat) × Bool
  | [], ns => (ns, true)
  | x :: l, ns => match w.attr m x with
    | none => (ns, false)
    | some v => bindAll w m l (fun y => if y = x then some v else ns y)

/-- `remote_import` — client/view.py:438-450; `false`: it raises -/
def remoteImport (w : World) (i : Stmt) (ns : Name → Option Nat) : (Name → Option Nat) × Bool :=
  match w.mods i.name with
  | none => (ns, false)
  | some m => if i.fromlist = [] then (fun y => if y = i.name then some m else ns y, true) else bindAll w m i.fromlist ns

/-- the engines of each view -/
structure Cfg where
  engines : Nat → List World

/-- `r.get()` — client/view.py:504-506 (whether `remote_import` raises does not depend on the namespace: `remote_ok_ns`) -/
def remoteErr (c : Cfg) (r : Req) : Option Err := if (c.engines r.view).all (fun w => (remoteImport w r.stmt (fun _ => none)).2) then none else some .remote

/-! ### running -/

/-- `for r in results: r.get()` — client/view.py:493-507 -/
def leave (c : Cfg) (rs : List Req) : Option Err → Option Err
  | some e => some e
  | none => rs.findSome? (remoteErr c)

mutual
/-- client/view.py:410-507 -/
def exec (c : Cfg) : Act → St → St × Option Err
  | .imp i f nested fails caught => fun s =>
    let r := through (execAll c nested) fails i s.hook (some f) s
    (r.1, if caught then none else r.2)
  | .block v f body caught => fun s =>
    let r := execAll c body { s with hook := .view s.next v f s.hook, next := s.next + 1 }
    let s' := { r.1 with hook := s.hook }
    (s', if caught then none else leave c (s'.sent.filter (fun q => q.block = s.next)) r.2)
  | .raise e => fun s => (s, some e)

/-- client/view.py:493-495 -/
def execAll (c : Cfg) : List Act → St → St × Option Err
  | [] => fun s => (s, none)
  | a :: l => fun s => match exec c a s with
    | (s, some e) => (s, some e)
    | (s, none) => execAll c l s
end

end IPP.Imports
