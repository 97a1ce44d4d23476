/-!
# The engines' namespaces: `apply`, `push`, `pull`, `execute`, `clear`
(engine/kernel.py, util.py, client/view.py)

A namespace is a Python dict: an association list with keys used once. A Python function that an engine calls is an arbitrary function of the namespace and the arguments,
which changes the namespace and returns or raises (it may look at everything in the namespace, also at the engine's own temporary variables).

Simplifications: names that are not identifiers are refused by `push` (in the code `push({'a.b': 1})` sets an attribute and other strings may be code),
`pull` of another expression than a name has a parameter as meaning; values are copied by the wire (C37) and not shared; output and traceback formatting are left out; aborts are C45.
-/
namespace IPP.Namespace

/-- what a variable holds: a value of the user's, or an object the engine puts there for the time of a call — engine/kernel.py:138-208 -/
inductive Cell (V : Type) where
  | user (v : V)
  | internal
deriving DecidableEq

/-- `shell.user_ns` — engine/kernel.py:138-208 -/
abbrev Space (V : Type) := List (String × Cell V)

/-- `ns[k]` — engine/kernel.py:138-208, util.py:307-328 -/
def get {A : Type} (k : String) : List (String × A) → Option A
  | [] => none
  | e :: t => if e.1 = k then some e.2 else get k t

/-- `ns[k] = v` — engine/kernel.py:138-208, util.py:307-328 -/
def set {A : Type} (k : String) (v : A) : List (String × A) → List (String × A)
  | [] => [(k, v)]
  | e :: t => if e.1 = k then (k, v) :: t else e :: set k v t

/-- `ns.pop(k)`, ignoring a `KeyError` — engine/kernel.py:138-208, util.py:307-328 -/
def del {A : Type} (k : String) (l : List (String × A)) : List (String × A) := l.filter (fun e => e.1 ≠ k)

/-- engine/kernel.py:138-208 -/
inductive Err where
  | name (k : String)
  | syntax (k : String)
  | unpicklable
  | user (e : String)
deriving DecidableEq

/-- what a call returns — engine/kernel.py:138-208 -/
inductive Ret (V : Type) where
  | val (v : V)
  | vals (l : List V)
  | nothing
deriving DecidableEq

/-- engine/kernel.py:138-208 -/
inductive Outcome (V : Type) where
  | ok (r : Ret V)
  | raised (e : Err)
deriving DecidableEq

/-- an argument: a value, or `Reference(name)` (canning.py, C39) -/
inductive Arg (V : Type) where
  | val (v : V)
  | ref (k : String)
deriving DecidableEq

/-- a Python function — called by engine/kernel.py:138-208 -/
abbrev Fn (V : Type) := Space V → List V → List (String × V) → Space V × Outcome V

/-- the interpreter: which strings are identifiers, what other expressions evaluate to (`eval`), which results can be pickled, and what a namespace holds after `shell.reset` — the interpreter under engine/kernel.py:138-208 -/
structure Interp (V : Type) where
  ident : String → Bool
  expr : String → Space V → Outcome V
  picklable : Ret V → Bool
  initial : Space V

variable {V : Type}

/-- `unpack_apply_message(bufs, working)` (serialize.py:189-213): references are looked up in the namespace -/
def resolve (ns : Space V) : Arg V → Except Err V
  | .val v => .ok v
  | .ref k => match get k ns with
    | some (.user v) => .ok v
    | _ => .error (.name k)

/-- serialize/canning.py:142-159, 496-502 -/
def resolveAll (ns : Space V) : List (Arg V) → Except Err (List V)
  | [] => .ok []
  | a :: t => match resolve ns a with
    | .error e => .error e
    | .ok v => match resolveAll ns t with
      | .error e => .error e
      | .ok l => .ok (v :: l)

/-- `prefix = f"_{str(msg_id).replace('-', '_')}_"` (kernel.py:139) -/
def prefixOf (msg : String) : String := "_" ++ (String.ofList (msg.toList.map (fun c => if c = '-' then '_' else c)) ++ "_")

/-- the four temporary variables (kernel.py:143-148) -/
def temps (msg : String) : List String := [prefixOf msg ++ "f", prefixOf msg ++ "args", prefixOf msg ++ "kwargs", prefixOf msg ++ "result"]

/-- engine/kernel.py:138-208 -/
def delAll (ks : List String) (ns : Space V) : Space V := ks.foldl (fun n k => del k n) ns

/-- `IPythonParallelKernel.do_apply` (kernel.py:134-181): the namespace afterwards and the reply -/
def doApply (i : Interp V) (ns : Space V) (msg : String) (f : Fn V) (args : List (Arg V)) (kwargs : List (String × Arg V)) : Space V × Outcome V :=
  match resolveAll ns args with
  | .error e => (ns, .raised e)
  | .ok as => match resolveAll ns (kwargs.map (·.2)) with
    | .error e => (ns, .raised e)
    | .ok vs =>
      let ns1 := (temps msg).foldl (fun n k => set k .internal n) ns
      match f ns1 as ((kwargs.map (·.1)).zip vs) with
      | (ns2, .raised e) => (delAll (temps msg) ns2, .raised e)
      | (ns2, .ok r) =>
        -- the assignment to `resultname`, `working.get(resultname)`, the `finally` and `serialize_object`
        (delAll (temps msg) (set (prefixOf msg ++ "result") .internal ns2), if i.picklable r then .ok r else .raised .unpicklable)

/-- the temporary variable of `_push` (util.py:310-312): underscores are added while the name is used -/
def pushTmp (ns : Space V) : Nat → String → String
  | 0, tmp => tmp
  | fuel + 1, tmp => if tmp ∈ ns.map (·.1) then pushTmp ns fuel (tmp ++ "_") else tmp

/-- the loop of `_push` (util.py:314-316) -/
def pushLoop (i : Interp V) (tmp : String) : List (String × V) → Space V → Space V × Outcome V
  | [], ns => (ns, .ok .nothing)
  | (k, v) :: t, ns =>
    let ns1 := set tmp (.user v) ns
    if i.ident k then pushLoop i tmp t (set k (.user v) ns1) else (ns1, .raised (.syntax k))

/-- `util._push(**ns)` (util.py:307-318) -/
def pushFn (i : Interp V) : Fn V := fun ns _ kw =>
  let tmp := pushTmp ns ns.length "_IP_PUSH_TMP_"
  let r := pushLoop i tmp kw ns
  (del tmp r.1, r.2)

/-- `eval(key, user_ns)` — util.py:321-328 -/
def evalKey (i : Interp V) (ns : Space V) (k : String) : Outcome V :=
  if i.ident k then
    match get k ns with
    | some (.user v) => .ok (.val v)
    | _ => .raised (.name k)
  else i.expr k ns

/-- util.py:321-328 -/
def evalKeys (i : Interp V) (ns : Space V) : List String → Except Err (List V)
  | [] => .ok []
  | k :: t => match evalKey i ns k with
    | .ok (.val v) => match evalKeys i ns t with
      | .ok l => .ok (v :: l)
      | .error e => .error e
    | .raised e => .error e
    | .ok _ => .error (.user "not a value")

/-- the names of a `pull`: one, or a list — client/view.py:782-798 -/
inductive Keys where
  | one (k : String)
  | many (l : List String)

/-- `util._pull(keys)` (util.py:321-327); the keys are pickled, not looked up -/
def pullFn (i : Interp V) (ks : Keys) : Fn V := fun ns _ _ =>
  (ns, match ks with
    | .one k => evalKey i ns k
    | .many l => match evalKeys i ns l with
      | .ok vs => .ok (.vals vs)
      | .error e => .raised e)

/-- what is sent to an engine -/
inductive Req (V : Type) where
  | apply (f : Fn V) (args : List (Arg V)) (kwargs : List (String × Arg V))
  /-- `execute_request` with arbitrary code -/
  | execute (code : Space V → Space V × Outcome V)
  /-- `clear_request` (kernel.py:241-247) -/
  | clear

/-- `DirectView.push(ns)` (view.py:752-772): the keyword arguments in the order of the wire -/
def pushReq (i : Interp V) (l : List (String × V)) : Req V := .apply (pushFn i) [] (l.map (fun e => (e.1, .val e.2)))
/-- `DirectView.pull(names)` (view.py:782-798) -/
def pullReq (i : Interp V) (ks : Keys) : Req V := .apply (pullFn i ks) [] []

/-- one request on an engine — engine/kernel.py:105-247 -/
def handle (i : Interp V) (ns : Space V) (msg : String) : Req V → Space V × Outcome V
  | .apply f a k => doApply i ns msg f a k
  | .execute code => code ns
  | .clear => (i.initial, .ok .nothing)

/-! ### clients, channels and engines

Each client has a FIFO channel to each engine through each of the controller's queues (0: control, 1: direct, 2: load-balanced, 3: broadcast; C50).
An engine takes the next message of any of its channels. -/

/-- the queues between client/client.py:1247-1320 and engine/kernel.py:105-247 -/
structure Key where
  client : Nat
  queue : Nat
  engine : Nat
deriving DecidableEq

/-- the queues between client/client.py:1247-1320 and engine/kernel.py:105-247 -/
structure Sys (V : Type) where
  ns : Nat → Space V
  chan : Key → List (String × Req V)
  /-- executed requests with their replies, latest last -/
  log : List (Key × String × Req V × Outcome V)

/-- client/client.py:1247-1320, engine/kernel.py:105-247 -/
inductive Ev (V : Type) where
  | send (k : Key) (msg : String) (r : Req V)
  | take (k : Key)

/-- client/client.py:1247-1320, engine/kernel.py:105-247 -/
def step (i : Interp V) (s : Sys V) : Ev V → Sys V
  | .send k msg r => { s with chan := fun x => if x = k then s.chan k ++ [(msg, r)] else s.chan x }
  | .take k => match s.chan k with
    | [] => s
    | (msg, r) :: t =>
      let o := handle i (s.ns k.engine) msg r
      { ns := fun e => if e = k.engine then o.1 else s.ns e
        chan := fun x => if x = k then t else s.chan x
        log := s.log ++ [(k, msg, r, o.2)] }

/-- any interleaving of client/client.py:1247-1320 and engine/kernel.py:105-247 -/
def run (i : Interp V) (s : Sys V) (h : List (Ev V)) : Sys V := h.foldl (step i) s

end IPP.Namespace
