import Verif.Map.Model

/-!
# Model of `client/futures.py:multi_future`, `error.py:collect_exceptions` and the result side of
`client/asyncresult.py` (`AsyncResult._resolve_result`, `get`, iteration, progress).
-/
namespace IPP.Async

open IPP.Map (Dist PyErr)

/-! ## Errors and results -/

/-- The four fields `(en, ev, etb, ei)` of a remote error; class attributes of `RemoteError` are `None`
until `__init__` sets them — error.py:71-86. `ei` is the engine id. -/
structure ETuple where
  en : Option String
  ev : Option String
  etb : Option String
  ei : Option Nat
  deriving DecidableEq, Repr

/-- Exceptions that can occur in, or be raised while handling, a list of results. -/
inductive Exc where
  /-- `RemoteError(ename, evalue, traceback, engine_info)` — error.py:71-86, built by `unwrap_exception` 265-272 from
  strings: `evalue` is the `str` of the remote exception. -/
  | remote (t : ETuple)
  /-- `CompositeError(message, elist)` — error.py:137-148.  It is a `RemoteError` whose `ename`, `evalue`, `traceback`
  and `engine_info` are the class defaults `None` (its `__init__` does not call `RemoteError.__init__`). -/
  | composite (elist : List ETuple)
  /-- any exception that is not a `RemoteError`, e.g. `TaskAborted` (client.py) -/
  | other (name : String)
  /-- Python's AttributeError -/
  | attributeError
  /-- Python's TypeError -/
  | typeError
  /-- Python's TimeoutError -/
  | timeout
  deriving DecidableEq, Repr

/-- One entry of the list of results: a value or an exception *object* (results are stored, not raised —
client.py `_handle_apply_reply`). -/
inductive Res (V : Type u) where
  | val (v : V)
  | exc (e : Exc)
  deriving DecidableEq, Repr

/-- `isinstance(r, RemoteError)`: the tuple of attributes read at error.py:234. `none` if not a RemoteError. -/
def asRemote : Res V → Option ETuple
  | .exc (.remote t) => some t
  | .exc (.composite _) => some ⟨none, none, none, none⟩
  | _ => none

/-- The loop of `collect_exceptions` — error.py:232-244.  `ev.elist` at 240 is an attribute access on the *string*
`evalue`, which raises AttributeError. -/
def collectLoop : List (Res V) → List ETuple → Except Exc (List ETuple)
  | [], elist => .ok elist
  | r :: rs, elist =>
    match asRemote r with
    | none => collectLoop rs elist
    | some t =>
      if t.en = some "CompositeError" then .error .attributeError
      else collectLoop rs (elist ++ [t])

/-- `collect_exceptions(rlist)` — error.py:224-250. -/
def collectExceptions (rs : List (Res V)) : Except Exc (List (Res V)) :=
  match collectLoop rs [] with
  | .error e => .error e
  | .ok elist => if elist.length = 0 then .ok rs else .error (.composite elist)

/-! ## multi_future -/

/-- State of a `multi_future` over children `Nat` (futures identified by number) — futures.py:84-120.
`done` holds the children's outcomes, `sets` counts how often the combined future was resolved. -/
structure MF (V : Type u) where
  children : List Nat
  done : Nat → Option (Except Exc V)
  unfinished : List Nat
  result : Option (Except Exc (List V))
  sets : Nat

/-- The loop over children at futures.py:101-113: collects results, the first exception resolves the future, later
ones are only logged.  The accumulator is `(result_list, first exception)`. -/
def gatherResults (done : Nat → Option (Except Exc V)) : List Nat → List V × Option Exc → List V × Option Exc
  | [], acc => acc
  | f :: fs, (rl, e) =>
    match done f with
    | some (.ok v) => gatherResults done fs (rl ++ [v], e)
    | some (.error x) => gatherResults done fs (rl, e.orElse (fun _ => some x))
    | none => gatherResults done fs (rl, e)

/-- `callback(f)` — futures.py:98-113. (`set.remove` of an absent child would raise KeyError: the callback is attached
once per child, so this cannot happen; the model's `erase` is then a no-op and the rest is skipped.) -/
def MF.callback (m : MF V) (f : Nat) : MF V :=
  if f ∉ m.unfinished then m
  else
    let u := m.unfinished.filter (· ≠ f)
    let m := { m with unfinished := u }
    if u ≠ [] then m
    else
      let (rl, e) := gatherResults m.done m.children ([], none)
      match m.result with
      | some _ => m
      | none =>
        match e with
        | some x => { m with result := some (.error x), sets := m.sets + 1 }
        | none => { m with result := some (.ok rl), sets := m.sets + 1 }

/-- Set of children, in the order in which `for f in children: if f not in listening` visits them — futures.py:115-119. -/
def dedup : List Nat → List Nat
  | [] => []
  | x :: xs => x :: (dedup xs).filter (· ≠ x)

/-- `future_add_done_callback(f, callback)` at construction time: runs at once if `f` is done — futures.py:67-81. -/
def MF.listen (m : MF V) (f : Nat) : MF V :=
  if (m.done f).isSome then m.callback f else m

/-- `multi_future(children)` when the children's current outcomes are `done` — futures.py:84-120. -/
def multiFuture (children : List Nat) (done : Nat → Option (Except Exc V)) : MF V :=
  let m : MF V := { children := children, done := done, unfinished := dedup children,
                    result := none, sets := 0 }
  let m := if children = [] then { m with result := some (.ok []), sets := 1 } else m
  (dedup children).foldl MF.listen m

/-- A child future completes (once: a done future ignores this) and its done-callbacks run. — client/futures.py:84-119 -/
def MF.complete (m : MF V) (f : Nat) (r : Except Exc V) : MF V :=
  if (m.done f).isSome then m
  else
    let m := { m with done := fun g => if g = f then some r else m.done g }
    if f ∈ m.children then m.callback f else m

/-! ## Map results -/

/-- What a task of an `AsyncMapResult` returned (map.py:68-74 distinguishes list/tuple/other). -/
inductive Chunk (V : Type u) where
  | list (l : List V)
  | tuple (l : List V)
  | scalar (v : V)
  deriving DecidableEq, Repr

/-- Items produced by iterating a Python object; a scalar is not iterable (TypeError). — `chain.from_iterable` of client/map.py:62-76 -/
def Chunk.iter? : Chunk V → Option (List (Chunk V))
  | .list l => some (l.map .scalar)
  | .tuple l => some (l.map .scalar)
  | .scalar _ => none

/-- `list(chain.from_iterable(parts))` — client/map.py:62-76 -/
def chain (parts : List (Chunk V)) : Except Exc (List (Chunk V)) :=
  match parts.mapM Chunk.iter? with
  | some ls => .ok ls.flatten
  | none => .error .typeError

/-- `len(part) > i` and `part[i]` of flatten_list; scalars have no `len` (TypeError). — client/map.py:107-112 -/
def rrChain (n : Nat) (parts : List (Chunk V)) : Except Exc (List (Chunk V)) :=
  match parts.mapM Chunk.iter? with
  | some ls => .ok ((List.range n).flatMap (IPP.Map.rrRow ls))
  | none => if n = 0 then .ok [] else .error .typeError

/-- `mapObject.joinPartitions(res)` on heterogeneous chunks — map.py:62-74, 87-111: the first decides. -/
def joinChunks (d : Dist) : List (Chunk V) → Except Exc (List (Chunk V))
  | [] => .error (.other "IndexError")
  | p0 :: ps =>
    match p0 with
    | .scalar _ => .ok (p0 :: ps)
    | .list l => match d with
      | .b => chain (p0 :: ps)
      | .r => rrChain l.length (p0 :: ps)
    | .tuple l => match d with
      | .b => chain (p0 :: ps)
      | .r => rrChain l.length (p0 :: ps)

/-- A yielded or returned item: an item of a chunk or an exception object. — client/asyncresult.py:1088-1151 -/
abbrev Item (V : Type u) := Res (Chunk V)

/-- The `flattened` loop of `_reconstruct_result` under return_exceptions — asyncresult.py:1094-1101. -/
def flattenExc : List (Res (Chunk V)) → Except Exc (List (Item V))
  | [] => .ok []
  | .exc e :: rs => (flattenExc rs).map (fun t => .exc e :: t)
  | .val c :: rs =>
    match c.iter? with
    | none => .error .typeError
    | some l => (flattenExc rs).map (fun t => l.map .val ++ t)

/-- `isinstance(r, Exception)` — client/asyncresult.py:1088-1103 -/
def isExc : Res V → Bool
  | .exc _ => true
  | .val _ => false

/-- The values of an exception-free list of results. — part of the specification -/
def values : List (Res V) → List V
  | [] => []
  | .val v :: rs => v :: values rs
  | .exc _ :: rs => values rs

/-- `joinPartitions(res)` when `res` may contain exception objects: an exception object is neither array, list nor tuple;
as a first element it makes `joinPartitions` return the parts, later it breaks the chain (TypeError). — client/asyncresult.py:1088-1103, client/map.py:62-112 -/
def joinRes (d : Dist) (res : List (Res (Chunk V))) : Except Exc (List (Item V)) :=
  if res.any isExc then
    match res with
    | .exc _ :: _ => .ok res
    | .val (.scalar _) :: _ => .ok res
    | .val (.list []) :: _ => if d = .r then .ok [] else .error .typeError
    | .val (.tuple []) :: _ => if d = .r then .ok [] else .error .typeError
    | _ => .error .typeError
  else (joinChunks d (values res)).map (fun l => l.map .val)

/-- `AsyncMapResult._reconstruct_result` — asyncresult.py:1088-1102. -/
def reconstruct (d : Dist) (returnExc : Bool) (res : List (Res (Chunk V))) : Except Exc (List (Item V)) :=
  if returnExc && res.any isExc then flattenExc res else joinRes d res

/-- `AsyncResult._collect_exceptions` — asyncresult.py:538-546. -/
def collectFor (returnExc : Bool) (rs : List (Res V)) : Except Exc (List (Res V)) :=
  if returnExc then .ok rs else collectExceptions rs

/-- State of an `AsyncMapResult` once every child is done — `_resolve_result`, asyncresult.py:513-536.
(`_single_result` is False for map results.)  `some r` means the result is resolved with `r`.  An exception raised by
`_reconstruct_result` while evaluating the argument of `set_result(...)` (line 536, outside the `try`) escapes the callback
and is only logged by the future machinery: then the AsyncResult is never resolved, modelled as `none`. -/
def resolveMap (d : Dist) (returnExc : Bool) (res : List (Res (Chunk V))) :
    Option (Except Exc (List (Item V))) :=
  match collectFor returnExc res with
  | .error e => some (.error e)
  | .ok results =>
    match reconstruct d returnExc results with
    | .ok l => some (.ok l)
    | .error _ => none

/-- What an iteration did: the items yielded, then possibly an exception. — `AsyncMapResult.__iter__` — client/asyncresult.py:1105-1151 -/
structure Iter (V : Type u) where
  yielded : List V
  raised : Option Exc
  deriving DecidableEq

/-- `_yield_child_results(child)` — asyncresult.py:1109-1118. -/
def yieldChild (returnExc : Bool) (r : Res (Chunk V)) : Iter (Item V) :=
  let rlist : List (Item V) := match r with
    | .val (.list l) => l.map (fun v => .val (.scalar v))
    | r => [r]
  match collectFor returnExc rlist with
  | .error e => ⟨[], some e⟩
  | .ok rl => ⟨rl, none⟩

/-- Yield from children one after the other, stopping at the first exception. — client/asyncresult.py:1109-1151 -/
def yieldAll (returnExc : Bool) : List (Res (Chunk V)) → Iter (Item V)
  | [] => ⟨[], none⟩
  | r :: rs =>
    let i := yieldChild returnExc r
    match i.raised with
    | some e => ⟨i.yielded, some e⟩
    | none => let j := yieldAll returnExc rs; ⟨i.yielded ++ j.yielded, j.raised⟩

/-- Iterating with every child already done: `yield from self.get(0)`; if the result was never resolved, `get(0)` raises
TimeoutError and the children are visited one by one. — client/asyncresult.py:1105-1134 -/
def iterReady (d : Dist) (returnExc : Bool) (res : List (Res (Chunk V))) : Iter (Item V) :=
  match resolveMap d returnExc res with
  | some (.ok l) => ⟨l, none⟩
  | some (.error e) => ⟨[], some e⟩
  | none => yieldAll returnExc res

/-- `_ordered_iter` — asyncresult.py:1121-1133; `res` are the children's eventual results in submission order,
`ready` says whether all were complete when the iteration started. -/
def orderedIter (d : Dist) (returnExc ready : Bool) (res : List (Res (Chunk V))) : Iter (Item V) :=
  if ready then iterReady d returnExc res else yieldAll returnExc res

/-- `_unordered_iter` — asyncresult.py:1136-1150: if not ready, children are visited in the order `order` in which
`concurrent.futures.wait` reports them (a permutation of the children). -/
def unorderedIter (d : Dist) (returnExc ready : Bool) (res : List (Res (Chunk V))) (order : List (Res (Chunk V))) :
    Iter (Item V) :=
  if ready then iterReady d returnExc res else yieldAll returnExc order

/-! ## Progress -/

/-- `len(ar)` / `_count_chunks(*msg_ids)` — asyncresult.py:745-752 (missing entries count 1). -/
def countChunks (chunk : Nat → Option Nat) (ids : List Nat) : Nat := (ids.map (fun i => (chunk i).getD 1)).sum

/-- `progress` — asyncresult.py:791-800: `len(self)` minus the chunks of the ids still outstanding
(`set(msg_ids) ∩ outstanding`). -/
def progress (chunk : Nat → Option Nat) (ids : List Nat) (outstanding : Nat → Bool) : Int :=
  (countChunks chunk ids : Int) - (countChunks chunk ((dedup ids).filter outstanding) : Int)

/-- `get_dict` — asyncresult.py:567-588: pairs each result with the id of the engine it ran on (`zip`), ValueError if an engine
appears twice. -/
def getDict : List (Nat × V) → List (Nat × V) → Except PyErr (List (Nat × V))
  | [], acc => .ok acc
  | (e, r) :: rest, acc =>
    if e ∈ acc.map Prod.fst then .error .valueError else getDict rest (acc ++ [(e, r)])

end IPP.Async
