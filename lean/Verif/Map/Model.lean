/-!
# Model of `client/map.py` and of `ParallelFunction.__call__` (`client/remotefunction.py`)

Python sequences are `List α`; numpy arrays (the `is_array` branches of `concatenate`/`joinPartitions`)
are not modelled.  `α` stands for arbitrary Python objects.
-/
namespace IPP.Map

/-- The Python exceptions these functions can raise. — client/map.py:29-112, client/remotefunction.py:151-300 -/
inductive PyErr where
  | valueError
  | indexError
  | typeError
  deriving DecidableEq, Repr

/-- Python `seq[low:high]` for `0 ≤ low`, `0 ≤ high` (indices past the end are clipped).
Models the slice at client/map.py:54 (and the `islice` fallback, 55-58). -/
def slice (seq : List α) (low high : Nat) : List α := (seq.take high).drop low

/-- Python `seq[p:n:q]` for `0 ≤ p`, `1 ≤ q`: the elements at indices `p, p+q, p+2q, …` below `n`
(and below `len(seq)`).  Models the slice at client/map.py:85. -/
def stride (seq : List α) (p n q : Nat) : List α :=
  (List.range ((n - p + (q - 1)) / q)).filterMap (fun i => seq[p + i * q]?)

/-- `Map.getPartition(seq, p, q, n)` — client/map.py:32-60.  `p` and `q` are arbitrary Python ints. -/
def blockPartition (seq : List α) (p q : Int) (n : Nat) : Except PyErr (List α) :=
  if p < 0 ∨ p ≥ q then
    .error .valueError
  else
    let p := p.toNat
    let q := q.toNat
    let remainder := n % q
    let basesize := n / q
    if p < remainder then
      let low := p * (basesize + 1)
      let high := low + basesize + 1
      .ok (slice seq low high)
    else
      let low := p * basesize + remainder
      let high := low + basesize
      .ok (slice seq low high)

/-- `RoundRobinMap.getPartition(seq, p, q, n)` — client/map.py:83-85.
Only called with `0 ≤ p < q` (remotefunction.py:277, view.py:816); a zero step raises ValueError. -/
def rrPartition (seq : List α) (p q : Nat) (n : Nat) : Except PyErr (List α) :=
  if q = 0 then .error .valueError else .ok (stride seq p n q)

/-- `Map.concatenate` on lists — client/map.py:65-74.  The first partition decides the branch;
an empty list of partitions raises IndexError (`listOfPartitions[0]`). -/
def blockJoin (parts : List (List α)) : Except PyErr (List α) :=
  match parts with
  | [] => .error .indexError
  | _ => .ok parts.flatten

/-- One row of `flatten_list`: `[part[i] for part in listOfPartitions if len(part) > i]` — client/map.py:110. -/
def rrRow (parts : List (List α)) (i : Nat) : List α :=
  parts.filterMap (fun part => part[i]?)

/-- `RoundRobinMap.joinPartitions`/`flatten_list` on lists — client/map.py:87-94, 107-111. -/
def rrJoin (parts : List (List α)) : Except PyErr (List α) :=
  match parts with
  | [] => .error .indexError
  | p0 :: _ => .ok ((List.range p0.length).flatMap (rrRow parts))

/-- The `dist` key: `dists = {'b': Map, 'r': RoundRobinMap}` — client/map.py:123. -/
inductive Dist where
  | b
  | r
  deriving DecidableEq, Repr

/-- `mapObject.getPartition(seq, index, nparts, maxlen)` dispatched on the class — remotefunction.py:277. -/
def getPartition (d : Dist) (seq : List α) (p q n : Nat) : Except PyErr (List α) :=
  match d with
  | .b => blockPartition seq p q n
  | .r => rrPartition seq p q n

/-- `mapObject.joinPartitions(res)` dispatched on the class — asyncresult.py:1102. -/
def joinPartitions (d : Dist) (parts : List (List α)) : Except PyErr (List α) :=
  match d with
  | .b => blockJoin parts
  | .r => rrJoin parts

/-- How the view runs the parts: load-balanced with an optional `chunksize` (`none` or `some 0` are both falsy),
or multiplexed over `k` explicit engines — remotefunction.py:245-265. -/
inductive Mode where
  | balanced (chunksize : Option Nat)
  | direct (targets : Nat)
  deriving DecidableEq, Repr

/-- `nparts` — remotefunction.py:246-265. -/
def nparts (m : Mode) (maxlen : Nat) : Nat :=
  match m with
  | .balanced none => maxlen
  | .balanced (some 0) => maxlen
  | .balanced (some (c + 1)) => maxlen / (c + 1) + (if maxlen % (c + 1) > 0 then 1 else 0)
  | .direct k => k

/-- `maxlen` after the loop at remotefunction.py:218-234 (at least one sequence given). -/
def maxLen (seqs : List (List α)) : Nat := (seqs.map List.length).foldl max 0

/-- `minlen` after the loop at remotefunction.py:218-234 (at least one sequence given). -/
def minLen : List (List α) → Nat
  | [] => 0
  | s :: ss => (ss.map List.length).foldl min s.length

/-- Python's built-in `list(map(f, *sequences))` (`_map`, remotefunction.py:144-145): stops with the shortest
sequence.  `f` takes the argument tuple as a list. -/
def pyMap (f : List α → β) (seqs : List (List α)) : List β :=
  (List.range (minLen seqs)).map (fun i => f (seqs.filterMap (fun s => s[i]?)))

/-- The argument partitions for one index: the inner loop at remotefunction.py:275-278. -/
def partArgs (d : Dist) (seqs : List (List α)) (index q n : Nat) : Except PyErr (List (List α)) :=
  seqs.mapM (fun seq => getPartition d seq index q n)

/-- The loop at remotefunction.py:274-301: one task per index whose arguments are not all empty.
Each task is represented by its argument partitions. -/
def buildTasks (d : Dist) (seqs : List (List α)) (q n : Nat) : Except PyErr (List (List (List α))) := do
  let all ← (List.range q).mapM (fun index => partArgs d seqs index q n)
  return all.filter (fun args => (args.map List.length).sum != 0)

/-- What `ParallelFunction.__call__` does before returning: either the empty list without any task,
or a list of submitted tasks. — client/remotefunction.py:151-300 -/
inductive Submitted (α : Type u) where
  | nothing
  | tasks (ts : List (List (List α)))

/-- `ParallelFunction.__call__` up to the construction of the `AsyncMapResult` — remotefunction.py:209-311.
`mapping` is `__ipp_mapping`.  With no sequence, or no target, `AsyncMapResult([])` raises IndexError
(asyncresult.py:88 `children[0]`). -/
def submit (d : Dist) (m : Mode) (mapping : Bool) (seqs : List (List α)) : Except PyErr (Submitted α) :=
  if seqs = [] then .error .indexError
  else
    let n := maxLen seqs
    if n = 0 then .ok .nothing
    else if !mapping && minLen seqs != n then .error .valueError
    else
      match buildTasks d seqs (nparts m n) n with
      | .error e => .error e
      | .ok [] => .error .indexError
      | .ok ts => .ok (.tasks ts)

/-- `chunk_size = min(len(arg) for arg in args)` for a mapping task — remotefunction.py:283-284. -/
def chunkSize (args : List (List α)) : Nat := minLen args

/-- `view.map(f, *seqs)` with all remote calls successful: submit, run `_map` on each part remotely,
`joinPartitions` the replies — remotefunction.py:209-329, asyncresult.py:1088-1102. -/
def parMap (d : Dist) (m : Mode) (f : List α → β) (seqs : List (List α)) : Except PyErr (List β) := do
  match ← submit d m true seqs with
  | .nothing => .ok []
  | .tasks ts => joinPartitions d (ts.map (pyMap f))

/-- `len(AsyncMapResult)` — asyncresult.py:745-752: the sum of the chunk sizes of its tasks. -/
def mapResultLen (ts : List (List (List α))) : Nat := (ts.map chunkSize).sum

/-- `DirectView.scatter` without `flatten` — view.py:800-835: engine `index` receives partition `index`;
the list is indexed by position in `targets`. -/
def scatter (d : Dist) (seq : List α) (engines : Nat) : Except PyErr (List (List α)) :=
  (List.range engines).mapM (fun index => getPartition d seq index engines seq.length)

/-- `DirectView.gather` — view.py:839-864: pull from every engine in order, then `joinPartitions`. -/
def gather (d : Dist) (values : List (List α)) : Except PyErr (List α) := joinPartitions d values

end IPP.Map
