/-!
# Model of `controller/broadcast_scheduler.py`: the spanning tree of broadcast schedulers

A scheduler in the tree is named by its path from the root, last step first (controller/app.py:1014-1072 names it `'0' + bits`).  Every scheduler
runs in its own process (the default, app.py:999-1007), so the class-level dicts `accumulated_replies`/`accumulated_targets` are one per scheduler;
the single-process mode (`use_threads`), where all schedulers would share these two dicts, is not modelled.

Simplifications: one broadcast is followed (the dicts are keyed by its original message id); the way down is atomic (each scheduler fills its
table before it forwards anything, so no reply can come earlier); message frames are numbers; of the content of a reply only the
status is kept.  zmq delivers each message at most once, in order per connection, and a ROUTER drops messages to unknown identities.
-/
namespace IPP.Broadcast

/-- identities of engines (bytes in broadcast_scheduler.py) as numbers -/
abbrev Uuid := Nat
/-- frames of a reply (bytes in broadcast_scheduler.py:88-118) as numbers -/
abbrev Buf := Nat
/-- path in the tree, last step first — `self.identity` of a scheduler — broadcast_scheduler.py:47-86 -/
abbrev Path := List Nat
/-- key of `accumulated_replies[msg_id]`: an engine identity (leaf) or 0/1 for the sub-scheduler (inner node) — broadcast_scheduler.py:88-118 -/
abbrev Key := Nat

/-- `(identity, id)` of a target engine — client/view.py:990 -/
structure Target where
  uuid : Uuid
  id : Nat
  deriving DecidableEq, Repr

/-- `format(x, f"0{w}b")` as a list of digits, for `x < 2 ** w` — broadcast_scheduler.py:48, 56. -/
def format (x w : Nat) : List Nat := (List.range w).map (fun i => x / 2 ^ (w - 1 - i) % 2)

/-- `int(path[self.depth + 1])` — broadcast_scheduler.py:56-57. -/
def nextIdx (maxDepth depth : Nat) (t : Target) : Nat := (format (t.id % 2 ^ maxDepth) (maxDepth + 1)).getD (depth + 1) 0

/-- `targets_by_scheduler[i]` — broadcast_scheduler.py:52-58. -/
def targetsFor (maxDepth depth : Nat) (targets : List Target) (i : Nat) : List Target :=
  targets.filter (fun t => nextIdx maxDepth depth t = i)

/-- `int(identity, 2)`: the index of the leaf's url — controller/app.py:1049-1057. -/
def leafIdx : Path → Nat
  | [] => 0
  | b :: v => 2 * leafIdx v + b

/-- The url an engine connects to: `self.id % len(broadcast_urls)` — engine/app.py:635-640; there are `2 ** depth` of them (app.py:332-334). -/
def engineLeaf (maxDepth : Nat) (id : Nat) : Nat := id % 2 ^ maxDepth

/-- The messages sent to engines by the leaves: (leaf, identity) — send_to_targets 33-43, send_to_sub_schedulers 45-86. `n` is the number of levels
below. — broadcast_scheduler.py:34-86 -/
def deliveries (maxDepth : Nat) : Nat → Path → List Target → List (Nat × Uuid)
  | 0, v, targets => targets.map (fun t => (leafIdx v, t.uuid))
  | n + 1, v, targets =>
    deliveries maxDepth n (0 :: v) (targetsFor maxDepth v.length targets 0) ++
    deliveries maxDepth n (1 :: v) (targetsFor maxDepth v.length targets 1)

/-- The targets that a scheduler receives in its submission message. — broadcast_scheduler.py:47-86, 120-148 -/
def targetsAt (maxDepth : Nat) (targets : List Target) : Path → List Target
  | [] => targets
  | b :: v => targetsFor maxDepth v.length (targetsAt maxDepth targets v) b

/-- A (coalesced) reply going up: frames, `broadcast_targets`, and whether the content's status is 'ok'. — broadcast_scheduler.py:88-118 -/
structure Reply where
  bufs : List Buf
  targets : List Target
  ok : Bool
  deriving DecidableEq, Repr

/-- The tree during one coalescing broadcast. — `accumulated_replies`, `accumulated_targets` — broadcast_scheduler.py:14-24 -/
structure State where
  /-- `accumulated_replies[original_msg_id]` of each scheduler; `none` when popped. Order = dict order. -/
  acc : Path → Option (List (Key × Option (List Buf)))
  /-- replies sent by a scheduler to its parent (root: to the client), not yet handled -/
  up : Path → List Reply

/-- `{target: None for target in targets}` resp. `{scheduler_id: None}` without the ones that get no targets — broadcast_scheduler.py:34-38, 60-75. -/
def initialAcc (maxDepth : Nat) (targets : List Target) (v : Path) : List (Key × Option (List Buf)) :=
  if v.length = maxDepth then (targetsAt maxDepth targets v).map (fun t => (t.uuid, none))
  else ([0, 1].filter (fun b => targetsAt maxDepth targets (b :: v) ≠ [])).map (fun b => (b, none))

/-- After the submission went down the tree. — broadcast_scheduler.py:34-86, 120-148 -/
def submitted (maxDepth : Nat) (targets : List Target) : State where
  acc := fun v => if v.length ≤ maxDepth then some (initialAcc maxDepth targets v) else none
  up := fun _ => []

/-- dict assignment — broadcast_scheduler.py:88-118 -/
def setKey (tbl : List (Key × Option (List Buf))) (k : Key) (b : List Buf) : List (Key × Option (List Buf)) :=
  if k ∈ tbl.map Prod.fst then tbl.map (fun kv => if kv.1 = k then (k, some b) else kv) else tbl ++ [(k, some b)]

/-- The frames of the coalesced reply, in dict order — broadcast_scheduler.py:111-114. -/
def joinBufs (tbl : List (Key × Option (List Buf))) : List Buf := tbl.flatMap (fun kv => kv.2.getD [])

/-- `broadcast_targets`: a leaf lists its targets, an inner node the targets of each sub-scheduler, in dict order —
broadcast_scheduler.py:104-116. -/
def joinTargets (maxDepth : Nat) (targets : List Target) (v : Path) (tbl : List (Key × Option (List Buf))) : List Target :=
  if v.length = maxDepth then targetsAt maxDepth targets v
  else tbl.flatMap (fun kv => targetsAt maxDepth targets (kv.1 :: v))

/-- `coalescing_reply` — broadcast_scheduler.py:88-121. The status of the outgoing message is that of the message that happened to
complete the table (`new_msg = msg.copy()`). -/
def coalesce (maxDepth : Nat) (targets : List Target) (s : State) (v : Path) (k : Key) (msg : Reply) : State :=
  match s.acc v with
  | none => s -- KeyError, logged
  | some tbl =>
    let tbl := setKey tbl k msg.bufs
    if tbl.all (fun kv => kv.2.isSome) then
      { acc := fun w => if w = v then none else s.acc w
        up := fun w => if w = v then s.up v ++ [{ bufs := joinBufs tbl, targets := joinTargets maxDepth targets v tbl, ok := msg.ok }] else s.up w }
    else { s with acc := fun w => if w = v then some tbl else s.acc w }

/-- An engine's reply arrives at its leaf, or a scheduler handles the oldest reply of the sub-scheduler `b :: v`. — broadcast_scheduler.py:150-168 -/
inductive Ev where
  | reply (leaf : Path) (uuid : Uuid) (bufs : List Buf) (ok : Bool)
  | deliver (b : Nat) (v : Path)
  deriving DecidableEq, Repr

/-- `dispatch_result` — broadcast_scheduler.py:158-182. -/
def step (maxDepth : Nat) (targets : List Target) (s : State) : Ev → State
  | .reply v u bufs ok => coalesce maxDepth targets s v u { bufs := bufs, targets := [], ok := ok }
  | .deliver b v =>
    match s.up (b :: v) with
    | [] => s
    | msg :: rest =>
      let s := { s with up := fun w => if w = b :: v then rest else s.up w }
      coalesce maxDepth targets s v b msg

/-- The whole history of a coalescing broadcast. — the event loops of the schedulers, broadcast_scheduler.py:25-32 -/
def run (maxDepth : Nat) (targets : List Target) (evs : List Ev) : State := evs.foldl (step maxDepth targets) (submitted maxDepth targets)

end IPP.Broadcast
