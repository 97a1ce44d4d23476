import Verif.Serialize.Model
/-! # serialize_object, deserialize_object and apply messages — serialize.py -/
namespace IPP.Ser

/-- a part of a message: a pickled object, a pickled info dict of an apply message, or a buffer — serialize/serialize.py:77-188 -/
inductive Part where
  | pkl (o : Obj)
  | info (nargs nargBufs : Nat) (keys : List Key)
  | buf (b : Buf)

/-- no memoryview among the buffers — what pickle refuses; serialize/serialize.py:52-75 -/
def noViews (b : List (Option Buf)) : Bool := b.all (fun x => match x with
  | some y => !y.view
  | none => true)

mutual
/-- `pickle.dumps` succeeds; `byName`: functions that can be imported by their name — called by serialize/serialize.py:77-115 -/
def picklable (byName : Nat → Bool) : Obj → Bool
  | .atom _ | .bytes _ | .arr .. | .ref _ => true
  | .view _ | .cell _ => false
  | .func code _ _ _ _ => byName code
  | .partial_ f args kw => picklable byName f && picklableList byName args && picklableKV byName kw
  | .seq _ xs => picklableList byName xs
  | .dict kv => picklableKV byName kv
  | .dep f df => picklable byName f && picklable byName df
  | .cBytes b | .cView b | .cArr _ _ _ b => noViews b
  | .cCell c => picklable byName c
  | .cFunc _ _ ds kd cl => picklableList byName ds && picklableKV byName kd && picklableList byName cl
  | .cPartial f args kw b _ _ => picklable byName f && picklableList byName args && picklableKV byName kw && noViews b
  | .cDep f df => picklable byName f && picklable byName df
/-- called by serialize/serialize.py:77-115 -/
def picklableList (byName : Nat → Bool) : List Obj → Bool
  | [] => true
  | x :: r => picklable byName x && picklableList byName r
/-- called by serialize/serialize.py:77-115 -/
def picklableKV (byName : Nat → Bool) : List (Key × Obj) → Bool
  | [] => true
  | (_, x) :: r => picklable byName x && picklableKV byName r
end

/-- the sender's world: sizes of pickled arrays and the functions that can be imported — serialize/serialize.py:77-115 -/
structure World where
  pickSize : Nat → Nat → List Nat → Nat
  byName : Nat → Bool

/-- `_nbytes` — serialize.py:45-51 -/
def nbytes (W : World) : Data → Nat
  | .raw b => b.length
  | .pick d s b => W.pickSize d s b

/-- the loop of `_extract_buffers` — serialize.py:58-68: what stays in the object and what is sent separately -/
def split (W : World) (thr : Nat) : List (Option Buf) → List (Option Buf) × List Buf
  | [] => ([], [])
  | none :: r => (none :: (split W thr r).1, (split W thr r).2)
  | some b :: r =>
    if thr < nbytes W b.data then (none :: (split W thr r).1, b :: (split W thr r).2)
    else (some { b with view := false } :: (split W thr r).1, (split W thr r).2)

/-- `_extract_buffers` — serialize.py:54-69 -/
def extract (W : World) (thr : Nat) (o : Obj) : Option (Obj × List Buf) :=
  if isCanned o then
    match buffers o with
    | some b => some (setBuffers (split W thr b).1 o, (split W thr b).2)
    | none => none
  else some (o, [])

/-- serialize/serialize.py:77-115 -/
def extractList (W : World) (thr : Nat) : List Obj → Option (List Obj × List Buf)
  | [] => some ([], [])
  | x :: r => do
    let (x', b) ← extract W thr x
    let (r', bs) ← extractList W thr r
    some (x' :: r', b ++ bs)

/-- serialize/serialize.py:77-115 -/
def extractKV (W : World) (thr : Nat) : List (Key × Obj) → Option (List (Key × Obj) × List Buf)
  | [] => some ([], [])
  | (k, x) :: r => do
    let (x', b) ← extract W thr x
    let (r', bs) ← extractKV W thr r
    some ((k, x') :: r', b ++ bs)

/-- `pickle.dumps(cobj)` in front of the buffers — serialize.py:113-114 -/
def dump (W : World) (o : Obj) (bs : List Buf) : Option (List Part) :=
  if picklable W.byName o then some (.pkl o :: bs.map .buf) else none

/-- `serialize_object` — serialize.py:79-114 -/
def serialize (W : World) (thr items : Nat) (o : Obj) : Option (List Part) :=
  let plain : Option (List Part) := do
    let c ← can o
    let (c', bs) ← extract W thr c
    dump W c' bs
  match o with
  | .seq k xs =>
    if xs.length < items then do
      let cs ← canList xs
      let (cs', bs) ← extractList W thr cs
      dump W (.seq k cs') bs
    else plain
  | .dict kv =>
    if kv.length < items then
      if comparable kv then do
        let cs ← canKV (sortKV kv)
        let (cs', bs) ← extractKV W thr cs
        dump W (.dict cs') bs
      else none
    else plain
  | _ => plain

/-- jupyter_client.session.MAX_ITEMS — serialize/serialize.py:15 -/
def maxItems : Nat := 64
/-- jupyter_client.session.MAX_BYTES — serialize/serialize.py:15 -/
def maxBytes : Nat := 1024

/-- the loop of `_restore_buffers` — serialize.py:74-76 -/
def refill : List (Option Buf) → List Part → Option (List (Option Buf) × List Part)
  | [], p => some ([], p)
  | some b :: r, p => do
    let (r', p') ← refill r p
    some (some b :: r', p')
  | none :: r, .buf b :: p => do
    let (r', p') ← refill r p
    some (some b :: r', p')
  | none :: _, _ => none

/-- `_restore_buffers` — serialize.py:72-76 -/
def restore (o : Obj) (p : List Part) : Option (Obj × List Part) :=
  if isCanned o then
    match buffers o with
    | some b => do
      let (b', p') ← refill b p
      some (setBuffers b' o, p')
    | none => none
  else some (o, p)

/-- serialize/serialize.py:117-147 -/
def restoreList : List Obj → List Part → Option (List Obj × List Part)
  | [], p => some ([], p)
  | x :: r, p => do
    let (x', p') ← restore x p
    let (r', p'') ← restoreList r p'
    some (x' :: r', p'')

/-- restoring and uncanning a dict's values in the order of the keys — serialize.py:140-145 -/
def restoreKV (E : Env) (g : Nat → Option Obj) : List (Key × Obj) → List Part → Option (List (Key × Obj) × List Part)
  | [], p => some ([], p)
  | (k, x) :: r, p => do
    let (x', p') ← restore x p
    let y ← uncan E g x'
    let (r', p'') ← restoreKV E g r p'
    some ((k, y) :: r', p'')

/-- the receiver's world: `E` for uncanning, and the order in which a set of canned objects is iterated after unpickling (their hashes are their addresses) — serialize/serialize.py:117-147 -/
structure Recv where
  E : Env
  setOrder : List Obj → List Obj

/-- `deserialize_object` — serialize.py:117-151 -/
def deserialize (R : Recv) : List Part → Option (Obj × List Part)
  | .pkl o :: p =>
    let plain : Option (Obj × List Part) := do
      let (c, p') ← restore o p
      let y ← uncan R.E R.E.ns c
      some (y, p')
    match o with
    | .seq k cs =>
      if cs.length < maxItems then do
        let (cs', p') ← restoreList (if k = .set then R.setOrder cs else cs) p
        let ys ← uncanList R.E R.E.ns cs'
        some (.seq k ys, p')
      else plain
    | .dict kv =>
      if kv.length < maxItems then
        if comparable kv then do
          let (kv', p') ← restoreKV R.E R.E.ns (sortKV kv) p
          some (.dict kv', p')
        else none
      else plain
    | _ => plain
  | _ => none

/-- a value to be sent: as it is, or already serialized with the default thresholds (`PrePickled`) — serialize.py:34-43, 99-100 -/
inductive Sendable where
  | plain (o : Obj)
  | prePickled (o : Obj)

/-- serialize/serialize.py:149-188 -/
def Sendable.obj : Sendable → Obj
  | .plain o | .prePickled o => o

/-- serialize/serialize.py:77-115, 32-41 -/
def serializeS (W : World) (thr items : Nat) : Sendable → Option (List Part)
  | .plain o => serialize W thr items o
  | .prePickled o => serialize W maxBytes maxItems o

/-- serialize/serialize.py:149-188 -/
def serializeAll (W : World) (thr items : Nat) : List Sendable → Option (List Part)
  | [] => some []
  | x :: r => do
    let a ← serializeS W thr items x
    let b ← serializeAll W thr items r
    some (a ++ b)

/-- `pack_apply_message` — serialize.py:154-193 -/
def pack (W : World) (thr items : Nat) (f : Sendable) (args : List Sendable) (kw : List (Key × Sendable)) : Option (List Part) := do
  let ab ← serializeAll W thr items args
  let kb ← serializeAll W thr items ((sortKV kw).map (·.2))
  let fb ← serializeS W maxBytes maxItems f
  some (fb ++ [.info args.length ab.length ((sortKV kw).map (·.1))] ++ ab ++ kb)

/-- serialize/serialize.py:190-213 -/
def deserializeN (R : Recv) : Nat → List Part → Option (List Obj × List Part)
  | 0, p => some ([], p)
  | n + 1, p => do
    let (x, p') ← deserialize R p
    let (r, p'') ← deserializeN R n p'
    some (x :: r, p'')

/-- `unpack_apply_message` — serialize.py:196-221 -/
def unpack (R : Recv) (p : List Part) : Option (Obj × List Obj × List (Key × Obj)) :=
  if p.length < 2 then none
  else do
    let (f, q) ← deserialize R p
    match q with
    | .info nargs nbufs keys :: q => do
      let (args, rest) ← deserializeN R nargs (q.take nbufs)
      if rest.isEmpty then
        let (kws, rest') ← deserializeN R keys.length (q.drop nbufs)
        if rest'.isEmpty then some (f, args, keys.zip kws) else none
      else none
    | _ => none

/-- the network: buffers arrive with the same contents, as `bytes` or as memoryviews of the received frames — zmq between serialize/serialize.py:149-188 and 190-213 -/
def arrive (v : Buf → Bool) : Part → Part
  | .buf b => .buf { b with view := v b }
  | p => p

end IPP.Ser
