/-!
# Model of engine registration in `controller/hub.py`

Simplifications: an engine's heart/identity is its uuid (the code encodes one into the other, hub.py:926); dicts are association lists in insertion order; the
queues reset by `finish_registration` belong to `Verif.Hub.Msgs`. The state file is written atomically (a crash inside `json.dump`, which would leave a truncated file, is not modelled).
-/
namespace IPP.Hub

/-- uuids of engines (strings in hub.py) as numbers -/
abbrev Uuid := Nat
/-- engine ids — hub.py:119-134 -/
abbrev Eid := Nat

/-- contents of `engines.json` — hub.py:1092-1107 -/
structure File where
  engines : List (Eid × Uuid)
  nextId : Nat
  deriving DecidableEq, Repr

/-- `engines`, `by_ident`, `incoming_registrations`, `hearts`, `_idcounter` — hub.py:142-205 -/
structure Reg where
  /-- `engines` -/
  engines : List (Eid × Uuid)
  /-- `incoming_registrations` (heart → id) -/
  incoming : List (Uuid × Eid)
  /-- `by_ident` -/
  byIdent : List (Uuid × Eid)
  /-- `hearts` -/
  hearts : List (Uuid × Eid)
  /-- `_idcounter` -/
  counter : Nat
  /-- the state file -/
  file : Option File
  deriving DecidableEq, Repr

/-- what a registration attempt was told — replies and notifications — hub.py:880-946, 948-997, 1032-1064 -/
inductive Note where
  /-- `registration_reply`, status ok, with this id; `auto`: the id was not asked for -/
  | granted (uuid : Uuid) (id : Eid) (auto : Bool)
  /-- `registration_reply`, status error -/
  | refused (uuid : Uuid)
  /-- `registration_notification` -/
  | registered (uuid : Uuid) (id : Eid)
  /-- `unregistration_notification` -/
  | unregistered (uuid : Uuid) (id : Eid)
  deriving DecidableEq, Repr

/-- hub.py:142-205 -/
def fresh (f : Option File) : Reg := { engines := [], incoming := [], byIdent := [], hearts := [], counter := 0, file := f }

/-- dict assignment — e.g. `self.engines[eid] = …` — hub.py:1032-1064 -/
def setKey {κ α : Type} [DecidableEq κ] (d : List (κ × α)) (k : κ) (v : α) : List (κ × α) :=
  if k ∈ d.map Prod.fst then d.map (fun x => if x.1 = k then (k, v) else x) else d ++ [(k, v)]

/-- dict pop — e.g. `self.engines.pop(eid)` — hub.py:948-997 -/
def delKey {κ α : Type} [DecidableEq κ] (d : List (κ × α)) (k : κ) : List (κ × α) := d.filter (fun x => x.1 ≠ k)

/-- e.g. `self.engines.get(eid)` — hub.py:880-997 -/
def getKey {κ α : Type} [DecidableEq κ] (d : List (κ × α)) (k : κ) : Option α := (d.find? (fun x => x.1 = k)).map Prod.snd

/-- `new_engine_id` — hub.py:263-287. Result: id, new counter, whether it came from the counter. -/
def newEngineId (s : Reg) (requested : Option Eid) : Eid × Nat × Bool :=
  match requested with
  | none => (s.counter, s.counter + 1, true)
  | some r =>
    if r ∈ s.engines.map Prod.fst then (s.counter, s.counter + 1, true)
    else if r ∈ s.incoming.map Prod.snd then (s.counter, s.counter + 1, true)
    else (r, max (r + 1) s.counter, false)

/-- `_save_engine_state` — hub.py:1092-1107. -/
def save (s : Reg) : Reg := { s with file := some { engines := s.engines, nextId := s.counter } }

/-- `register_engine` — hub.py:880-946. -/
def register (s : Reg) (uuid : Uuid) (requested : Option Eid) : Reg × List Note :=
  let n := newEngineId s requested
  let s := { s with counter := n.2.1 }
  if uuid ∈ s.byIdent.map Prod.fst then (s, [.refused uuid])
  else if uuid ∈ s.incoming.map Prod.fst then (s, [.refused uuid])
  else ({ s with incoming := setKey s.incoming uuid n.1 }, [.granted uuid n.1 n.2.2])

/-- `finish_registration` — hub.py:1032-1064. -/
def finish (s : Reg) (uuid : Uuid) : Reg × List Note :=
  match getKey s.incoming uuid with
  | none => (s, [])
  | some eid =>
    (save { s with incoming := delKey s.incoming uuid
                   engines := setKey s.engines eid uuid
                   byIdent := setKey s.byIdent uuid eid
                   hearts := setKey s.hearts uuid eid }, [.registered uuid eid])

/-- `unregister_engine` — hub.py:948-997. -/
def unregister (s : Reg) (eid : Eid) : Reg × List Note :=
  match getKey s.engines eid with
  | none =>
    match s.incoming.find? (fun x => x.2 = eid) with
    | none => (s, [])
    | some (u, _) => ({ s with incoming := delKey s.incoming u }, [])
  | some uuid =>
    (save { s with hearts := delKey s.hearts uuid
                   byIdent := delKey s.byIdent uuid
                   engines := delKey s.engines eid }, [.unregistered uuid eid])

/-- body of the loop of `_load_engine_state` — hub.py:1119-1127 -/
def loadOne (s : Reg) (e : Eid × Uuid) : Reg := (finish { s with incoming := setKey s.incoming e.2 e.1 } e.2).1

/-- A controller starts with `restore_engines`, from this state file, and loads it completely — hub.py:1109-1133. -/
def load (f : Option File) : Reg :=
  match f with
  | none => fresh none
  | some f => { f.engines.foldl loadOne (fresh (some f)) with counter := f.nextId }

inductive Ev where
  | register (uuid : Uuid) (requested : Option Eid)
  /-- `handle_new_heart` — hub.py:409-415 -/
  | newHeart (uuid : Uuid)
  /-- `handle_stopped_heart` — hub.py:417-434 -/
  | stoppedHeart (uuid : Uuid)
  /-- `unregistration_request`, `shutdown_reply` — hub.py:784-811 -/
  | unregister (eid : Eid)
  /-- `_purge_stalled_registration` fires — hub.py:1066-1076 -/
  | stall (uuid : Uuid)
  /-- the controller crashes and a new one is started -/
  | restart
  /-- the controller crashes; its successor crashes as well, after loading `k` engines; a third one is started -/
  | restartCrash (k : Nat)
  deriving DecidableEq, Repr

/-- hub.py:416-441, 880-1131 -/
def step (s : Reg) : Ev → Reg × List Note
  | .register u r => register s u r
  | .newHeart u => if u ∈ s.incoming.map Prod.fst then finish s u else (s, [])
  | .stoppedHeart u => match getKey s.hearts u with
    | none => (s, [])
    | some eid => unregister s eid
  | .unregister e => unregister s e
  | .stall u => ({ s with incoming := delKey s.incoming u }, [])
  | .restart => (load s.file, [])
  | .restartCrash k => match s.file with
    | none => (load none, [])
    | some f => (load ((f.engines.take k).foldl loadOne (fresh (some f))).file, [])

/-- the event loop of the hub — hub.py:321-441 -/
def runNotes (s : Reg) : List Ev → Reg × List Note
  | [] => (s, [])
  | e :: es =>
    let r := step s e
    let r' := runNotes r.1 es
    (r'.1, r.2 ++ r'.2)

/-- one controller, started without a state file — hub.py:207-261 -/
def run (evs : List Ev) : Reg × List Note := runNotes (fresh none) evs

/-- the events of a controller that does not crash — all but a restart of the controller, hub.py:1109-1131 -/
def Ev.Live : Ev → Prop
  | .restart => False
  | .restartCrash _ => False
  | _ => True

end IPP.Hub
