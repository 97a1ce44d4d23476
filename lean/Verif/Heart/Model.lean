/-!
# Model of `controller/heartmonitor.py:HeartMonitor` and of the engine's own monitor of the hub's heartbeat

Simplifications: sets of heart identities are duplicate-free lists or predicates; `lifetime` (a float, sent as a decimal string) is a number that
grows by an arbitrary amount at each beat; the stream flush at the start of a beat is the handling of pong events before the beat;
one notification message with several hearts is recorded as one observation per heart.  Logging and curve keys are not modelled.
-/
namespace IPP.Heart

/-- identities of hearts (bytes in heartmonitor.py:111-118) as numbers -/
abbrev Id := Nat

/-- What the monitor tells the hub: `new_heart` / `stopped_heart` — heartmonitor.py:188-217. -/
inductive Note where
  | new (h : Id)
  | stopped (h : Id)
  deriving DecidableEq, Repr

/-- `HeartMonitor` — heartmonitor.py:131-137. -/
structure State where
  hearts : List Id := []
  responses : List Id := []
  /-- `on_probation.get(h, 0)`; a missing key is 0, which `_check_missed` never stores -/
  onProbation : Id → Nat := fun _ => 0
  lastPing : Nat := 0
  lifetime : Nat := 0
  notes : List Note := []

/-- What happens: a heart echoes a ping, or the period ends (`dt` is the time since the last beat). — heartmonitor.py:141-148, 220-247 -/
inductive Ev where
  | pong (h : Id) (token : Nat)
  | beat (dt : Nat)
  deriving DecidableEq, Repr

/-- set.add — heartmonitor.py:193, 239 -/
def add (h : Id) (l : List Id) : List Id := if h ∈ l then l else l ++ [h]

/-- `handle_pong` — heartmonitor.py:219-246: accept an echo of the current or of the previous ping. -/
def handlePong (s : State) (h : Id) (token : Nat) : State :=
  if token = s.lifetime then { s with responses := add h s.responses }
  else if token = s.lastPing then { s with responses := add h s.responses }
  else s

/-- `_check_missed` — heartmonitor.py:175-186: failures and the new probation table. -/
def checkMissed (max : Nat) (missed : List Id) (prob : Id → Nat) (hearts : List Id) : List Id × (Id → Nat) :=
  let cur := missed.filter (fun b => b ∈ hearts)
  (cur.filter (fun h => decide (prob h + 1 > max)),
   fun h => if h ∈ cur ∧ ¬ (prob h + 1 > max) then prob h + 1 else 0)

/-- `handle_new_hearts` — heartmonitor.py:188-199. -/
def handleNew (s : State) (hs : List Id) : State :=
  { s with
    hearts := hs.foldl (fun l h => add h l) s.hearts
    notes := s.notes ++ hs.map .new }

/-- `handle_heart_failure` — heartmonitor.py:201-217. -/
def handleFailure (s : State) (hs : List Id) : State :=
  { s with
    notes := s.notes ++ hs.map .stopped
    hearts := s.hearts.filter (fun h => h ∉ hs) }

/-- `beat` — heartmonitor.py:148-173. -/
def beat (max : Nat) (s : State) (dt : Nat) : State :=
  let s := { s with
    lastPing := s.lifetime
    lifetime := s.lifetime + dt }
  let good := s.hearts.filter (fun h => h ∈ s.responses)
  let missed := s.hearts.filter (fun h => h ∉ good)
  let new := s.responses.filter (fun h => h ∉ good)
  let s := if new ≠ [] then handleNew s new else s
  let fp := checkMissed max missed s.onProbation s.hearts
  let s := if fp.1 ≠ [] then handleFailure s fp.1 else s
  { s with
    onProbation := fp.2
    responses := [] }

/-- One event. — heartmonitor.py:150-247 -/
def step (max : Nat) (s : State) : Ev → State
  | .pong h t => handlePong s h t
  | .beat dt => beat max s dt

/-- A whole history. — the event loop — heartmonitor.py:141-148 -/
def run (max : Nat) (evs : List Ev) : State := evs.foldl (step max) {}

/-! ## The engine's monitor of the hub's pings — engine/app.py:863-888 -/

/-- `_hb_last_pinged`, `_hb_last_monitored`, `_hb_missed_beats` — engine/app.py:288-290; `stopped`: `loop.stop()` was called. -/
structure Eng where
  lastPinged : Nat := 0
  lastMonitored : Nat := 0
  missed : Nat := 0
  stopped : Bool := false
  deriving DecidableEq, Repr

/-- A ping of the hub was seen (`_report_ping`, engine/app.py:571-573), or the periodic check runs; at time `t`. -/
inductive EngEv where
  | ping (t : Nat)
  | check (t : Nat)
  deriving DecidableEq, Repr

/-- `_hb_monitor` and `_report_ping`. After `loop.stop()` nothing runs any more. With `max_heartbeat_misses = 0` the callback is never
started (engine/app.py:829-843). -/
def engStep (max : Nat) (s : Eng) (ev : EngEv) : Eng :=
  if s.stopped then s else
  match ev with
  | .ping t => { s with lastPinged := t }
  | .check t =>
    if max = 0 then s else
    let missed := if s.lastMonitored > s.lastPinged then s.missed + 1 else 0
    { s with missed := missed, stopped := decide (missed ≥ max), lastMonitored := t }

/-- A whole history; `start` is the time of the first ping or 0. — the event loop of the engine — engine/app.py:863-888 -/
def engRun (max : Nat) (evs : List EngEv) : Eng := evs.foldl (engStep max) {}

end IPP.Heart
