import Verif.Hub.Reg
import Verif.Heart.Model
/-!
# Model of the life of engines (C80): engine process, hub and heart monitor together

The engine process is `engine/app.py` (`register`, `complete_registration`, `start_heartbeat`, `abort`, `_hb_monitor`'s giving up), the hub is `Verif.Hub.Reg` (registration), the heart monitor `Verif.Heart.Model`; the three are separate processes that talk through sockets, so messages between them are delayed arbitrarily: those of one engine to the hub arrive in order, and so do the notes of the heart monitor.
Simplifications: an engine is named by its uuid (`session.session`, new for every process); what `complete_registration` does between the reply and the start of the heart (sockets, kernel, startup code) is one step that may take any time or fail (`die`); a pong is accepted from an engine whose heart has been started, at any time and with any content (it may be late); the controller is not restarted, but may begin with engines restored from its file.
-/
namespace IPP.Life

open Hub (Uuid Eid)

/-- what an engine process is doing — engine/app.py:527-569 -/
inductive Phase where
  /-- not started -/
  | absent
  /-- `registration_request` sent, waiting for the reply -/
  | asking
  /-- `complete_registration` is working -/
  | starting
  /-- the heart is beating -/
  | running
  | gone
  deriving DecidableEq, Repr

/-- engine/app.py:115-160 -/
structure Proc where
  phase : Phase := .absent
  /-- `IPEngine.id`: the requested one until the reply has been read -/
  id : Option Eid := none
  /-- `complete_registration` has read a reply with an id (and started the nanny, if enabled) -/
  told : Bool := false
  /-- `Heart.start()` has been called -/
  heart : Bool := false
  deriving DecidableEq, Repr

/-- messages of an engine (or of its nanny) to the hub — engine/app.py:530-568, 845-861, engine/nanny.py:113-127 -/
inductive Msg where
  | register (requested : Option Eid)
  | unregister (id : Option Eid)
  deriving DecidableEq, Repr

/-- hub.py:142-205, heartmonitor.py:91-139, engine/app.py:115-160 -/
structure Sys where
  proc : Uuid → Proc := fun _ => {}
  /-- messages under way to the hub -/
  toHub : Uuid → List Msg := fun _ => []
  /-- the `registration_reply` sent to an engine, `some none`: an error -/
  reply : Uuid → Option (Option Eid) := fun _ => none
  reg : Hub.Reg := Hub.fresh none
  /-- everything the hub has sent -/
  notes : List Hub.Note := []
  hm : Heart.State := {}
  /-- how many of the heart monitor's notes the hub has handled -/
  handled : Nat := 0

inductive Ev where
  /-- an engine process is started; `IPEngine.id` may be configured (MPI) -/
  | start (u : Uuid) (requested : Option Eid)
  /-- the poll in `register` ends without reply — engine/app.py:559-569, `abort` — 844-861 -/
  | timeout (u : Uuid)
  /-- the reply is read — engine/app.py:560-564, 601-642 -/
  | reply (u : Uuid)
  /-- `start_heartbeat` — engine/app.py:777-782 -/
  | heart (u : Uuid)
  /-- the process ends without a word -/
  | die (u : Uuid)
  /-- too many missed pings — engine/app.py:876-886 -/
  | giveUp (u : Uuid)
  /-- the nanny reports the death of the engine — engine/nanny.py (C66) -/
  | nanny (u : Uuid)
  /-- the hub handles the next message of an engine -/
  | hub (u : Uuid)
  /-- a pong of an engine arrives at the heart monitor -/
  | pong (u : Uuid) (token : Nat)
  | beat (dt : Nat)
  /-- the hub handles the next note of the heart monitor — hub.py:393-438 -/
  | note
  /-- the stalled-registration timer — hub.py:1066-1076; the code first reads the heart notes that have arrived, which here are `note` events before it -/
  | stall (u : Uuid)
  deriving DecidableEq, Repr

/-- attributes of one engine process, engine/app.py:115-160 -/
def upd {α : Type} (f : Uuid → α) (u : Uuid) (v : α) : Uuid → α := fun x => if x = u then v else f x

/-- run an event of the hub's registration, keeping the reply of a registration in the engine's mailbox — hub.py:880-1064 -/
def hubStep (s : Sys) (e : Hub.Ev) : Sys :=
  let r := Hub.step s.reg e
  { s with reg := r.1, notes := s.notes ++ r.2 }

/-- `dispatch_query` on a registration message — hub.py:880-966. An unregistration with id None finds nothing. -/
def hubMsg (s : Sys) (u : Uuid) : Msg → Sys
  | .register r =>
    let s' := hubStep s (.register u r)
    { s' with reply := upd s.reply u (some (match (Hub.register s.reg u r).2 with | [.granted _ id _] => some id | _ => none)) }
  | .unregister (some id) => hubStep s (.unregister id)
  | .unregister none => s

/-- `heartmonitor_message` — hub.py:393-438 -/
def hubNote (s : Sys) : Heart.Note → Sys
  | .new h => hubStep s (.newHeart h)
  | .stopped h => hubStep s (.stoppedHeart h)

/-- hub.py:880-1078, heartmonitor.py:150-247, engine/app.py:530-888, engine/nanny.py:113-127 -/
def step (max : Nat) (s : Sys) : Ev → Sys
  | .start u r => if (s.proc u).phase = .absent then
      { s with proc := upd s.proc u { phase := .asking, id := r }, toHub := upd s.toHub u [.register r] } else s
  | .timeout u => if (s.proc u).phase = .asking then
      { s with proc := upd s.proc u { s.proc u with phase := .gone }, toHub := upd s.toHub u (s.toHub u ++ [.unregister (s.proc u).id]) } else s
  | .reply u => if (s.proc u).phase = .asking then match s.reply u with
      | none => s
      | some none => { s with proc := upd s.proc u { s.proc u with phase := .gone } }
      | some (some id) => { s with proc := upd s.proc u { s.proc u with phase := .starting, id := some id, told := true } }
    else s
  | .heart u => if (s.proc u).phase = .starting then { s with proc := upd s.proc u { s.proc u with phase := .running, heart := true } } else s
  | .die u => if (s.proc u).phase = .absent then s else { s with proc := upd s.proc u { s.proc u with phase := .gone } }
  | .giveUp u => if (s.proc u).phase = .running then
      { s with proc := upd s.proc u { s.proc u with phase := .gone }, toHub := upd s.toHub u (s.toHub u ++ [.unregister (s.proc u).id]) } else s
  | .nanny u => if (s.proc u).phase = .gone ∧ (s.proc u).told = true then { s with toHub := upd s.toHub u (s.toHub u ++ [.unregister (s.proc u).id]) } else s
  | .hub u => match s.toHub u with
    | [] => s
    | m :: r => hubMsg { s with toHub := upd s.toHub u r } u m
  | .pong u t => if (s.proc u).heart = true then { s with hm := Heart.step max s.hm (.pong u t) } else s
  | .beat dt => { s with hm := Heart.step max s.hm (.beat dt) }
  | .note => match s.hm.notes[s.handled]? with
    | none => s
    | some n => hubNote { s with handled := s.handled + 1 } n
  | .stall u => hubStep s (.stall u)

/-- any interleaving of the processes of engine/app.py, hub.py and heartmonitor.py -/
def run (max : Nat) (s : Sys) (evs : List Ev) : Sys := evs.foldl (step max) s

/-- a new controller, no engines — hub.py:207-261 -/
def init : Sys := {}

/-- a controller that restores engines from its file; the processes of those engines may or may not live — hub.py:1109-1135 -/
def restored (f : Hub.File) : Sys := { reg := Hub.load (some f) }

end IPP.Life
