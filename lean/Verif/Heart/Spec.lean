import Verif.Heart.Model

/-!
# Heartbeats: specification vocabulary
-/
namespace IPP.Heart

/-! ## Specification: functions of the history and of the notifications only -/

/-- The lengths of the completed beat intervals. -/
def intervals (evs : List Ev) : List Nat := evs.filterMap fun | .beat dt => some dt | _ => none

/-- The ping token now in circulation: the total time of all completed intervals. -/
def current (evs : List Ev) : Nat := (intervals evs).sum

/-- The token of the ping before that. -/
def previous (evs : List Ev) : Nat := (intervals evs).dropLast.sum

/-- Does event `e`, coming after `evs`, count as an answer of `h`? It does if it echoes the current or the previous ping. -/
def isAnswer (h : Id) (evs : List Ev) : Ev → Bool
  | .pong h' t => h' = h && (t = current evs || t = previous evs)
  | .beat _ => false

/-- `h` answered in the beat interval that is still open at the end of `evs`. -/
def Answered (h : Id) (evs : List Ev) : Prop :=
  ∃ p e q, evs = p ++ e :: q ∧ isAnswer h p e = true ∧ ∀ dt, Ev.beat dt ∉ q

/-- `h` answered none of the last `n` completed beat intervals of `evs`. -/
inductive SilentFor (h : Id) : Nat → List Ev → Prop
  | zero (evs) : SilentFor h 0 evs
  | pong (n evs h' t) : SilentFor h n evs → SilentFor h n (evs ++ [.pong h' t])
  | beat (n evs dt) : SilentFor h n evs → ¬ Answered h evs → SilentFor h (n + 1) (evs ++ [.beat dt])

/-- The notifications about `h`. -/
def about (h : Id) (notes : List Note) : List Note := notes.filter (fun n => decide (n = .new h ∨ n = .stopped h))

/-- `h` is known to be alive: its last notification is `new`. -/
def Alive (h : Id) (notes : List Note) : Prop := (about h notes).getLast? = some (.new h)

end IPP.Heart
