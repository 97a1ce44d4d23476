import Verif.Async.Wait

/-!
# Model of `AsyncResult.wait_interactive` and `Client.wait_interactive` — client/asyncresult.py:791-798, 841-885, client/client.py:1662-1675

The user's thread of `Verif.Async.Wait` with a clock, and with what the progress bar shows.  The io thread takes the id of a request out of
`client.outstanding` before it completes the request's future (client.py:912-919, 973-982, 1027-1028), which starts the callbacks.

Simplifications: the clock counts in some unit (a natural number); between two calls the user's thread needs at most `late` units, and a call with
a time limit returns at most `late` after the limit.  The bar itself (tqdm) is the number it was last moved to.  Output is C60, and
`wait_for_output` C91.
-/
namespace IPP.Async.Wait.Interactive
open IPP.Async IPP.Async.Wait

/-- The argument `return_when` — asyncresult.py:842, 857-860, 875-879: None and ALL_COMPLETED, the two others, anything else. -/
inductive Asked where
  | all
  | first
  | exception
  | other
  deriving DecidableEq, Repr

/-- One call: the result, the ids of its requests (`self.msg_ids`), the sizes of the chunks (`self._chunk_sizes`, 1 if there is none), and the
arguments: `interval` and `timeout` (`none`: None or negative; asyncresult.py:858-859, 484-485), `return_when`. — asyncresult.py:841-860 -/
structure Call where
  A : AR
  ids : Nat → Nat
  size : Nat → Nat
  interval : Option Nat
  timeout : Option Nat
  asked : Asked
  late : Nat

/-- What both threads see: also `client.outstanding`, and what time it is. — asyncresult.py:791-798, client.py:333 -/
structure Moment (V : Type u) where
  st : St V
  out : Nat → Bool
  t : Nat

/-- A step of the io thread: a step of the result's futures, a child's future only after its id has been taken out of
`outstanding`; or taking out an id (client.py:918-919, 981-982). -/
inductive XStep (c : Call) : St V × (Nat → Bool) → St V × (Nat → Bool) → Prop where
  | fut (s s' : St V) (o : Nat → Bool) : Step c.A s s' → (∀ i r, s.child i = none → s'.child i = some r → o (c.ids i) = false) →
      XStep c (s, o) (s', o)
  | discard (s : St V) (o : Nat → Bool) (k : Nat) : XStep c (s, o) (s, fun j => if j = k then false else o j)

/-- Any number of them. — client.py:905-1028 -/
inductive XSteps (c : Call) : St V × (Nat → Bool) → St V × (Nat → Bool) → Prop where
  | refl (x : St V × (Nat → Bool)) : XSteps c x x
  | tail {x y z : St V × (Nat → Bool)} : XSteps c x y → XStep c y z → XSteps c x z

/-- `_count_chunks(*msg_ids)` — asyncresult.py:756-759 -/
def count (c : Call) (l : List Nat) : Nat := (l.map c.size).sum

/-- `self.msg_ids` -- asyncresult.py:90-94 -/
def msgIds (c : Call) : List Nat := (List.range c.A.n).map c.ids

/-- Each element once: `set(l)` — asyncresult.py:796 -/
def once : List Nat → List Nat
  | [] => []
  | x :: l => x :: (once l).filter (fun y => y ≠ x)

/-- `len(self)` — asyncresult.py:751-754 -/
def total (c : Call) : Nat := count c (msgIds c)

/-- `progress` — asyncresult.py:791-798: `len(self)` less the chunks of `set(msg_ids).intersection(outstanding)`, an integer. -/
def progress (c : Call) (o : Nat → Bool) : Int :=
  (total c : Int) - (count c ((once (msgIds c)).filter o) : Int)

/-- The thread goes on from one moment to the next without waiting. — asyncresult.py:861-885 -/
structure Go (c : Call) (m m' : Moment V) : Prop where
  steps : XSteps c (m.st, m.out) (m'.st, m'.out)
  fwd : m.t ≤ m'.t
  soon : m'.t ≤ m.t + c.late

/-- `self.wait(interval, return_when=return_when)` from `m` to `m'`, and the value of `finished` it gives — asyncresult.py:870-877.  It times out
only when the interval is over (`tmo`), and does not last longer than that. -/
inductive Round (c : Call) : Moment V → Moment V → Bool → Prop where
  | all (m m' : Moment V) (tmo b : Bool) : c.asked = .all → WaitAll c.A m.st tmo m'.st b →
      XSteps c (m.st, m.out) (m'.st, m'.out) → m.t ≤ m'.t →
      (tmo = true → ∃ iv, c.interval = some iv ∧ m.t + iv ≤ m'.t) → (∀ iv, c.interval = some iv → m'.t ≤ m.t + iv + c.late) →
      Round c m m' b
  | part (m m' : Moment V) (tmo : Bool) (w : When) (d p : List Nat) :
      (c.asked = .first ∧ w = .firstCompleted ∨ c.asked = .exception ∧ w = .firstException) →
      WaitReturns c.A m.st tmo w m'.st d p →
      XSteps c (m.st, m.out) (m'.st, m'.out) → m.t ≤ m'.t →
      (tmo = true → ∃ iv, c.interval = some iv ∧ m.t + iv ≤ m'.t) → (∀ iv, c.interval = some iv → m'.t ≤ m.t + iv + c.late) →
      Round c m m' (if w = .firstCompleted then !d.isEmpty else p.isEmpty || d.any (failedPart c.A m'.st))

/-- How the call ends: `None` is returned, or ValueError (asyncresult.py:879, or already by `concurrent.futures.wait`). — asyncresult.py:866-885 -/
inductive End where
  | returned
  | valueError
  deriving DecidableEq, Repr

/-- The loop from a moment at which `not finished` — asyncresult.py:867-879.  `shown`: the values the bar is moved to, one per round. -/
inductive Loop (c : Call) (tic : Nat) : Moment V → List Int → Moment V → End → Prop where
  /-- 868: the time is over -/
  | over (m : Moment V) (T : Nat) : c.timeout = some T → tic + T < m.t → Loop c tic m [] m .returned
  /-- 870-877: a round after which `finished` is true -/
  | last (m m1 m2 : Moment V) : (∀ T, c.timeout = some T → m.t ≤ tic + T) → Round c m m1 true → Go c m1 m2 →
      Loop c tic m [progress c m2.out] m2 .returned
  /-- a round after which it is not -/
  | again (m m1 m2 m3 : Moment V) (shown : List Int) (e : End) : (∀ T, c.timeout = some T → m.t ≤ tic + T) → Round c m m1 false →
      Go c m1 m2 → Loop c tic m2 shown m3 e → Loop c tic m (progress c m2.out :: shown) m3 e
  /-- a wrong `return_when`: the standard library's `wait` refuses it unless everything is done, and then 879 does -/
  | wrong (m m' : Moment V) : (∀ T, c.timeout = some T → m.t ≤ tic + T) → c.asked = .other → Go c m m' →
      Loop c tic m [] m' .valueError

/-- The whole call, from `m0` to `m`: it is `finished` at the beginning if the result is ready (866), and moves the bar a last time (881). -/
inductive WaitInteractive (c : Call) (m0 : Moment V) : List Int → Moment V → End → Prop where
  | ready (m1 m : Moment V) : Go c m0 m1 → m1.st.main = .ready → Go c m1 m →
      WaitInteractive c m0 [progress c m.out] m .returned
  | loop (m1 m2 m : Moment V) (shown : List Int) : Go c m0 m1 → m1.st.main ≠ .ready → Loop c m0.t m1 shown m2 .returned → Go c m2 m →
      WaitInteractive c m0 (shown ++ [progress c m.out]) m .returned
  | fails (m1 m : Moment V) (shown : List Int) : Go c m0 m1 → m1.st.main ≠ .ready → Loop c m0.t m1 shown m .valueError →
      WaitInteractive c m0 shown m .valueError

/-! ## `Client.wait_interactive` -/

/-- `[f for f in self._futures.values() if hasattr(f, 'output')]` — client.py:1669: the user's thread goes through the dict while the io thread takes
entries out (client.py:1301-1308) and others put some in (:1229-1246).  `seen`: what is taken at each step of the iteration, together with
the number of entries the dict then has; `size0`: their number at the beginning.  Python raises RuntimeError when it finds another number
than at the beginning.  `none`: RuntimeError. -/
def collectFutures (size0 : Nat) : List (Nat × Bool × Nat) → Option (List Nat)
  | [] => some []
  | (f, hasOutput, n) :: l =>
    if n ≠ size0 then none
    else (collectFutures size0 l).map (fun r => if hasOutput then f :: r else r)

/-- What `wait_interactive()` without jobs does next: return at once, or wait for a result made of these futures — client.py:1669-1675 -/
inductive ClientWaits where
  | runtimeError
  | returnsAtOnce
  | waitsFor (l : List Nat)
  deriving DecidableEq, Repr

/-- client.py:1667-1675 with `jobs=None` -/
def clientWait (size0 : Nat) (seen : List (Nat × Bool × Nat)) : ClientWaits :=
  match collectFutures size0 seen with
  | none => .runtimeError
  | some [] => .returnsAtOnce
  | some l => .waitsFor l

end IPP.Async.Wait.Interactive
