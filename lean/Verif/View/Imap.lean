/-!
# C12: `LoadBalancedView.imap` — view.py:1520-1715

A transition system with three actors: the consumer thread (`consume_next` in a pool of one thread), the cluster (which finishes tasks in any order), and the user's thread that iterates over the results.
Tasks are numbered in the order in which their inputs are taken. Between taking an input and adding its task to the table other actors may act; submission, adding and registering the callback are one step
(a task that finishes in between is the same as one that finishes right after, because the callback is then called at once). In the unordered case the finished tasks of one `wait` are yielded one by one.
-/
namespace IPP.Imap

/-- what the call and the cluster do; `n`: number of inputs — client/view.py:1520-1715 -/
structure Env where
  n : Nat
  /-- the input iterator raises after `n` inputs -/
  tail : Bool
  /-- `max_outstanding`; 0: no limit -/
  max : Nat
  ordered : Bool
  /-- `get` of task `k` raises (an error in the task, without `return_exceptions`) -/
  raises : Nat → Bool

/-- client/view.py:1520-1715 -/
inductive Main where
  /-- in `while not iterator_done` -/
  | loop
  /-- yielding the remaining results -/
  | drain
  | ended
  | raised
  deriving DecidableEq, Repr

/-- client/view.py:1520-1715 -/
structure St where
  /-- inputs taken from the iterator -/
  taken : Nat
  /-- calls of `consume_next` that wait in the pool -/
  tokens : Nat
  /-- `consume_next` has an input in hand -/
  inflight : Bool
  /-- tasks submitted: numbers below this -/
  submitted : Nat
  finished : List Nat
  outst : List Nat
  /-- popped by the user's thread, not yet yielded -/
  waiting : Option Nat
  yielded : List Nat
  /-- `iterator_done` -/
  done : Bool
  cancelled : Bool
  main : Main
  /-- the pool accepts calls -/
  opened : Bool
  /-- (ghost) the iterator has raised: the last number is not a task -/
  pseudo : Bool
  deriving DecidableEq, Repr

/-- the start: one call of `consume_next` per slot — view.py:1667-1672 -/
def init (E : Env) : St :=
  { taken := 0, tokens := if E.max = 0 then 1 else E.max, inflight := false, submitted := 0, finished := [], outst := [], waiting := none, yielded := [],
    done := false, cancelled := false, main := .loop, opened := true, pseudo := false }

/-- One step. -/
inductive Step (E : Env) : St → St → Prop where
  /-- `consume_next` when done — view.py:1636-1638 -/
  | skip (s : St) (h1 : 0 < s.tokens) (h2 : s.inflight = false) (h3 : s.done = true) : Step E s { s with tokens := s.tokens - 1 }
  /-- `next(arg_iterator)` — view.py:1640-1641 -/
  | take (s : St) (h1 : 0 < s.tokens) (h2 : s.inflight = false) (h3 : s.done = false) (h4 : s.taken < E.n) : Step E s { s with tokens := s.tokens - 1, taken := s.taken + 1, inflight := true }
  /-- StopIteration — view.py:1643-1645 -/
  | stop (s : St) (h1 : 0 < s.tokens) (h2 : s.inflight = false) (h3 : s.done = false) (h4 : ¬ s.taken < E.n) (h5 : E.tail = false) : Step E s { s with tokens := s.tokens - 1, done := true }
  /-- the iterator raises: a future with this exception takes the place of a task — view.py:1646-1655 -/
  | fail (s : St) (h1 : 0 < s.tokens) (h2 : s.inflight = false) (h3 : s.done = false) (h4 : ¬ s.taken < E.n) (h5 : E.tail = true) :
      Step E s { s with tokens := s.tokens - 1, done := true, pseudo := true, outst := s.outst ++ [s.submitted], finished := s.finished ++ [s.submitted], submitted := s.submitted + 1 }
  /-- `apply_async` and adding — view.py:1641, 1657-1662 -/
  | submit (s : St) (h : s.inflight = true) :
      Step E s { s with inflight := false, outst := s.outst ++ [s.submitted], submitted := s.submitted + 1, tokens := if E.max = 0 ∧ s.opened = true then s.tokens + 1 else s.tokens }
  /-- a task finishes, `consume_callback` — view.py:1624-1626 -/
  | finish (s : St) (k : Nat) (h1 : k < s.submitted) (h2 : k ∉ s.finished) :
      Step E s { s with finished := s.finished ++ [k], tokens := if E.max ≠ 0 ∧ s.done = false ∧ s.opened = true then s.tokens + 1 else s.tokens }
  /-- ordered: the oldest task is popped — view.py:1600-1602, 1694-1696 -/
  | pop (s : St) (k : Nat) (r : List Nat) (h1 : s.main = .loop ∨ s.main = .drain) (h2 : E.ordered = true) (h3 : s.waiting = none) (h4 : s.outst = k :: r) : Step E s { s with outst := r, waiting := some k }
  /-- unordered: a finished task is removed — view.py:1603-1616, 1697-1703 -/
  | popAny (s : St) (k : Nat) (h1 : s.main = .loop ∨ s.main = .drain) (h2 : E.ordered = false) (h3 : s.waiting = none) (h4 : k ∈ s.outst) (h5 : k ∈ s.finished) :
      Step E s { s with outst := s.outst.erase k, waiting := some k }
  /-- `yield ready_ar.get(...)` — view.py:1690, 1696, 1703; not for the future of a failing iterator -/
  | yield (s : St) (k : Nat) (h1 : s.main = .loop ∨ s.main = .drain) (h2 : s.waiting = some k) (h3 : k ∈ s.finished) (h4 : E.raises k = false) (h5 : k < E.n) : Step E s { s with waiting := none, yielded := s.yielded ++ [k] }
  /-- `get` raises: the generator ends, and the pool is closed if it was open -/
  | raise (s : St) (k : Nat) (h1 : s.main = .loop ∨ s.main = .drain) (h2 : s.waiting = some k) (h3 : k ∈ s.finished) (h4 : E.raises k = true ∨ ¬ k < E.n) : Step E s { s with waiting := none, main := .raised, opened := false }
  /-- the end of the loop: the pool is closed after its waiting calls — view.py:1684-1686 -/
  | toDrain (s : St) (h1 : s.main = .loop) (h2 : s.done = true) (h3 : s.waiting = none) (h4 : s.tokens = 0) (h5 : s.inflight = false) : Step E s { s with main := .drain, opened := false }
  | finishMain (s : St) (h1 : s.main = .drain) (h2 : s.outst = []) (h3 : s.waiting = none) : Step E s { s with main := .ended }
  /-- `LazyMapIterator.cancel` — view.py:1200-1207 -/
  | cancel (s : St) : Step E s { s with done := true, cancelled := true }

/-- any interleaving of the threads of client/view.py:1520-1715 -/
inductive Reach (E : Env) : St → Prop where
  | init : Reach E (init E)
  | step {s s' : St} : Reach E s → Step E s s' → Reach E s'

/-- number of tasks submitted and not finished -/
def unfinished (s : St) : Nat := s.submitted - s.finished.length

/-! ## invariants -/

def b2n (b : Bool) : Nat := if b then 1 else 0

structure Inv (E : Env) (s : St) : Prop where
  fin : ∀ k ∈ s.finished, k < s.submitted
  finNodup : s.finished.Nodup
  perm : s.main ≠ .raised → (s.yielded ++ s.waiting.toList ++ s.outst).Perm (List.range s.submitted)
  ord : E.ordered = true → s.main ≠ .raised → s.yielded ++ s.waiting.toList ++ s.outst = List.range s.submitted
  yfin : ∀ k ∈ s.yielded, k < E.n ∧ k ∈ s.finished ∧ E.raises k = false
  ywas : ∃ l, (s.yielded ++ l).Perm (List.range s.submitted) ∧ (E.ordered = true → s.yielded ++ l = List.range s.submitted)
  count : s.submitted + b2n s.inflight = s.taken + b2n s.pseudo
  takenLe : s.taken ≤ E.n
  pseudo : s.pseudo = true → s.taken = E.n ∧ s.done = true ∧ E.tail = true
  doneAll : s.done = true → s.cancelled = false → s.taken = E.n ∧ s.inflight = false ∧ s.pseudo = E.tail
  bound : E.max ≠ 0 → s.submitted + b2n s.inflight + s.tokens ≤ s.finished.length + E.max
  drain : s.main = .drain ∨ s.main = .ended → s.done = true ∧ s.inflight = false ∧ s.tokens = 0 ∧ s.opened = false
  ended : s.main = .ended → s.outst = [] ∧ s.waiting = none
  looping : s.main = .loop → s.opened = true

theorem inv_init (E : Env) : Inv E (init E) := by
  refine ⟨by simp [init], by simp [init], fun _ => by simp [init], fun _ _ => by simp [init], by simp [init], ⟨[], by simp [init], by simp [init]⟩, by simp [init], by simp [init], by simp [init], by simp [init], ?_, by simp [init], by simp [init], by simp [init]⟩
  intro h
  simp [init, b2n, h]

theorem inv_step {E : Env} {s s' : St} (h : Inv E s) (st : Step E s s') : Inv E s' := by
  cases st with
  | skip h1 h2 h3 =>
    refine ⟨h.fin, h.finNodup, h.perm, h.ord, h.yfin, h.ywas, h.count, h.takenLe, h.pseudo, h.doneAll, ?_, ?_, h.ended, h.looping⟩
    · intro hm; have := h.bound hm; simp only at *; omega
    · intro hm; have := h.drain hm; simp only at *; omega
  | take h1 h2 h3 h4 =>
    have hp : s.pseudo = false := by
      cases hp : s.pseudo with
      | false => rfl
      | true => have := (h.pseudo hp).2.1; rw [h3] at this; cases this
    refine ⟨h.fin, h.finNodup, h.perm, h.ord, h.yfin, h.ywas, ?_, ?_, ?_, ?_, ?_, ?_, h.ended, h.looping⟩
    · have := h.count; simp [b2n, h2, hp] at this ⊢; omega
    · simp only; omega
    · intro hc; simp only at hc; rw [hp] at hc; cases hc
    · intro hc; simp only at hc; rw [h3] at hc; cases hc
    · intro hm; have := h.bound hm; simp [b2n, h2] at this ⊢; omega
    · intro hm; have := (h.drain hm).1; rw [h3] at this; cases this
  | stop h1 h2 h3 h4 h5 =>
    have hp : s.pseudo = false := by
      cases hp : s.pseudo with
      | false => rfl
      | true => have := (h.pseudo hp).2.1; rw [h3] at this; cases this
    have ht := h.takenLe
    refine ⟨h.fin, h.finNodup, h.perm, h.ord, h.yfin, h.ywas, h.count, h.takenLe, ?_, ?_, ?_, ?_, h.ended, h.looping⟩
    · intro hc; simp only at hc; rw [hp] at hc; cases hc
    · intro _ _; exact ⟨by simp only; omega, h2, by simp only; rw [hp, h5]⟩
    · intro hm; have := h.bound hm; simp only at *; omega
    · intro hm; have := (h.drain hm).1; rw [h3] at this; cases this
  | fail h1 h2 h3 h4 h5 =>
    have hp : s.pseudo = false := by
      cases hp : s.pseudo with
      | false => rfl
      | true => have := (h.pseudo hp).2.1; rw [h3] at this; cases this
    have ht := h.takenLe
    refine ⟨?_, ?_, ?_, ?_, ?_, ?_, ?_, h.takenLe, ?_, ?_, ?_, ?_, ?_, h.looping⟩
    · intro k hk
      simp only [List.mem_append, List.mem_singleton] at hk
      rcases hk with hk | rfl
      · have := h.fin k hk; simp only; omega
      · simp only; omega
    · simp only [List.nodup_append]
      refine ⟨h.finNodup, by simp, ?_⟩
      intro a ha b hb
      have hb' : b = s.submitted := by simpa using hb
      have := h.fin a ha
      omega
    · intro hm
      simp only
      rw [List.range_succ, ← List.append_assoc]
      exact (h.perm hm).append_right _
    · intro ho hm
      simp only
      rw [List.range_succ, ← List.append_assoc, h.ord ho hm]
    · intro k hk
      obtain ⟨a, b, c⟩ := h.yfin k hk
      exact ⟨a, by simp [b], c⟩
    · obtain ⟨l, hl1, hl2⟩ := h.ywas
      refine ⟨l ++ [s.submitted], ?_, ?_⟩
      · simp only; rw [List.range_succ, ← List.append_assoc]; exact hl1.append_right _
      · intro ho; simp only; rw [List.range_succ, ← List.append_assoc, hl2 ho]
    · have := h.count; simp [b2n, h2, hp] at this ⊢; omega
    · intro _; exact ⟨by simp only; omega, rfl, h5⟩
    · intro _ _; exact ⟨by simp only; omega, h2, by simp only; rw [h5]⟩
    · intro hm; have := h.bound hm; simp [b2n, h2] at this ⊢; omega
    · intro hm; have := (h.drain hm).1; rw [h3] at this; cases this
    · intro hm; have := (h.drain (.inr hm)).1; rw [h3] at this; cases this
  | submit h1 =>
    have hnd : ¬ (s.main = .drain ∨ s.main = .ended) := by
      intro hm; have := (h.drain hm).2.1; rw [h1] at this; cases this
    refine ⟨?_, h.finNodup, ?_, ?_, h.yfin, ?_, ?_, h.takenLe, h.pseudo, ?_, ?_, ?_, ?_, h.looping⟩
    · intro k hk; have := h.fin k hk; simp only; omega
    · intro hm
      simp only
      rw [List.range_succ, ← List.append_assoc]
      exact (h.perm hm).append_right _
    · intro ho hm
      simp only
      rw [List.range_succ, ← List.append_assoc, h.ord ho hm]
    · obtain ⟨l, hl1, hl2⟩ := h.ywas
      refine ⟨l ++ [s.submitted], ?_, ?_⟩
      · simp only; rw [List.range_succ, ← List.append_assoc]; exact hl1.append_right _
      · intro ho; simp only; rw [List.range_succ, ← List.append_assoc, hl2 ho]
    · have := h.count; simp [b2n, h1] at this ⊢; omega
    · intro hd hc
      obtain ⟨a, b, c⟩ := h.doneAll hd hc
      exact ⟨a, rfl, c⟩
    · intro hm; have := h.bound hm; simp [b2n, h1, hm] at this ⊢; omega
    · intro hm; exact absurd hm hnd
    · intro hm; exact absurd (.inr hm) hnd
  | finish k h1 h2 =>
    refine ⟨?_, ?_, h.perm, h.ord, ?_, h.ywas, h.count, h.takenLe, h.pseudo, h.doneAll, ?_, ?_, h.ended, h.looping⟩
    · intro j hj
      simp only [List.mem_append, List.mem_singleton] at hj
      rcases hj with hj | rfl
      · exact h.fin j hj
      · exact h1
    · simp only [List.nodup_append]
      refine ⟨h.finNodup, by simp, ?_⟩
      intro a ha b hb
      have hb' : b = k := by simpa using hb
      rintro rfl
      exact h2 (hb' ▸ ha)
    · intro j hj
      obtain ⟨a, b, c⟩ := h.yfin j hj
      exact ⟨a, by simp [b], c⟩
    · intro hm
      have := h.bound hm
      simp only [List.length_append, List.length_singleton]
      split <;> omega
    · intro hm
      obtain ⟨a, b, c, d⟩ := h.drain hm
      refine ⟨a, b, ?_, d⟩
      simp only
      rw [if_neg (by simp [a])]
      exact c
  | pop k r h1 h2 h3 h4 =>
    refine ⟨h.fin, h.finNodup, ?_, ?_, h.yfin, h.ywas, h.count, h.takenLe, h.pseudo, h.doneAll, h.bound, h.drain, ?_, h.looping⟩
    · intro hm; have := h.perm hm; rw [h3, h4] at this; simpa using this
    · intro ho hm; have := h.ord ho hm; rw [h3, h4] at this; simpa using this
    · intro hm
      simp only at hm
      rcases h1 with h1 | h1 <;> rw [h1] at hm <;> cases hm
  | popAny k h1 h2 h3 h4 h5 =>
    refine ⟨h.fin, h.finNodup, ?_, ?_, h.yfin, h.ywas, h.count, h.takenLe, h.pseudo, h.doneAll, h.bound, h.drain, ?_, h.looping⟩
    · intro hm
      have := h.perm hm
      rw [h3] at this
      simp only [Option.toList, List.append_nil] at this ⊢
      refine List.Perm.trans ?_ this
      rw [List.append_assoc]
      apply List.Perm.append_left
      exact (List.perm_cons_erase h4).symm
    · intro ho; rw [h2] at ho; cases ho
    · intro hm
      simp only at hm
      rcases h1 with h1 | h1 <;> rw [h1] at hm <;> cases hm
  | yield k h1 h2 h3 h4 h5 =>
    have hnr : s.main ≠ .raised := by rcases h1 with h1 | h1 <;> rw [h1] <;> simp
    refine ⟨h.fin, h.finNodup, ?_, ?_, ?_, ?_, h.count, h.takenLe, h.pseudo, h.doneAll, h.bound, h.drain, ?_, h.looping⟩
    · intro hm; have := h.perm hm; rw [h2] at this; simpa using this
    · intro ho hm; have := h.ord ho hm; rw [h2] at this; simpa using this
    · intro j hj
      simp only [List.mem_append, List.mem_singleton] at hj
      rcases hj with hj | rfl
      · exact h.yfin j hj
      · exact ⟨h5, h3, h4⟩
    · refine ⟨s.outst, ?_, ?_⟩
      · have := h.perm hnr; rw [h2] at this; simpa using this
      · intro ho; have := h.ord ho hnr; rw [h2] at this; simpa using this
    · intro hm
      simp only at hm
      rcases h1 with h1 | h1 <;> rw [h1] at hm <;> cases hm
  | raise k h1 h2 h3 h4 =>
    refine ⟨h.fin, h.finNodup, ?_, ?_, h.yfin, h.ywas, h.count, h.takenLe, h.pseudo, h.doneAll, h.bound, ?_, ?_, ?_⟩
    · intro hm; exact absurd rfl hm
    · intro _ hm; exact absurd rfl hm
    · intro hm; simp at hm
    · intro hm; simp at hm
    · intro hm; simp at hm
  | toDrain h1 h2 h3 h4 h5 =>
    refine ⟨h.fin, h.finNodup, ?_, ?_, h.yfin, h.ywas, h.count, h.takenLe, h.pseudo, h.doneAll, h.bound, ?_, ?_, ?_⟩
    · intro _; exact h.perm (by rw [h1]; simp)
    · intro ho _; exact h.ord ho (by rw [h1]; simp)
    · intro _; exact ⟨h2, h5, h4, rfl⟩
    · intro hm; simp at hm
    · intro hm; simp at hm
  | finishMain h1 h2 h3 =>
    refine ⟨h.fin, h.finNodup, ?_, ?_, h.yfin, h.ywas, h.count, h.takenLe, h.pseudo, h.doneAll, h.bound, ?_, ?_, ?_⟩
    · intro _; exact h.perm (by rw [h1]; simp)
    · intro ho _; exact h.ord ho (by rw [h1]; simp)
    · intro _; exact h.drain (.inl h1)
    · intro _; exact ⟨h2, h3⟩
    · intro hm; simp at hm
  | cancel =>
    refine ⟨h.fin, h.finNodup, h.perm, h.ord, h.yfin, h.ywas, h.count, h.takenLe, ?_, ?_, h.bound, ?_, h.ended, h.looping⟩
    · intro hp; obtain ⟨a, b, c⟩ := h.pseudo hp; exact ⟨a, rfl, c⟩
    · intro _ hc; simp at hc
    · intro hm; obtain ⟨a, b, c, d⟩ := h.drain hm; exact ⟨rfl, b, c, d⟩

theorem inv_reach {E : Env} {s : St} (h : Reach E s) : Inv E s := by
  induction h with
  | init => exact inv_init E
  | step _ st ih => exact inv_step ih st

/-! ## C12 -/

/-- C12: never more than `max_outstanding` tasks are unfinished, and never more inputs are taken than tasks are finished plus `max_outstanding`. -/
theorem window {E : Env} {s : St} (h : Reach E s) (hm : E.max ≠ 0) : unfinished s ≤ E.max ∧ s.taken ≤ s.finished.length + E.max := by
  have I := inv_reach h
  have := I.bound hm
  have hc := I.count
  unfold unfinished
  constructor
  · omega
  · cases hp : s.pseudo with
    | false => rw [hp] at hc; simp only [b2n] at hc this; simp at hc; omega
    | true =>
      -- the placeholder of a failing iterator is finished from the start
      rw [hp] at hc
      simp only [b2n, if_true] at hc
      simp only [b2n] at this
      omega

/-- C12: what was yielded is the result of different inputs; with `ordered`, of the first inputs in their order. `v k` is the result of the task of input `k`. -/
theorem yields {E : Env} {s : St} (h : Reach E s) {β : Type} (v : Nat → β) :
    s.yielded.Nodup ∧ (∀ k ∈ s.yielded, k < E.n) ∧ (E.ordered = true → s.yielded.map v = (List.range s.yielded.length).map v) := by
  have I := inv_reach h
  obtain ⟨l, h1, h2⟩ := I.ywas
  refine ⟨?_, fun k hk => (I.yfin k hk).1, ?_⟩
  · have : (s.yielded ++ l).Nodup := h1.symm.nodup List.nodup_range
    exact (List.nodup_append.1 this).1
  · intro ho
    have e := h2 ho
    have hle : s.yielded.length ≤ s.submitted := by
      have := congrArg List.length e
      simp only [List.length_append, List.length_range] at this
      omega
    have : s.yielded = List.range s.yielded.length := by
      have t := congrArg (List.take s.yielded.length) e
      rw [List.take_left] at t
      rw [t, List.take_range]
      rw [Nat.min_eq_left hle]
      simp
    rw [← this]

/-- C12: when the iteration has ended (no cancellation, no failing iterator), every input's result was yielded exactly once; with `ordered`, in the order of the inputs. -/
theorem complete {E : Env} {s : St} (h : Reach E s) (he : s.main = .ended) (hc : s.cancelled = false) {β : Type} (v : Nat → β) :
    (s.yielded.map v).Perm ((List.range E.n).map v) ∧ (E.ordered = true → s.yielded.map v = (List.range E.n).map v) := by
  have I := inv_reach h
  obtain ⟨e1, e2⟩ := I.ended he
  obtain ⟨d1, d2, d3, d4⟩ := I.drain (.inr he)
  obtain ⟨t1, -, t3⟩ := I.doneAll d1 hc
  have hnr : s.main ≠ .raised := by rw [he]; simp
  have p := I.perm hnr
  rw [e1, e2] at p
  simp only [Option.toList, List.append_nil] at p
  have hps : s.pseudo = false := by
    cases hp : s.pseudo with
    | false => rfl
    | true =>
      -- the placeholder would have to be yielded, but only tasks of inputs are
      have hcnt := I.count
      simp only [hp, d2, b2n] at hcnt
      simp at hcnt
      have hmem : E.n ∈ s.yielded := p.symm.subset (by simp; omega)
      have := (I.yfin _ hmem).1
      omega
  have hsub : s.submitted = E.n := by
    have := I.count
    simp only [hps, d2, b2n] at this
    simp at this
    omega
  refine ⟨by rw [← hsub]; exact p.map v, ?_⟩
  intro ho
  have := I.ord ho hnr
  rw [e1, e2] at this
  simp only [Option.toList, List.append_nil] at this
  rw [this, hsub]

/-- C12: after a cancellation the iteration still yields the results of the inputs that were taken, and only those. -/
theorem complete_cancelled {E : Env} {s : St} (h : Reach E s) (he : s.main = .ended) : s.yielded.Perm (List.range s.taken) := by
  have I := inv_reach h
  obtain ⟨e1, e2⟩ := I.ended he
  obtain ⟨d1, d2, d3, d4⟩ := I.drain (.inr he)
  have hnr : s.main ≠ .raised := by rw [he]; simp
  have p := I.perm hnr
  rw [e1, e2] at p
  simp only [Option.toList, List.append_nil] at p
  have hcnt := I.count
  cases hp : s.pseudo with
  | false =>
    simp only [hp, d2, b2n] at hcnt
    simp at hcnt
    rw [← hcnt]
    exact p
  | true =>
    simp only [hp, d2, b2n] at hcnt
    simp at hcnt
    have hmem : E.n ∈ s.yielded := p.symm.subset (by simp; have := (I.pseudo hp).1; omega)
    have := (I.yfin _ hmem).1
    omega

/-! ### progress -/

/-- weights of what is left to do -/
def measure (E : Env) (s : St) : Nat :=
  7 * (E.n - s.taken) + 7 * b2n s.inflight + s.tokens + 2 * unfinished s + 3 * s.outst.length + 2 * s.waiting.toList.length + 4 * b2n (!s.done) +
    (match s.main with
      | .loop => 2
      | .drain => 1
      | _ => 0)

theorem nodup_sub : ∀ (a b : List Nat), a.Nodup → (∀ k ∈ a, k ∈ b) → a.length ≤ b.length
  | [], _, _, _ => by simp
  | x :: a, b, hn, h => by
    rw [List.nodup_cons] at hn
    have hx := h x (by simp)
    have := nodup_sub a (b.erase x) hn.2 (fun k hk => (List.mem_erase_of_ne (by rintro rfl; exact hn.1 hk)).2 (h k (by simp [hk])))
    rw [List.length_erase_of_mem hx] at this
    have := List.length_pos_of_mem hx
    simp only [List.length_cons]
    omega

theorem nodup_le : ∀ (n : Nat) (l : List Nat), l.Nodup → (∀ k ∈ l, k < n) → l.length ≤ n
  | 0, [], _, _ => by simp
  | 0, a :: _, _, h => absurd (h a (by simp)) (by omega)
  | n + 1, l, hn, h => by
    have h1 := nodup_le n (l.erase n) (hn.erase n) (by
      intro k hk
      have hm := (hn.mem_erase_iff).1 hk
      have := h k hm.2
      have := hm.1
      omega)
    rw [List.length_erase] at h1
    split at h1 <;> omega

theorem fin_le {E : Env} {s : St} (I : Inv E s) : s.finished.length ≤ s.submitted := nodup_le _ _ I.finNodup I.fin

/-- while the loop runs, every slot is a waiting call, an input in hand or an unfinished task -/
def Slots (E : Env) (s : St) : Prop := s.done = false → s.opened = true →
    if E.max = 0 then b2n s.inflight + s.tokens = 1 else s.submitted + b2n s.inflight + s.tokens = s.finished.length + E.max

theorem slots_init (E : Env) : Slots E (init E) := by
  intro _ _; by_cases hm : E.max = 0 <;> simp [init, hm, b2n]

theorem slots_step {E : Env} {s s' : St} (ih : Slots E s) (st : Step E s s') : Slots E s' := by
    intro hd ho
    unfold Slots at ih
    cases st with
    | skip h1 h2 h3 => simp only at hd; rw [h3] at hd; cases hd
    | take h1 h2 h3 h4 =>
      have := ih h3 ho
      simp only [b2n, h2] at this ⊢
      simp at this ⊢
      split <;> rename_i hm <;> simp [hm] at this <;> omega
    | stop h1 h2 h3 h4 h5 => cases hd
    | fail h1 h2 h3 h4 h5 => cases hd
    | submit h1 =>
      simp only at hd ho
      have := ih hd ho
      simp only [b2n, h1, ho] at this ⊢
      simp at this ⊢
      split <;> rename_i hm <;> simp [hm] at this ⊢ <;> omega
    | finish k h1 h2 =>
      simp only at hd ho
      have := ih hd ho
      simp only [hd, ho, List.length_append, List.length_singleton] at this ⊢
      simp at this ⊢
      split <;> rename_i hm <;> simp [hm] at this ⊢ <;> omega
    | pop k r h1 h2 h3 h4 => exact ih hd ho
    | popAny k h1 h2 h3 h4 h5 => exact ih hd ho
    | yield k h1 h2 h3 h4 h5 => exact ih hd ho
    | raise k h1 h2 h3 h4 => cases ho
    | toDrain h1 h2 h3 h4 h5 => cases ho
    | finishMain h1 h2 h3 => exact ih hd ho
    | cancel => cases hd

theorem slots_inv {E : Env} {s : St} (h : Reach E s) : Slots E s := by
  induction h with
  | init => exact slots_init E
  | step hr st ih => exact slots_step ih st

theorem slots {E : Env} {s : St} (h : Reach E s) (hm : s.main = .loop) (hd : s.done = false) (hin : s.inflight = false) (ht : s.tokens = 0)
    (hall : ∀ k, k < s.submitted → k ∈ s.finished) : s.done = true := by
  exfalso
  have I := inv_reach h
  have hs := slots_inv h hd (I.looping hm)
  have hle : s.submitted ≤ s.finished.length := by
    have := nodup_sub (List.range s.submitted) s.finished List.nodup_range (fun k hk => hall k (by simpa using hk))
    simpa using this
  split at hs <;> simp [b2n, hin, ht] at hs <;> omega

theorem steps_decrease_inv {E : Env} {s s' : St} (I : Inv E s) (st : Step E s s') (hc : s'.cancelled = s.cancelled ∧ (s.cancelled = true → s' ≠ { s with done := true, cancelled := true })) : measure E s' < measure E s := by
  have hf := fin_le I
  have I' := inv_step I st
  have hf' := fin_le I'
  cases st with
  | skip h1 h2 h3 => simp only [measure, unfinished]; omega
  | take h1 h2 h3 h4 => simp only [measure, unfinished, b2n, h2]; simp; omega
  | stop h1 h2 h3 h4 h5 => simp only [measure, unfinished, b2n, h3]; simp; omega
  | fail h1 h2 h3 h4 h5 => simp only [measure, unfinished, b2n, h3, List.length_append, List.length_singleton]; simp; omega
  | submit h1 =>
    simp only [measure, unfinished, b2n, h1, List.length_append, List.length_singleton] at hf hf' ⊢
    simp
    split <;> omega
  | finish k h1 h2 =>
    simp only [measure, unfinished, List.length_append, List.length_singleton] at hf hf' ⊢
    split <;> omega
  | pop k r h1 h2 h3 h4 => simp only [measure, unfinished, h3, h4, Option.toList, List.length_cons, List.length_nil]; omega
  | popAny k h1 h2 h3 h4 h5 =>
    have := List.length_erase_of_mem h4
    have := List.length_pos_of_mem h4
    simp only [measure, unfinished, h3, Option.toList, List.length_cons, List.length_nil]; omega
  | yield k h1 h2 h3 h4 h5 => simp only [measure, unfinished, h2, Option.toList, List.length_cons, List.length_nil]; omega
  | raise k h1 h2 h3 h4 =>
    simp only [measure, unfinished, h2, Option.toList, List.length_cons, List.length_nil]
    split <;> omega
  | toDrain h1 h2 h3 h4 h5 => simp only [measure, unfinished, h1]; omega
  | finishMain h1 h2 h3 => simp only [measure, unfinished, h1]; omega
  | cancel =>
    cases hcc : s.cancelled with
    | false => have := hc.1; simp [hcc] at this
    | true => exact absurd rfl (hc.2 hcc)

/-- C12: every step except a repeated cancellation brings the end nearer: no execution is infinite. -/
theorem steps_decrease {E : Env} {s s' : St} (h : Reach E s) (st : Step E s s') (hc : s'.cancelled = s.cancelled ∧ (s.cancelled = true → s' ≠ { s with done := true, cancelled := true })) : measure E s' < measure E s :=
  steps_decrease_inv (inv_reach h) st hc

/-- C12: as long as the iteration is not over there is something that can happen besides a cancellation: with a cluster that finishes its tasks there is no deadlock. -/
theorem no_deadlock {E : Env} {s : St} (h : Reach E s) (hm : s.main = .loop ∨ s.main = .drain) : ∃ s', Step E s s' ∧ s'.cancelled = s.cancelled ∧ measure E s' < measure E s := by
  have I := inv_reach h
  have go : ∀ s', Step E s s' → s'.cancelled = s.cancelled → s' ≠ { s with done := true, cancelled := true } → ∃ s', Step E s s' ∧ s'.cancelled = s.cancelled ∧ measure E s' < measure E s :=
    fun s' st hc hne => ⟨s', st, hc, steps_decrease h st ⟨hc, fun _ => hne⟩⟩
  -- an unfinished task can finish
  by_cases hun : ∃ k, k < s.submitted ∧ k ∉ s.finished
  · obtain ⟨k, hk1, hk2⟩ := hun
    exact go _ (.finish s k hk1 hk2) rfl (by intro hc; have := congrArg (fun x => x.finished.length) hc; simp at this)
  · have hall : ∀ k, k < s.submitted → k ∈ s.finished := by
      intro k hk
      by_cases hf : k ∈ s.finished
      · exact hf
      · exact absurd ⟨k, hk, hf⟩ hun
    by_cases hin : s.inflight = true
    · exact go _ (.submit s hin) rfl (by intro hc; have := congrArg St.inflight hc; simp [hin] at this)
    · have hin' : s.inflight = false := by simpa using hin
      have hnr : s.main ≠ .raised := by rcases hm with hm | hm <;> rw [hm] <;> simp
      have hperm := I.perm hnr
      cases hw : s.waiting with
      | some k =>
        have hk : k < s.submitted := by
          have : k ∈ List.range s.submitted := hperm.subset (by simp [hw])
          simpa using this
        by_cases hr : E.raises k = true ∨ ¬ k < E.n
        · exact go _ (.raise s k hm hw (hall k hk) hr) rfl (by intro hc; have := congrArg St.waiting hc; simp [hw] at this)
        · have hr1 : E.raises k = false := by
            cases he : E.raises k with
            | false => rfl
            | true => exact absurd (.inl he) hr
          have hr2 : k < E.n := Decidable.not_not.1 (fun hc => hr (.inr hc))
          exact go _ (.yield s k hm hw (hall k hk) hr1 hr2) rfl (by intro hc; have := congrArg St.waiting hc; simp [hw] at this)
      | none =>
        cases ho : s.outst with
        | cons k r =>
          have hk : k < s.submitted := by
            have : k ∈ List.range s.submitted := hperm.subset (by simp [ho])
            simpa using this
          by_cases hord : E.ordered = true
          · exact go _ (.pop s k r hm hord hw ho) rfl (by intro hc; have := congrArg St.waiting hc; simp [hw] at this)
          · exact go _ (.popAny s k hm (by simpa using hord) hw (by rw [ho]; simp) (hall k hk)) rfl (by intro hc; have := congrArg St.waiting hc; simp [hw] at this)
        | nil =>
          rcases hm with hm | hm
          · -- in the loop, nothing outstanding
            by_cases ht : 0 < s.tokens
            · by_cases hd : s.done = true
              · exact go _ (.skip s ht hin' hd) rfl (by intro hc; have := congrArg St.tokens hc; simp at this; omega)
              · have hd' : s.done = false := by simpa using hd
                by_cases hn : s.taken < E.n
                · exact go _ (.take s ht hin' hd' hn) rfl (by intro hc; have := congrArg St.taken hc; simp at this)
                · cases htl : E.tail with
                  | false => exact go _ (.stop s ht hin' hd' hn htl) rfl (by intro hc; have := congrArg St.tokens hc; simp at this; omega)
                  | true => exact go _ (.fail s ht hin' hd' hn htl) rfl (by intro hc; have := congrArg St.tokens hc; simp at this; omega)
            · by_cases hd : s.done = true
              · exact go _ (.toDrain s hm hd hw (by omega) hin') rfl (by intro hc; have := congrArg St.main hc; simp [hm] at this)
              · -- no call waits although everything is finished: impossible
                exfalso
                have hd' : s.done = false := by simpa using hd
                exact hd (slots h hm hd' hin' (by omega) hall)
          · exact go _ (.finishMain s hm ho hw) rfl (by intro hc; have := congrArg St.main hc; simp [hm] at this)

/-! ### a concrete run, and a violation -/

/-- three inputs, two at a time, unordered: task 1 finishes and is yielded first -/
def exE : Env := { n := 3, tail := false, max := 2, ordered := false, raises := fun _ => false }

example : ∃ s, Reach exE s ∧ s.main = .ended ∧ s.cancelled = false ∧ s.yielded = [1, 0, 2] := by
  have r := Reach.init (E := exE)
  have r := r.step (.take _ (by decide) rfl rfl (by decide))
  have r := r.step (.submit _ rfl)
  have r := r.step (.take _ (by decide) rfl rfl (by decide))
  have r := r.step (.submit _ rfl)
  have r := r.step (.finish _ 1 (by decide) (by decide))
  have r := r.step (.popAny _ 1 (.inl rfl) rfl rfl (by decide) (by decide))
  have r := r.step (.yield _ 1 (.inl rfl) rfl (by decide) rfl (by decide))
  have r := r.step (.take _ (by decide) rfl rfl (by decide))
  have r := r.step (.submit _ rfl)
  have r := r.step (.finish _ 0 (by decide) (by decide))
  have r := r.step (.stop _ (by decide) rfl rfl (by decide) rfl)
  have r := r.step (.toDrain _ rfl rfl rfl (by decide) rfl)
  have r := r.step (.popAny _ 0 (.inr rfl) rfl rfl (by decide) (by decide))
  have r := r.step (.yield _ 0 (.inr rfl) rfl (by decide) rfl (by decide))
  have r := r.step (.finish _ 2 (by decide) (by decide))
  have r := r.step (.popAny _ 2 (.inr rfl) rfl rfl (by decide) (by decide))
  have r := r.step (.yield _ 2 (.inr rfl) rfl (by decide) rfl (by decide))
  have r := r.step (.finishMain _ rfl rfl rfl)
  exact ⟨_, r, rfl, rfl, rfl⟩

/-- C12 violated: after a task's error has been raised to the user the map may never be recorded as over. From this state on nothing but `cancel` can happen and inputs are left, so `Executor.shutdown(wait=True)`,
which waits for the maps that are not over, waits forever. -/
theorem map_outstanding_forever_violated : ∃ (E : Env) (s : St), Reach E s ∧ s.main = .raised ∧ s.done = false ∧ s.finished.length = s.submitted ∧ s.taken < E.n ∧ ∀ s', Step E s s' → s'.cancelled = true := by
  let E : Env := { n := 3, tail := false, max := 1, ordered := true, raises := fun k => k == 0 }
  have r := Reach.init (E := E)
  have r := r.step (.take _ (by decide) rfl rfl (by decide))
  have r := r.step (.submit _ rfl)
  have r := r.step (.pop _ 0 [] (.inl rfl) rfl rfl rfl)
  have r := r.step (.finish _ 0 (by decide) (by decide))
  have r := r.step (.raise _ 0 (.inl rfl) rfl (by decide) (.inl rfl))
  have r := r.step (.take _ (by decide) rfl rfl (by decide))
  have r := r.step (.submit _ rfl)
  have r := r.step (.finish _ 1 (by decide) (by decide))
  refine ⟨E, _, r, rfl, rfl, rfl, by decide, ?_⟩
  intro s' st
  cases st with
  | skip h1 h2 h3 => cases h3
  | take h1 h2 h3 h4 => exact absurd h1 (by decide)
  | stop h1 h2 h3 h4 h5 => exact absurd h1 (by decide)
  | fail h1 h2 h3 h4 h5 => exact absurd h1 (by decide)
  | submit h => cases h
  | finish k h1 h2 =>
    simp [init] at h1 h2
    omega
  | pop k r h1 h2 h3 h4 => rcases h1 with h1 | h1 <;> cases h1
  | popAny k h1 h2 h3 h4 h5 => rcases h1 with h1 | h1 <;> cases h1
  | yield k h1 h2 h3 h4 h5 => rcases h1 with h1 | h1 <;> cases h1
  | raise k h1 h2 h3 h4 => rcases h1 with h1 | h1 <;> cases h1
  | toDrain h1 h2 h3 h4 h5 => cases h1
  | finishMain h1 h2 h3 => cases h1
  | cancel => rfl

end IPP.Imap
