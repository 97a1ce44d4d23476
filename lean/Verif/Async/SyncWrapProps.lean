import Verif.Async.SyncWrap

/-!
# `_sync` methods do what the coroutine does (C101)
-/
namespace IPP.Async.SyncWrap

variable {out : Nat → Outcome}

theorem steps_induct {P : St → Prop} {s t : St} {ls : List Lbl}
    (hs : Steps out s ls t) (h0 : P s) (hstep : ∀ s l t, P s → Step out s l t → P t) : P t := by
  induction hs with
  | nil s => exact h0
  | cons s t u l ls h _ ih => exact ih (hstep s l t h0 h)

/-! ## What a call gives -/

structure Inv1 (out : Nat → Outcome) (s : St) : Prop where
  fut : ∀ i r, s.future i = some r → toFuture (out i) = some r
  res : ∀ i r, s.pc i = .done r → toFuture (out i) = some r

theorem inv1_step {s t : St} {l : Lbl} (h : Inv1 out s) (hs : Step out s l t) : Inv1 out t := by
  obtain ⟨h1, h2⟩ := h
  cases hs <;> constructor <;> grind [upd]

theorem inv1_reach {s : St} (h : Reach out s) : Inv1 out s := by
  obtain ⟨ls, h⟩ := h
  exact steps_induct h ⟨by simp [init], by simp [init]⟩ (fun _ _ _ => inv1_step)

/-- How often the coroutine of call `i` stands in the queues. -/
def queued (s : St) (i : Nat) : Nat := s.queue.countP (fun p => p.2 == .run i)

/-- Call `i` has handed its coroutine over. -/
def handed (s : St) (i : Nat) : Nat :=
  match s.pc i with
  | .inResult => 1
  | .done _ => 1
  | _ => 0

structure Inv2 (s : St) : Prop where
  once : ∀ i, s.runs i + queued s i = handed s i
  begun : ∀ i, s.coro i ≠ .notBegun → s.runs i = 1
  notBegun : ∀ i, s.coro i = .notBegun → s.runs i = 0 ∧ s.future i = none
  ended : ∀ i, s.coro i = .ended → s.future i = toFuture (out i)
  res : ∀ i r, s.pc i = .done r → s.coro i = .ended
  fut : ∀ i, s.future i ≠ none → s.coro i = .ended

theorem inv2_step {s t : St} {l : Lbl} (h : Inv2 (out := out) s) (hs : Step out s l t) :
    Inv2 (out := out) t := by
  obtain ⟨h1, h2, h3, h4, h5, h6⟩ := h
  cases hs <;> constructor <;> grind [upd, queued, handed]

theorem inv2_reach {s : St} (h : Reach out s) : Inv2 (out := out) s := by
  obtain ⟨ls, h⟩ := h
  exact steps_induct h (by constructor <;> simp [init, queued, handed])
    (fun _ _ _ => inv2_step)

/-- The loop of thread `k` is there. -/
def hasLoop (s : St) (k : Nat) : Prop := s.thread k = .loopMade ∨ s.thread k = .running

structure Inv3 (s : St) : Prop where
  fresh : ∀ k, s.threads ≤ k → s.thread k = .created
  loop : ∀ k, s.threadLoop = some k → hasLoop s k
  inQueue : ∀ p ∈ s.queue, hasLoop s p.1
  coro : ∀ i k, s.coro i = .begun k → s.thread k = .running
  event : ∀ k, s.asyncThread = some k → s.loopStarted ≠ none
  event2 : ∀ k, s.thread k ≠ .created → s.asyncThread ≠ none
  event3 : ∀ i, s.pc i = .eventMade → s.loopStarted ≠ none
  thread : ∀ i, s.pc i = .threadMade → s.asyncThread ≠ none
  old : ∀ k, s.asyncThread = some k → k < s.threads

theorem inv3_step {s t : St} {l : Lbl} (h : Inv3 s) (hs : Step out s l t) : Inv3 t := by
  obtain ⟨h1, h2, h3, h4, h5, h6, h7, h8, h9⟩ := h
  have hsub : ∀ (pre post : List (Nat × Cb)) (x : Nat × Cb),
      s.queue = pre ++ x :: post → ∀ p ∈ pre ++ post, hasLoop s p.1 := by
    intro pre post x hq p hp
    refine h3 p ?_
    rw [hq]
    grind
  cases hs
  case doSet k e pre post h hb hq hpre =>
    have := hsub pre post _ hq
    constructor <;> grind [upd, hasLoop]
  case doRun k i pre post h hb hq hpre =>
    have := hsub pre post _ hq
    constructor <;> grind [upd, hasLoop]
  all_goals constructor <;> grind [upd, hasLoop]

theorem inv3_reach {s : St} (h : Reach out s) : Inv3 s := by
  obtain ⟨ls, h⟩ := h
  exact steps_induct h (by constructor <;> simp [init]) (fun _ _ _ => inv3_step)

/-- **A call gives what its own coroutine does**, whatever other calls are made at the same
time by whatever threads: the value that it returns or the `Exception` that it raises. -/
theorem call_own_result {s : St} (h : Reach out s) {i : Nat} {r : Res} (hd : s.pc i = .done r) :
    (∃ v, out i = .ret v ∧ r = .value v) ∨ (∃ e, out i = .exc e ∧ r = .raised e) := by
  have := (inv1_reach h).res i r hd
  cases ho : out i <;> simp [ho, toFuture] at this
  · exact Or.inl ⟨_, rfl, this.symm⟩
  · exact Or.inr ⟨_, rfl, this.symm⟩

/-- It is the same as without a running loop. -/
theorem same_both_ways {s : St} (h : Reach out s) {i : Nat} {r : Res} (hd : s.pc i = .done r) :
    asyncioRun (out i) = some r := by
  rcases call_own_result h hd with ⟨v, h1, h2⟩ | ⟨e, h1, h2⟩ <;> simp [h1, h2, asyncioRun]

/-- The coroutine of a call is begun at most once, and exactly once when the call returns;
then it has ended. -/
theorem call_runs_once {s : St} (h : Reach out s) (i : Nat) :
    s.runs i ≤ 1 ∧ (∀ r, s.pc i = .done r → s.runs i = 1 ∧ s.coro i = .ended) := by
  have inv := inv2_reach h
  have h1 := inv.once i
  have h2 : handed s i ≤ 1 := by
    unfold handed
    cases s.pc i <;> simp
  refine ⟨by omega, fun r hr => ?_⟩
  have h3 := inv.res i r hr
  exact ⟨inv.begun i (by rw [h3]; simp), h3⟩

/-- No coroutine runs of a call that raised an error of its own (or has not come so far). -/
theorem failed_runs_nothing {s : St} (h : Reach out s) (i : Nat) (e : Err)
    (hf : s.pc i = .failed e) : s.runs i = 0 ∧ s.coro i = .notBegun := by
  have inv := inv2_reach h
  have h1 := inv.once i
  have h2 : handed s i = 0 := by simp [handed, hf]
  have h3 : s.runs i = 0 := by omega
  refine ⟨h3, ?_⟩
  by_cases hc : s.coro i = .notBegun
  · exact hc
  · have := inv.begun i hc
    omega

/-! ## No error once the thread is there -/

structure Calm (i : Nat) (s : St) : Prop where
  inv : Inv3 s
  loop : s.threadLoop ≠ none
  pc : s.pc i = .idle ∨ s.pc i = .ready ∨ s.pc i = .inResult ∨ ∃ r, s.pc i = .done r

theorem calm_step {i : Nat} {s t : St} {l : Lbl} (h : Calm i s) (hs : Step out s l t) :
    Calm i t := by
  refine ⟨inv3_step h.inv hs, ?_, ?_⟩
  · have := h.loop
    cases hs <;> grind [upd]
  · obtain ⟨h0, h1, h2⟩ := h
    have h4 : s.asyncThread ≠ none := by
      cases hl : s.threadLoop with
      | none => exact absurd hl h1
      | some k =>
        have := h0.loop k hl
        exact h0.event2 k (by rcases this with h | h <;> rw [h] <;> simp)
    cases hs <;> grind [upd]

/-- A call made after some call has found the loop there never fails by itself. -/
theorem no_error_later {s t : St} {ls : List Lbl} (h : Reach out s) {i : Nat}
    (hi : s.pc i = .idle) (hl : s.threadLoop ≠ none) (hs : Steps out s ls t) (e : Err) :
    t.pc i ≠ .failed e := by
  have hc : Calm i t :=
    steps_induct hs (P := Calm i) ⟨inv3_reach h, hl, Or.inl hi⟩ (fun _ _ _ => calm_step)
  rcases hc.pc with h | h | h | ⟨r, h⟩ <;> rw [h] <;> simp

/-! ## Calls one after the other -/

/-- The call is being made. -/
def PC.busy : PC → Bool
  | .idle => false
  | .done _ => false
  | .failed _ => false
  | _ => true

/-- Steps in which a call is begun only when no other is being made, and in which the
background thread starts within the five seconds. -/
inductive Serial (out : Nat → Outcome) : St → St → Prop
  | nil (s : St) : Serial out s s
  | step (s t u : St) (l : Lbl) (hs : Serial out s t) (h : Step out t l u)
      (hb : ∀ i, l = .begin i → ∀ j, j ≠ i → (t.pc j).busy = false)
      (hc : ∀ i k, l ≠ .beginInside i k)
      (ht : ∀ i, l ≠ .timeout i) : Serial out s u

/-- The thread is being started by call `i`. -/
def PC.starting : PC → Bool
  | .threadMade => true
  | .threadStarted => true
  | .waiting _ => true
  | _ => false

structure SInv (s : St) : Prop where
  inv : Inv3 s
  one : ∀ i j, (s.pc i).busy = true → (s.pc j).busy = true → i = j
  seen : ∀ i, s.pc i = .seenNone → s.asyncThread = none
  event : ∀ i, s.pc i = .eventMade → s.asyncThread = none
  made : ∀ i k, s.pc i = .threadMade → s.asyncThread = some k → s.thread k = .created
  ready : ∀ i, s.pc i = .ready → s.threadLoop ≠ none
  set : ∀ e, s.isSet e = true → s.threadLoop ≠ none
  running : ∀ k, s.thread k = .loopMade ∨ s.thread k = .running → s.threadLoop ≠ none
  settled : s.asyncThread ≠ none → s.threadLoop = none → ∃ i, (s.pc i).starting = true
  good : ∀ i e, s.pc i ≠ .failed e

theorem busy_of_starting (p : PC) (h : p.starting = true) : p.busy = true := by
  cases p <;> simp_all [PC.starting, PC.busy]

theorem sinv_step {s t : St} {l : Lbl} (h : SInv s) (hs : Step out s l t)
    (hb : ∀ i, l = .begin i → ∀ j, j ≠ i → (s.pc j).busy = false)
    (hc : ∀ i k, l ≠ .beginInside i k) (ht : ∀ i, l ≠ .timeout i) : SInv t := by
  obtain ⟨h0, h1, h2, h3, h4, h5, h6, h7, h8, h9⟩ := h
  have hinv := inv3_step h0 hs
  have hbs := busy_of_starting
  cases hs
  case begin i h =>
    have hb' := hb i rfl
    have hset : s.asyncThread ≠ none → s.threadLoop ≠ none := by
      intro h10 h11
      obtain ⟨j, hj⟩ := h8 h10 h11
      by_cases hji : j = i
      · rw [hji, h] at hj
        simp [PC.starting] at hj
      · have h12 := hb' j hji
        rw [hbs _ hj] at h12
        simp at h12
    refine ⟨hinv, ?_, ?_, ?_, ?_, ?_, ?_, ?_, ?_, ?_⟩
    case refine_1 =>
      intro a b ha hb2
      have key : ∀ c, (upd s.pc i (if s.asyncThread = none then PC.seenNone else PC.ready) c).busy
          = true → c = i := by
        intro c hc
        by_cases hci : c = i
        · exact hci
        · simp only [upd, hci, if_false] at hc
          rw [hb' c hci] at hc
          simp at hc
      rw [key a ha, key b hb2]
    all_goals grind [upd, PC.busy, PC.starting]
  case newThread i h =>
    refine ⟨hinv, ?_, ?_, ?_, ?_, ?_, ?_, ?_, ?_, ?_⟩
    case refine_8 => exact fun _ _ => ⟨i, by simp [upd, PC.starting]⟩
    all_goals grind [upd, PC.busy, PC.starting]
  case start i k h hk hn =>
    refine ⟨hinv, ?_, ?_, ?_, ?_, ?_, ?_, ?_, ?_, ?_⟩
    case refine_8 => exact fun _ _ => ⟨i, by simp [upd, PC.starting]⟩
    all_goals grind [upd, PC.busy, PC.starting]
  case wait i e h he =>
    refine ⟨hinv, ?_, ?_, ?_, ?_, ?_, ?_, ?_, ?_, ?_⟩
    case refine_8 => exact fun _ _ => ⟨i, by simp [upd, PC.starting]⟩
    all_goals grind [upd, PC.busy, PC.starting]
  all_goals
    refine ⟨hinv, ?_, ?_, ?_, ?_, ?_, ?_, ?_, ?_, ?_⟩
  all_goals grind [upd, PC.busy, PC.starting]

/-- Calls made one after the other never fail by themselves, if the background thread starts
within five seconds. -/
theorem no_error_serial {s : St} (h : Serial out init s) (i : Nat) (e : Err) :
    s.pc i ≠ .failed e := by
  suffices hS : SInv s from hS.good i e
  have h0 : SInv init := by
    constructor
    · exact inv3_reach (out := out) ⟨[], .nil _⟩
    all_goals simp [init, PC.busy]
  induction h with
  | nil => exact h0
  | step t u l hs h hb hc ht ih => exact sinv_step ih h hb hc ht

/-! ## Calls come to an end -/

/-- No call waits inside a background thread. -/
def Free (s : St) : Prop := ∀ k, s.blockedBy k = none

theorem free_step {s t : St} {l : Lbl} (h : Free s) (hs : Step out s l t)
    (hc : ∀ i k, l ≠ .beginInside i k) : Free t := by
  unfold Free at *
  cases hs <;> grind

theorem steps_append {s t u : St} {l1 l2 : List Lbl} (h1 : Steps out s l1 t)
    (h2 : Steps out t l2 u) : Steps out s (l1 ++ l2) u := by
  induction h1 with
  | nil => exact h2
  | cons s t u' l ls h _ ih => exact .cons _ _ _ _ _ h (ih h2)

/-- Where the coroutine of a call in `future.result()` is. -/
structure Where (out : Nat → Outcome) (s : St) : Prop where
  place : ∀ i, s.pc i = .inResult →
    (∃ k, (k, Cb.run i) ∈ s.queue) ∨ (∃ k, s.coro i = .begun k) ∨ s.coro i = .ended

theorem where_step {s t : St} {l : Lbl} (h : Where out s) (hs : Step out s l t) :
    Where out t := by
  obtain ⟨h⟩ := h
  constructor
  intro j hj
  by_cases hold : s.pc j = .inResult
  · rcases h j hold with ⟨k, hk⟩ | ⟨k, hk⟩ | hk
    · cases hs
      case doSet k' e pre post h1 hb hq hpre =>
        left
        rw [hq] at hk
        refine ⟨k, ?_⟩
        simp at hk ⊢
        exact hk
      case doRun k' i pre post h1 hb hq hpre =>
        by_cases hij : j = i
        · right; left
          exact ⟨k', by simp [upd, hij]⟩
        · left
          rw [hq] at hk
          refine ⟨k, ?_⟩
          simp [hij] at hk ⊢
          exact hk
      all_goals
        left
        exact ⟨k, by simp [hk]⟩
    · right
      cases hs <;> grind [upd]
    · right
      cases hs <;> grind [upd]
  · cases hs
    case add i k h1 hk =>
      by_cases hij : j = i
      · left
        exact ⟨k, by simp [hij]⟩
      · simp [upd, hij] at hj
        exact absurd hj hold
    all_goals grind [upd]

theorem where_reach {s : St} (h : Reach out s) : Where out s := by
  obtain ⟨ls, h⟩ := h
  exact steps_induct h ⟨by simp [init]⟩ (fun _ _ _ => where_step)

theorem reach_step {s t : St} {l : Lbl} (h : Reach out s) (hs : Step out s l t) :
    Reach out t := by
  obtain ⟨ls, h⟩ := h
  exact ⟨ls ++ [l], steps_append h (.cons _ _ _ _ _ hs (.nil _))⟩

/-- `i` can come to its end with `r` without any new call. -/
def CanEnd (out : Nat → Outcome) (s : St) (i : Nat) (r : Res) : Prop :=
  ∃ ls t, Steps out s ls t ∧ (∀ l ∈ ls, l = .other) ∧ t.pc i = .done r

theorem canEnd_cons {s t : St} {i : Nat} {r : Res} (hs : Step out s .other t)
    (h : CanEnd out t i r) : CanEnd out s i r := by
  obtain ⟨ls, u, h1, h2, h3⟩ := h
  refine ⟨.other :: ls, u, .cons _ _ _ _ _ hs h1, ?_, h3⟩
  intro l hl
  cases hl with
  | head => rfl
  | tail _ hl => exact h2 l hl

theorem end_of_future {s : St} {i : Nat} {r : Res} (hp : s.pc i = .inResult)
    (hf : s.future i = some r) : CanEnd out s i r :=
  canEnd_cons (.result s i r hp hf) ⟨[], _, .nil _, by simp, by simp [upd]⟩

theorem end_of_begun {s : St} (hfree : Free s) {i k : Nat} {r : Res}
    (hp : s.pc i = .inResult) (ho : toFuture (out i) = some r) (hc : s.coro i = .begun k) :
    CanEnd out s i r := by
  have hn : out i ≠ .never := by
    intro h
    rw [h] at ho
    simp [toFuture] at ho
  exact canEnd_cons (.finish s i k hc (hfree k) hn)
    (end_of_future (by exact hp) (by simp [upd, ho]))

theorem first_split (k : Nat) : ∀ (pre : List (Nat × Cb)), (∃ p ∈ pre, p.1 = k) →
    ∃ a c b, pre = a ++ (k, c) :: b ∧ ∀ p ∈ a, p.1 ≠ k
  | [], h => by simp at h
  | (k', c) :: pre, h => by
    by_cases hk : k' = k
    · exact ⟨[], c, pre, by simp [hk], by simp⟩
    · have : ∃ p ∈ pre, p.1 = k := by
        obtain ⟨p, hp, he⟩ := h
        cases hp with
        | head => exact absurd he hk
        | tail _ hp => exact ⟨p, hp, he⟩
      obtain ⟨a, c', b, h1, h2⟩ := first_split k pre this
      refine ⟨(k', c) :: a, c', b, by simp [h1], ?_⟩
      intro p hp
      cases hp with
      | head => exact hk
      | tail _ hp => exact h2 p hp

theorem end_of_queued : ∀ (n : Nat) (s : St) (i k : Nat) (r : Res)
    (pre post : List (Nat × Cb)), pre.length ≤ n → Free s → s.pc i = .inResult →
    toFuture (out i) = some r → s.thread k = .running →
    s.queue = pre ++ (k, .run i) :: post → CanEnd out s i r := by
  intro n
  induction n with
  | zero =>
    intro s i k r pre post hn hfree hp ho ht hq
    have : pre = [] := List.eq_nil_of_length_eq_zero (by omega)
    subst this
    refine canEnd_cons (.doRun s k i [] post ht (hfree k) hq (by simp)) ?_
    refine end_of_begun (k := k) (by exact hfree) (by exact hp) ho ?_
    simp [upd]
  | succ n ih =>
    intro s i k r pre post hn hfree hp ho ht hq
    by_cases hk : ∃ p ∈ pre, p.1 = k
    · obtain ⟨a, c, b, h1, h2⟩ := first_split k pre hk
      subst h1
      have hq' : s.queue = a ++ (k, c) :: (b ++ (k, .run i) :: post) := by rw [hq]; simp
      have hlen : (a ++ b).length ≤ n := by
        simp only [List.length_append, List.length_cons] at hn ⊢
        omega
      cases c with
      | setEvent e =>
        refine canEnd_cons (.doSet s k e a _ ht (hfree k) hq' h2) ?_
        exact ih _ i k r (a ++ b) post hlen hfree hp ho ht (by simp)
      | run j =>
        refine canEnd_cons (.doRun s k j a _ ht (hfree k) hq' h2) ?_
        exact ih _ i k r (a ++ b) post hlen hfree hp ho ht (by simp)
    · refine canEnd_cons (.doRun s k i pre post ht (hfree k) hq ?_) ?_
      · intro p hp' he
        exact hk ⟨p, hp', he⟩
      · refine end_of_begun (k := k) (by exact hfree) (by exact hp) ho ?_
        simp [upd]

/-- **A call whose coroutine returns or raises an `Exception` can come to its end**, at every
time and with its own result, as long as no call waits inside the background thread; no
further call is needed. -/
theorem call_can_end {s : St} (h : Reach out s) (hfree : Free s) {i : Nat} {r : Res}
    (hp : s.pc i = .inResult) (ho : toFuture (out i) = some r) : CanEnd out s i r := by
  have i2 := inv2_reach h
  have i3 := inv3_reach h
  rcases (where_reach h).place i hp with ⟨k, hk⟩ | ⟨k, hk⟩ | hk
  · obtain ⟨pre, post, hq⟩ := List.append_of_mem hk
    rcases i3.inQueue _ hk with ht | ht
    · have ha := i3.event2 k (by rw [ht]; simp)
      cases hat : s.asyncThread with
      | none => exact absurd hat ha
      | some k2 =>
        cases he : s.loopStarted with
        | none => exact absurd he (i3.event k2 hat)
        | some e =>
          refine canEnd_cons (.runLoop s k e ht he) ?_
          exact end_of_queued _ _ i k r pre (post ++ [(k, .setEvent e)]) (Nat.le_refl _)
            hfree hp ho (by simp [upd]) (by simp [hq])
    · exact end_of_queued _ _ i k r pre post (Nat.le_refl _) hfree hp ho ht hq
  · exact end_of_begun hfree hp ho hk
  · have := i2.ended i hk
    exact end_of_future hp (by rw [this, ho])

/-- Without calls from inside the background thread nothing ever waits inside it. -/
theorem free_always {s t : St} {ls : List Lbl} (h : Free s) (hs : Steps out s ls t)
    (hc : ∀ l ∈ ls, ∀ i k, l ≠ .beginInside i k) : Free t := by
  induction hs with
  | nil => exact h
  | cons s t u l ls hst _ ih =>
    exact ih (free_step h hst (hc l (by simp))) (fun l' hl => hc l' (by simp [hl]))

/-! ## Runs -/

/-- The first call up to its coroutine running in the loop of the background thread. -/
theorem first_call_runs (out : Nat → Outcome) : ∃ s, Reach out s ∧ Free s ∧
    s.asyncThread = some 0 ∧ s.threadLoop = some 0 ∧ s.thread 0 = .running ∧
    s.coro 0 = .begun 0 ∧ s.pc 0 = .inResult ∧
    s.queue = [] ∧
    ∀ i, i ≠ 0 → s.pc i = .idle ∧ s.coro i = .notBegun ∧ s.future i = none := by
  refine ⟨_, ⟨_, .cons _ _ _ _ _ (.begin init 0 ?_) (.cons _ _ _ _ _ (.newEvent _ 0 ?_)
    (.cons _ _ _ _ _ (.newThread _ 0 ?_) (.cons _ _ _ _ _ (.start _ 0 0 ?_ ?_ ?_)
    (.cons _ _ _ _ _ (.wait _ 0 0 ?_ ?_) (.cons _ _ _ _ _ (.makeLoop _ 0 ?_)
    (.cons _ _ _ _ _ (.runLoop _ 0 0 ?_ ?_)
    (.cons _ _ _ _ _ (.doSet _ 0 0 [] [] ?_ ?_ ?_ ?_)
    (.cons _ _ _ _ _ (.woken _ 0 0 ?_ ?_) (.cons _ _ _ _ _ (.add _ 0 0 ?_ ?_)
    (.cons _ _ _ _ _ (.doRun _ 0 0 [] [] ?_ ?_ ?_ ?_) (.nil _)))))))))))⟩,
    ?_, ?_, ?_, ?_, ?_, ?_, ?_, ?_⟩
  all_goals first
    | rfl
    | (simp [upd, init, Free]; done)
    | (intro i hi; simp [upd, init, hi])

/-- So it can come to its end, and later calls never fail: the theorems above speak about
it. -/
theorem first_call_good (out : Nat → Outcome) (v : Nat) (h : out 0 = .ret v) :
    ∃ s, Reach out s ∧ CanEnd out s 0 (.value v) ∧ s.threadLoop ≠ none ∧ s.pc 1 = .idle := by
  obtain ⟨s, h1, h2, _, h3, _, _, h4, _, h5⟩ := first_call_runs out
  exact ⟨s, h1, call_can_end h1 h2 h4 (by rw [h]; rfl), by rw [h3]; simp, (h5 1 (by simp)).1⟩

/-! ## What does not hold -/

/-- A coroutine that ends with an exception that is no `Exception`, such as
`asyncio.CancelledError`, ends the call without a running loop; with one, the call never
returns: whatever happens, the caller waits in `future.result()` for ever. -/
theorem cancelled_hangs_violated (i e : Nat) (ho : out i = .base e) :
    asyncioRun (out i) = some (.raisedBase e) ∧
      ∀ s r, Reach out s → s.pc i ≠ .done r := by
  refine ⟨by rw [ho]; rfl, ?_⟩
  intro s r h hd
  rcases call_own_result h hd with ⟨v, h1, _⟩ | ⟨e', h1, _⟩ <;> rw [ho] at h1 <;> simp at h1

/-- Call `i`, made inside the loop of thread `k`, waits there for its own coroutine. -/
structure Stuck (k i : Nat) (s : St) : Prop where
  blocked : s.blockedBy k = some i
  pc : s.pc i = .inResult
  future : s.future i = none
  coro : s.coro i = .notBegun
  queue : ∀ k', (k', Cb.run i) ∈ s.queue → k' = k

/-- Call `j` depends on the loop of thread `k`. -/
structure Victim (k j : Nat) (s : St) : Prop where
  pc : s.pc j = .inResult
  future : s.future j = none
  coro : s.coro j = .begun k ∨ s.coro j = .notBegun
  queue : ∀ k', (k', Cb.run j) ∈ s.queue → k' = k

theorem stuck_step {k i : Nat} {s t : St} {l : Lbl} (h : Stuck k i s) (hs : Step out s l t) :
    Stuck k i t := by
  obtain ⟨h1, h2, h3, h4, h5⟩ := h
  cases hs <;> constructor <;> grind [upd]

theorem victim_step {k i j : Nat} {s t : St} {l : Lbl} (h : Stuck k i s) (hv : Victim k j s)
    (hs : Step out s l t) : Victim k j t := by
  obtain ⟨h1, h2, h3, h4, h5⟩ := h
  obtain ⟨v1, v2, v3, v4⟩ := hv
  cases hs <;> constructor <;> grind [upd]

/-- A `_sync` method called by code that runs in the background thread waits for ever, and so
does every other call that depends on this thread. -/
theorem inside_deadlock {k i : Nat} {s t : St} {ls : List Lbl} (h : Stuck k i s)
    (hs : Steps out s ls t) :
    (∀ r, t.pc i ≠ .done r) ∧
      ∀ j, Victim k j s → ∀ r, t.pc j ≠ .done r := by
  have hi : Stuck k i t := steps_induct hs h (fun _ _ _ => stuck_step)
  refine ⟨fun r hr => by rw [hi.pc] at hr; simp at hr, ?_⟩
  intro j hv r hr
  have := steps_induct hs (P := fun s => Stuck k i s ∧ Victim k j s) ⟨h, hv⟩
    (fun _ _ _ h hs => ⟨stuck_step h.1 hs, victim_step h.1 h.2 hs⟩)
  rw [this.2.pc] at hr
  simp at hr

/-- It happens: the coroutine of the first call calls another `_sync` method. Neither
returns, although both coroutines would. -/
theorem inside_deadlock_violated (out : Nat → Outcome) : ∃ s, Reach out s ∧
    ∀ ls t, Steps out s ls t → (∀ r, t.pc 0 ≠ .done r) ∧ (∀ r, t.pc 1 ≠ .done r) := by
  obtain ⟨s, hr, hf, ha, hl, ht, hc, hp, hq, ho⟩ := first_call_runs out
  obtain ⟨o1, o2, o3⟩ := ho 1 (by simp)
  have f0 : s.future 0 = none := by
    have := (inv2_reach hr).fut 0
    by_cases h : s.future 0 = none
    · exact h
    · rw [hc] at this
      simp at this
      exact this
  have st1 := Step.beginInside (out := out) s 1 0 0 o1 hc (hf 0)
  rw [if_neg (by rw [ha]; simp)] at st1
  have st2 := Step.add (out := out)
    { s with pc := upd s.pc 1 .ready, blockedBy := upd s.blockedBy 0 (some 1) } 1 0
    (by simp [upd]) hl
  refine ⟨_, reach_step (reach_step hr st1) st2, ?_⟩
  intro ls t hs
  have hd := inside_deadlock (k := 0) (i := 1) (h := ?_) hs
  rotate_left
  · refine ⟨?_, ?_, o3, o2, ?_⟩
    · simp [upd]
    · simp [upd]
    · simp [hq]
  refine ⟨hd.2 0 ⟨?_, f0, Or.inl hc, by simp [hq]⟩, hd.1⟩
  simp [upd, hp]

/-- The first two calls at the same time: the second sees `_async_thread` before the thread
has made its loop, and fails with AttributeError. -/
theorem first_calls_race_violated (out : Nat → Outcome) :
    ∃ s, Reach out s ∧ s.pc 1 = .failed .noThreadLoop := by
  refine ⟨_, ⟨_, .cons _ _ _ _ _ (.begin init 0 ?_) (.cons _ _ _ _ _ (.newEvent _ 0 ?_)
    (.cons _ _ _ _ _ (.newThread _ 0 ?_) (.cons _ _ _ _ _ (.begin _ 1 ?_)
    (.cons _ _ _ _ _ (.addFails _ 1 ?_ ?_) (.nil _)))))⟩, ?_⟩
  all_goals first
    | rfl
    | (simp [upd, init]; done)

/-- Or both see that there is no thread, both make one, and both start the same: the second
fails with RuntimeError. -/
theorem first_calls_twice_violated (out : Nat → Outcome) :
    ∃ s, Reach out s ∧ s.pc 1 = .failed .startedTwice := by
  refine ⟨_, ⟨_, .cons _ _ _ _ _ (.begin init 0 ?_) (.cons _ _ _ _ _ (.begin _ 1 ?_)
    (.cons _ _ _ _ _ (.newEvent _ 0 ?_) (.cons _ _ _ _ _ (.newEvent _ 1 ?_)
    (.cons _ _ _ _ _ (.newThread _ 0 ?_) (.cons _ _ _ _ _ (.newThread _ 1 ?_)
    (.cons _ _ _ _ _ (.start _ 0 1 ?_ ?_ ?_) (.cons _ _ _ _ _ (.startTwice _ 1 1 ?_ ?_ ?_)
    (.nil _))))))))⟩, ?_⟩
  all_goals first
    | rfl
    | (simp [upd, init]; done)

/-- A thread that needs more than five seconds to start: a single call fails. -/
theorem slow_start_violated (out : Nat → Outcome) :
    ∃ s, Reach out s ∧ s.pc 0 = .failed .noThreadLoop := by
  refine ⟨_, ⟨_, .cons _ _ _ _ _ (.begin init 0 ?_) (.cons _ _ _ _ _ (.newEvent _ 0 ?_)
    (.cons _ _ _ _ _ (.newThread _ 0 ?_) (.cons _ _ _ _ _ (.start _ 0 0 ?_ ?_ ?_)
    (.cons _ _ _ _ _ (.wait _ 0 0 ?_ ?_) (.cons _ _ _ _ _ (.timedOut _ 0 0 ?_)
    (.cons _ _ _ _ _ (.addFails _ 0 ?_ ?_) (.nil _)))))))⟩, ?_⟩
  all_goals first
    | rfl
    | (simp [upd, init]; done)

/-! ## The names -/

theorem stem_iff (name n : List Char) : stem name = some n ↔ name = n ++ "_sync".toList := by
  unfold stem
  constructor
  · intro h
    by_cases hd : name.drop (name.length - 5) = "_sync".toList
    · rw [if_pos hd] at h
      injection h with h
      rw [← h, ← hd, List.take_append_drop]
    · rw [if_neg hd] at h
      simp at h
  · intro h
    have hl : ("_sync".toList).length = 5 := by decide
    subst h
    have h5 : (n ++ "_sync".toList).length - 5 = n.length := by
      rw [List.length_append, hl]
      omega
    rw [h5, if_pos (by simp)]
    simp

/-- **Every coroutine method has a `_sync` method and nothing else has**: a name that is not
an ordinary attribute is the wrapper of a coroutine method exactly if it is the name of this
method followed by `_sync`; every other name raises AttributeError. -/
theorem wrapper_iff (mro : List ClassDict) (name n : String) (h : find mro name = none) :
    getAttr mro name = .wrapper n ↔ name = n ++ "_sync" ∧ find mro n = some true := by
  have key : ∀ m : List Char, stem name.toList = some m ↔ name = String.ofList m ++ "_sync" := by
    intro m
    rw [stem_iff]
    constructor
    · intro he
      apply String.toList_inj.mp
      rw [he, String.toList_append]
      simp
    · intro he
      rw [he, String.toList_append]
      simp
  unfold getAttr
  rw [h]
  simp only
  cases hs : stem name.toList with
  | none =>
    simp only
    constructor
    · intro h
      simp at h
    · rintro ⟨h1, _⟩
      have := (key n.toList).mpr (by rw [String.ofList_toList]; exact h1)
      rw [hs] at this
      simp at this
  | some m =>
    have h1 := (key m).mp hs
    simp only
    constructor
    · intro h
      cases hf : find mro (String.ofList m) with
      | none => simp [hf] at h
      | some b =>
        cases b with
        | false => simp [hf] at h
        | true =>
          simp only [hf] at h
          injection h with h
          rw [← h]
          exact ⟨h1, hf⟩
    · rintro ⟨h2, h3⟩
      have : String.ofList m = n := by
        have h4 := congrArg String.toList (h1.symm.trans h2)
        rw [String.toList_append, String.toList_append] at h4
        exact String.toList_inj.mp (List.append_cancel_right h4)
      rw [this, h3]

/-- `dir(obj)` lists exactly the `_sync` names of the coroutine methods. -/
theorem dir_exact (mro : List ClassDict) (m : String) :
    m ∈ dirSync mro [] ↔ ∃ n, m = n ++ "_sync" ∧ find mro n = some true := by
  have gen : ∀ (ds : List ClassDict) (seen : List String),
      m ∈ dirSync ds seen ↔ ∃ n, m = n ++ "_sync" ∧ n ∉ seen ∧ find ds n = some true := by
    intro ds
    induction ds with
    | nil => intro seen; simp [dirSync, find]
    | cons d ds ih =>
      intro seen
      unfold dirSync
      rw [List.mem_append, ih]
      constructor
      · rintro (h | ⟨n, h1, h2, h3⟩)
        · simp only [List.mem_map, List.mem_filter] at h
          obtain ⟨n, ⟨h1, h2⟩, h3⟩ := h
          refine ⟨n, h3.symm, by simpa using h2, ?_⟩
          unfold find
          rw [if_pos h1]
        · simp only [List.mem_append, not_or] at h2
          refine ⟨n, h1, h2.1.1, ?_⟩
          unfold find
          rw [if_neg h2.1.2, if_neg h2.2]
          exact h3
      · rintro ⟨n, h1, h2, h3⟩
        unfold find at h3
        by_cases hc : n ∈ d.coros
        · left
          simp only [List.mem_map, List.mem_filter]
          exact ⟨n, ⟨hc, by simpa using h2⟩, h1.symm⟩
        · right
          rw [if_neg hc] at h3
          by_cases ho : n ∈ d.others
          · rw [if_pos ho] at h3
            simp at h3
          · rw [if_neg ho] at h3
            exact ⟨n, h1, by simp [h2, hc, ho], h3⟩
  rw [gen]
  simp

/-- Every listed name can be used. -/
theorem dir_usable (mro : List ClassDict) (m : String) (h : m ∈ dirSync mro []) :
    getAttr mro m ≠ .attributeError := by
  obtain ⟨n, h1, h2⟩ := (dir_exact mro m).mp h
  cases hf : find mro m with
  | some b =>
    unfold getAttr
    rw [hf]
    simp
  | none =>
    rw [(wrapper_iff mro m n hf).mpr ⟨h1, h2⟩]
    simp

/-- `Cluster`: start_engines is a coroutine function, a subclass may hide one. -/
def exampleMro : List ClassDict :=
  [⟨["stop_engines"], ["start_controller"]⟩,
   ⟨["start_engines", "start_controller"], ["engines"]⟩]

example : getAttr exampleMro "start_engines_sync" = .wrapper "start_engines" ∧
    getAttr exampleMro "start_controller_sync" = .attributeError ∧
    getAttr exampleMro "engines_sync" = .attributeError ∧
    getAttr exampleMro "engines" = .plain ∧
    dirSync exampleMro [] = ["stop_engines_sync", "start_engines_sync"] := by
  decide +kernel

end IPP.Async.SyncWrap
