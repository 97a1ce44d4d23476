/-!
# C45: aborting requests on an engine — engine/kernel.py:50-68 (`should_handle`), 223-242 (`abort_request`); client.py:1725-1766 (`Client.abort`)

The engine has a queue of shell requests that have arrived, and handles control requests at once. ipykernel's `_abort_queues` (not part of the repository) is modelled by what it is for:
every request that is waiting is answered 'aborted'. Running a request is recorded, not performed.
-/
namespace IPP.Engine

/-- message ids (strings in engine/kernel.py) as numbers -/
abbrev Mid := Nat

/-- engine/kernel.py:50-67 -/
inductive Outcome where
  | ran | aborted
  deriving DecidableEq, Repr

/-- engine/kernel.py:39-48 -/
structure Kernel where
  queue : List Mid
  aborted : List Mid
  /-- requests answered so far, in order -/
  log : List (Mid × Outcome)
  /-- replies to abort requests -/
  abortReplies : Nat
  deriving DecidableEq, Repr

/-- engine/kernel.py:39-48 -/
def init : Kernel := { queue := [], aborted := [], log := [], abortReplies := 0 }

/-- engine/kernel.py:50-67, 223-239 -/
inductive Ev where
  /-- a shell request arrives -/
  | arrive (m : Mid)
  /-- an abort request; `none`: without `msg_ids` -/
  | abort (ms : Option (List Mid))
  /-- the engine takes the next request of its queue -/
  | dispatch
  deriving DecidableEq, Repr

/-- `_abort_queues` of ipykernel, see above — engine/kernel.py:236 -/
def abortQueues (k : Kernel) : Kernel := { k with log := k.log ++ k.queue.map (fun m => (m, .aborted)), queue := [] }

/-- `abort_request` — kernel.py:223-242. Without ids, `for mid in None` raises after the queues were aborted: no reply. -/
def abortRequest (k : Kernel) : Option (List Mid) → Kernel
  | none => abortQueues k
  | some [] => let k := abortQueues k; { k with abortReplies := k.abortReplies + 1 }
  | some ms => { k with aborted := k.aborted ++ ms.filter (fun m => m ∉ k.aborted), abortReplies := k.abortReplies + 1 }

/-- `should_handle` and the handler — kernel.py:50-68 -/
def dispatch (k : Kernel) : Kernel := match k.queue with
  | [] => k
  | m :: q => if m ∈ k.aborted then { k with queue := q, aborted := k.aborted.filter (fun x => x ≠ m), log := k.log ++ [(m, .aborted)] }
    else { k with queue := q, log := k.log ++ [(m, .ran)] }

/-- engine/kernel.py:50-67, 223-239 -/
def step (k : Kernel) : Ev → Kernel
  | .arrive m => { k with queue := k.queue ++ [m] }
  | .abort ms => abortRequest k ms
  | .dispatch => dispatch k

/-- the event loop of the kernel, engine/kernel.py:50-67 -/
def run (evs : List Ev) : Kernel := evs.foldl step init

/-- `Client.abort` — client.py:1743-1759: the message ids sent to the engines; `none`: all outstanding jobs of this client -/
def clientAbort (outstanding : List Mid) (jobs : Option (List Mid)) : Ev := .abort (some (jobs.getD outstanding))

/-! ## Specification vocabulary -/

/-- the requests in the order of their arrival -/
def arrivals (evs : List Ev) : List Mid := evs.filterMap (fun e => match e with
  | .arrive m => some m
  | _ => none)

/-- this event asks to abort `m` by name -/
def Names (m : Mid) : Ev → Prop
  | .abort (some ms) => m ∈ ms
  | _ => False

/-- this event asks to abort everything -/
def Blanket : Ev → Prop
  | .abort none => True
  | .abort (some []) => True
  | _ => False

/-! ## proofs -/

theorem run_snoc (evs : List Ev) (e : Ev) : run (evs ++ [e]) = step (run evs) e := by simp [run]

theorem snoc_induction {α : Type} {P : List α → Prop} (h0 : P []) (h1 : ∀ l a, P l → P (l ++ [a])) : ∀ l, P l := by
  intro l
  have : ∀ r : List α, P r.reverse := by
    intro r
    induction r with
    | nil => exact h0
    | cons a r ih => rw [List.reverse_cons]; exact h1 _ _ ih
  have := this l.reverse
  rwa [List.reverse_reverse] at this

theorem arrivals_snoc (evs : List Ev) (e : Ev) : arrivals (evs ++ [e]) = arrivals evs ++ (match e with
  | .arrive m => [m]
  | _ => []) := by
  cases e <;> simp [arrivals]

/-- C45: every request is answered at most once, in the order of arrival; those not answered are waiting. -/
theorem answered_in_order (evs : List Ev) : (run evs).log.map Prod.fst ++ (run evs).queue = arrivals evs := by
  induction evs using snoc_induction with
  | h0 => rfl
  | h1 evs e ih =>
    rw [run_snoc, arrivals_snoc, ← ih]
    generalize run evs = k
    cases e with
    | arrive m => simp [step]
    | abort ms =>
      cases ms with
      | none => simp [step, abortRequest, abortQueues, Function.comp_def]
      | some l =>
        cases l with
        | nil => simp [step, abortRequest, abortQueues, Function.comp_def]
        | cons a l => simp [step, abortRequest]
    | dispatch =>
      simp only [step, dispatch, List.append_nil]
      split
      · rfl
      · rename_i m q hq
        split <;> simp [hq]

/-- a waiting request that was named since it is known to be unanswered stays marked -/
theorem marked (evs : List Ev) (m : Mid) (hu : (arrivals evs).Nodup) (hn : ∃ e ∈ evs, Names m e) (hl : ∀ o, (m, o) ∉ (run evs).log) : m ∈ (run evs).aborted := by
  induction evs using snoc_induction with
  | h0 => simp at hn
  | h1 evs e ih =>
    have hu' : (arrivals evs).Nodup := by rw [arrivals_snoc, List.nodup_append] at hu; exact hu.1
    have hl' : ∀ o, (m, o) ∉ (run evs).log := by
      intro o ho
      apply hl o
      rw [run_snoc]
      generalize run evs = k at ho
      cases e with
      | arrive x => exact ho
      | abort ms =>
        cases ms with
        | none => simp [step, abortRequest, abortQueues, ho]
        | some l => cases l <;> simp [step, abortRequest, abortQueues, ho]
      | dispatch =>
        simp only [step, dispatch]
        split
        · exact ho
        · split <;> simp [ho]
    rw [run_snoc] at hl ⊢
    by_cases hn' : ∃ e ∈ evs, Names m e
    · have := ih hu' hn' hl'
      generalize run evs = k at this hl
      cases e with
      | arrive x => exact this
      | abort ms =>
        cases ms with
        | none => exact this
        | some l =>
          cases l with
          | nil => exact this
          | cons a l => simp [step, abortRequest, this]
      | dispatch =>
        simp only [step, dispatch] at hl ⊢
        cases hq : k.queue with
        | nil => exact this
        | cons x q =>
          simp only [hq] at hl
          simp only
          split at hl
          · rename_i hx
            rw [if_pos hx]
            simp only [List.mem_filter, decide_eq_true_eq]
            refine ⟨this, ?_⟩
            rintro rfl
            exact hl .aborted (by simp)
          · rename_i hx; rw [if_neg hx]; exact this
    · obtain ⟨e', he', hne⟩ := hn
      have : e' = e := by
        rcases List.mem_append.1 he' with h | h
        · exact absurd ⟨e', h, hne⟩ hn'
        · simpa using h
      subst this
      cases e' with
      | arrive x => exact hne.elim
      | dispatch => exact hne.elim
      | abort ms =>
        cases ms with
        | none => exact hne.elim
        | some l =>
          cases l with
          | nil => exact absurd hne (by simp [Names])
          | cons a l =>
            simp only [step, abortRequest, List.mem_append, List.mem_filter, decide_eq_true_eq]
            by_cases hm : m ∈ (run evs).aborted
            · exact .inl hm
            · exact .inr ⟨hne, hm⟩

/-- C45: a request that was named in an abort request before it was started, is never run: whatever happens later. -/
theorem aborted_never_runs (pre post : List Ev) (m : Mid) (hu : (arrivals (pre ++ post)).Nodup) (hn : ∃ e ∈ pre, Names m e) (hl : (m, Outcome.ran) ∉ (run pre).log) :
    (m, Outcome.ran) ∉ (run (pre ++ post)).log := by
  induction post using snoc_induction with
  | h0 => simpa using hl
  | h1 post e ih =>
    rw [← List.append_assoc] at hu ⊢
    have hu' : (arrivals (pre ++ post)).Nodup := by rw [arrivals_snoc, List.nodup_append] at hu; exact hu.1
    have ih' := ih hu'
    have hord := answered_in_order (pre ++ post)
    rw [run_snoc]
    have hn' : ∃ e ∈ pre ++ post, Names m e := by
      obtain ⟨e, he, h⟩ := hn
      exact ⟨e, by simp [he], h⟩
    have hmark := marked (pre ++ post) m hu' hn'
    generalize run (pre ++ post) = k at ih' hmark hord
    cases e with
    | arrive x => exact ih'
    | abort ms =>
      cases ms with
      | none => simp [step, abortRequest, abortQueues, ih']
      | some l => cases l <;> simp [step, abortRequest, abortQueues, ih']
    | dispatch =>
      simp only [step, dispatch]
      split
      · exact ih'
      · rename_i x q hq
        split
        · simp [ih']
        · rename_i hx
          simp only [List.mem_append, List.mem_singleton, Prod.mk.injEq, and_true, not_or]
          refine ⟨ih', ?_⟩
          rintro rfl
          -- m is waiting, so it was not answered, so it is marked
          have hq' : m ∈ k.queue := by rw [hq]; simp
          rw [← hord, List.nodup_append] at hu'
          apply hx
          apply hmark
          intro o ho
          exact hu'.2.2 m (List.mem_map.2 ⟨_, ho, rfl⟩) m hq' rfl

/-- marks come from abort requests -/
theorem aborted_named (evs : List Ev) (m : Mid) (h : m ∈ (run evs).aborted) : ∃ e ∈ evs, Names m e := by
  induction evs using snoc_induction with
  | h0 => simp [run, init] at h
  | h1 evs e ih =>
    rw [run_snoc] at h
    have old : m ∈ (run evs).aborted → ∃ e' ∈ evs ++ [e], Names m e' := by
      intro h
      obtain ⟨e', he', h'⟩ := ih h
      exact ⟨e', by simp [he'], h'⟩
    cases e with
    | arrive x => exact old h
    | abort ms =>
      cases ms with
      | none => exact old h
      | some l =>
        cases l with
        | nil => exact old h
        | cons a l =>
          simp only [step, abortRequest, List.mem_append, List.mem_filter] at h
          rcases h with h | ⟨h, -⟩
          · exact old h
          · exact ⟨.abort (some (a :: l)), by simp, h⟩
    | dispatch =>
      simp only [step, dispatch] at h
      split at h
      · exact old h
      · split at h
        · simp only [List.mem_filter] at h; exact old h.1
        · exact old h

/-- C45: an answer 'aborted' is given only to a request that an abort request names, or when an abort request names nothing. -/
theorem aborted_only_if_asked (evs : List Ev) (m : Mid) (h : (m, Outcome.aborted) ∈ (run evs).log) : ∃ e ∈ evs, Names m e ∨ Blanket e := by
  induction evs using snoc_induction with
  | h0 => simp [run, init] at h
  | h1 evs e ih =>
    rw [run_snoc] at h
    have old : (m, Outcome.aborted) ∈ (run evs).log → ∃ e' ∈ evs ++ [e], Names m e' ∨ Blanket e' := by
      intro h
      obtain ⟨e', he', h'⟩ := ih h
      exact ⟨e', by simp [he'], h'⟩
    cases e with
    | arrive x => exact old h
    | abort ms =>
      cases ms with
      | none => exact ⟨.abort none, by simp, .inr trivial⟩
      | some l =>
        cases l with
        | nil => exact ⟨.abort (some []), by simp, .inr trivial⟩
        | cons a l => exact old h
    | dispatch =>
      simp only [step, dispatch] at h
      split at h
      · exact old h
      · split at h
        · rename_i hx
          simp only [List.mem_append, List.mem_singleton, Prod.mk.injEq, and_true] at h
          rcases h with h | rfl
          · exact old h
          · obtain ⟨e', he', h'⟩ := aborted_named evs m hx
            exact ⟨e', by simp [he'], .inl h'⟩
        · simp only [List.mem_append, List.mem_singleton, Prod.mk.injEq, reduceCtorEq, and_false, or_false] at h
          exact old h

/-- C45: requests that no abort request touches are run, exactly once (with `answered_in_order`: in order): every answer to them is a run. -/
theorem others_run (evs : List Ev) (m : Mid) (o : Outcome) (hn : ∀ e ∈ evs, ¬ Names m e ∧ ¬ Blanket e) (h : (m, o) ∈ (run evs).log) : o = .ran := by
  cases o with
  | ran => rfl
  | aborted =>
    obtain ⟨e, he, h'⟩ := aborted_only_if_asked evs m h
    rcases h' with h' | h'
    · exact absurd h' (hn e he).1
    · exact absurd h' (hn e he).2

/-- C45: an engine that goes on taking requests answers them all. -/
theorem all_answered (evs : List Ev) : ∃ n, (run (evs ++ List.replicate n .dispatch)).log.map Prod.fst = arrivals evs := by
  have key : ∀ (n : Nat) (evs : List Ev), (run evs).queue.length = n → (run (evs ++ List.replicate n .dispatch)).queue = [] := by
    intro n
    induction n with
    | zero => intro evs h; simpa using List.length_eq_zero_iff.1 h
    | succ n ih =>
      intro evs h
      have : evs ++ List.replicate (n + 1) Ev.dispatch = (evs ++ [.dispatch]) ++ List.replicate n .dispatch := by
        rw [List.replicate_succ]; simp
      rw [this]
      apply ih
      rw [run_snoc]
      cases hq : (run evs).queue with
      | nil => simp [hq] at h
      | cons a q =>
        simp only [step, dispatch, hq]
        have : q.length = n := by simpa [hq] using h
        split <;> simp [this]
  refine ⟨(run evs).queue.length, ?_⟩
  have h1 := answered_in_order (evs ++ List.replicate (run evs).queue.length .dispatch)
  rw [key _ _ rfl, List.append_nil] at h1
  rw [h1]
  have : ∀ n, arrivals (evs ++ List.replicate n Ev.dispatch) = arrivals evs := by
    intro n
    induction n with
    | zero => simp
    | succ n ih =>
      rw [List.replicate_succ', ← List.append_assoc, arrivals_snoc, ih]
      simp
  exact this _

def exEvs : List Ev := [.arrive 1, .arrive 2, .arrive 3, .abort (some [2, 4]), .dispatch, .dispatch, .dispatch, .arrive 4, .dispatch]

example : (arrivals exEvs).Nodup ∧ (run exEvs).log = [(1, .ran), (2, .aborted), (3, .ran), (4, .aborted)] ∧ (run exEvs).aborted = [] := by decide

/-- C45, for the call: `client.abort(jobs)` — or `client.abort()` with something outstanding — called before a request of the list is started: that request is never run; and a request that is not in the
list, and that no other abort touches, is run. -/
theorem client_abort_exact (pre post : List Ev) (outstanding : List Mid) (jobs : Option (List Mid)) (hne : jobs.getD outstanding ≠ [])
    (hu : (arrivals (pre ++ clientAbort outstanding jobs :: post)).Nodup) :
    (∀ m ∈ jobs.getD outstanding, (m, Outcome.ran) ∉ (run pre).log → (m, Outcome.ran) ∉ (run (pre ++ clientAbort outstanding jobs :: post)).log) ∧
    (∀ m ∉ jobs.getD outstanding, (∀ e ∈ pre ++ post, ¬ Names m e ∧ ¬ Blanket e) → ∀ o, (m, o) ∈ (run (pre ++ clientAbort outstanding jobs :: post)).log → o = .ran) := by
  have e : pre ++ clientAbort outstanding jobs :: post = (pre ++ [clientAbort outstanding jobs]) ++ post := by simp
  refine ⟨fun m hm hl => ?_, fun m hm hn o ho => ?_⟩
  · rw [e] at hu ⊢
    refine aborted_never_runs _ post m hu ⟨clientAbort outstanding jobs, by simp, hm⟩ ?_
    rw [run_snoc]
    cases hj : jobs.getD outstanding with
    | nil => exact absurd hj hne
    | cons a l => simpa [clientAbort, step, abortRequest, hj] using hl
  · refine others_run _ m o (fun x hx => ?_) ho
    rw [List.mem_append, List.mem_cons] at hx
    rcases hx with hx | rfl | hx
    · exact hn x (by simp [hx])
    · refine ⟨hm, ?_⟩
      cases hj : jobs.getD outstanding with
      | nil => exact absurd hj hne
      | cons a l => simp [clientAbort, hj, Blanket]
    · exact hn x (by simp [hx])

example : (run [.arrive 1, .arrive 2, clientAbort [2] none, .dispatch, .dispatch]).log = [(1, .ran), (2, .aborted)] := by decide

/-- C45, violated: `client.abort()` of a client that has nothing outstanding, or `abort([])`, aborts the requests of every other client that wait on the engines. -/
theorem abort_nothing_aborts_all_violated (others : List Mid) :
    (run (others.map .arrive ++ [clientAbort [] none])).log = others.map (fun m => (m, .aborted)) := by
  have h : ∀ (l : List Mid) (k : Kernel), (l.map Ev.arrive).foldl step k = { k with queue := k.queue ++ l } := by
    intro l
    induction l with
    | nil => intro k; simp
    | cons a l ih => intro k; simp [ih, step]
  rw [run_snoc, run, h]
  simp [clientAbort, step, abortRequest, abortQueues, init]

/-- An abort request with a list of ids is answered once; nothing else answers it. -/
theorem abort_with_ids_replies (k : Kernel) (ms : List Mid) : (step k (.abort (some ms))).abortReplies = k.abortReplies + 1 := by
  cases ms <;> simp [step, abortRequest, abortQueues]

theorem abort_replies_only (k : Kernel) (e : Ev) (h : ∀ ms, e ≠ .abort (some ms)) : (step k e).abortReplies = k.abortReplies := by
  cases e with
  | abort o => cases o with
    | none => rfl
    | some ms => exact absurd rfl (h ms)
  | _ => simp [step, dispatch] <;> (repeat' split) <;> rfl

/-- An abort request without ids is never answered. -/
theorem abort_without_ids_no_reply_violated (k : Kernel) : (step k (.abort none)).abortReplies = k.abortReplies := rfl

/-- Ids named after their request was answered stay in the table for ever. -/
theorem abort_table_grows_violated : (run [.arrive 1, .dispatch, .abort (some [1])]).aborted = [1] := by decide

end IPP.Engine
