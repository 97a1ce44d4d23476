import Verif.Hub.PurgeDB

/-! # The hub: a checked example of the hypotheses, and counterexamples outside them -/
namespace IPP.Hub

/-! ## a checker for the hypotheses -/

def announcedB (u : Uuid) (evs : List MEv) : Bool := (regNotes evs).any (Note.registers u)

theorem announced_of_check {u : Uuid} {evs : List MEv} (h : announcedB u evs = true) : Announced u evs := by
  obtain ⟨n, hn, h'⟩ := List.any_eq_true.1 h
  cases n with
  | registered u' i => simp [Note.registers] at h'; subst h'; exact ⟨i, hn⟩
  | _ => simp [Note.registers] at h'

def MEv.liveB : MEv → Bool
  | .reg .restart => false
  | .reg (.restartCrash _) => false
  | _ => true

def isQReq (m : Mid) : MEv → Bool
  | .queueRequest _ m' => m' = m
  | _ => false

def isTRes (m : Mid) : MEv → Bool
  | .taskResult m' _ => m' = m
  | _ => false

def isQRes (u : Uuid) (m : Mid) : MEv → Bool
  | .queueResult u' m' _ => u' = u ∧ m' = m
  | _ => false

def resubs (m : Mid) : MEv → Bool
  | .resubmit _ news => m ∈ news
  | _ => false

/-- conditions on one event and what precedes it -/
def okAt (c : MCfg) (all pre : List MEv) : MEv → Bool
  | .queueRequest u m => announcedB u pre && !pre.any (isQReq m) && !all.contains (.taskRequest m) && !all.any (isTRes m) && !all.any (resubs m)
  | .taskDestination _ u => announcedB u pre
  | .taskRequest m => !pre.contains (.taskRequest m)
  | .taskResult m r => (match r.engine with | none => true | some u => announcedB u pre) && pre.contains (.taskRequest m) && !pre.any (isTRes m)
  | .queueResult u m _ => pre.contains (.queueRequest u m) && !pre.any (isQRes u m)
  | .timer i => match (mrun c pre).timers[i]? with
    | none => true
    | some (e, _) => !((mrun c pre).reg.engines.map Prod.fst).contains e
  | _ => true

def wbCheck (c : MCfg) (evs : List MEv) : Bool :=
  evs.all MEv.liveB && (regNotes evs).all (fun n => match n with
    | .registered u _ => (regNotes evs).countP (Note.registers u) ≤ 1
    | _ => true) && (List.range evs.length).all (fun i => match evs[i]? with
    | none => true
    | some e => okAt c evs (evs.take i) e)

theorem wellBehaved_of_check {c : MCfg} {evs : List MEv} (h : wbCheck c evs = true) : WellBehaved c evs := by
  simp only [wbCheck, Bool.and_eq_true] at h
  obtain ⟨⟨h1, h2⟩, h3⟩ := h
  have hat : ∀ pre e post, evs = pre ++ e :: post → okAt c evs pre e = true := by
    intro pre e post heq
    have := List.all_eq_true.1 h3 pre.length (by rw [List.mem_range, heq]; simp)
    rw [show evs[pre.length]? = some e from by rw [heq]; simp, show evs.take pre.length = pre from by rw [heq]; simp] at this
    exact this
  refine ⟨?_, ?_, ?_, ?_, ?_, ?_, ?_, ?_, ?_, ?_, ?_⟩
  · intro e he
    have := List.all_eq_true.1 h1 e he
    cases e with
    | reg ev => cases ev <;> first | exact trivial | (simp [MEv.liveB] at this)
    | _ => trivial
  · intro u
    by_cases hz : (regNotes evs).any (Note.registers u) = true
    · obtain ⟨n, hn, hr⟩ := List.any_eq_true.1 hz
      have := List.all_eq_true.1 h2 n hn
      cases n with
      | registered u' i => simp [Note.registers] at hr; subst hr; simpa using this
      | _ => simp [Note.registers] at hr
    · have : (regNotes evs).countP (Note.registers u) = 0 := by
        rw [List.countP_eq_zero]
        intro a ha hc
        exact hz (List.any_eq_true.2 ⟨a, ha, hc⟩)
      omega
  · intro pre u m post heq
    have := hat pre _ post heq
    simp only [okAt, Bool.and_eq_true] at this
    exact announced_of_check this.1.1.1.1
  · intro pre m u post heq
    exact announced_of_check (hat pre _ post heq)
  · intro pre m r post heq u hu
    have := hat pre _ post heq
    simp only [okAt, Bool.and_eq_true, hu] at this
    exact announced_of_check this.1.1
  · intro pre u m post heq u' hc
    have := hat pre _ post heq
    simp only [okAt, Bool.and_eq_true, Bool.not_eq_true', List.any_eq_false] at this
    exact this.1.1.1.2 _ hc (by simp [isQReq])
  · intro pre m post heq hc
    have := hat pre _ post heq
    simp [okAt] at this
    exact this hc
  · intro u m hm
    obtain ⟨pre, post, heq⟩ := List.append_of_mem hm
    have := hat pre _ post heq
    simp only [okAt, Bool.and_eq_true, Bool.not_eq_true', List.any_eq_false] at this
    refine ⟨?_, ?_, ?_⟩
    · intro hc; have := this.1.1.2; simp [hc] at this
    · intro r hc; exact this.1.2 _ hc (by simp [isTRes])
    · intro ms news hc hn; exact this.2 _ hc (by simp [resubs, hn])
  · intro pre u m r post heq
    have := hat pre _ post heq
    simp only [okAt, Bool.and_eq_true, Bool.not_eq_true', List.any_eq_false] at this
    exact ⟨by simpa using this.1, fun r' hc => this.2 _ hc (by simp [isQRes])⟩
  · intro pre m r post heq
    have := hat pre _ post heq
    simp only [okAt, Bool.and_eq_true, Bool.not_eq_true', List.any_eq_false] at this
    exact ⟨by simpa using this.1.2, fun r' hc => this.2 _ hc (by simp [isTRes])⟩
  · intro pre i post heq e u ht
    have := hat pre _ post heq
    simp only [okAt, ht] at this
    intro hc
    simp only [Bool.not_eq_true', List.contains_eq_mem, decide_eq_false_iff_not] at this
    exact this hc

def orderedB : List MEv → Bool
  | [] => true
  | e :: es => es.all (fun e' => e'.requests.all (fun m => !e.results.contains m && !e.queued.contains m)) && orderedB es

theorem ordered_of_check {evs : List MEv} (h : orderedB evs = true) : Ordered evs := by
  induction evs with
  | nil => exact .nil
  | cons e es ih =>
    simp only [orderedB, Bool.and_eq_true, List.all_eq_true, Bool.not_eq_true', List.contains_eq_mem, decide_eq_false_iff_not] at h
    exact .cons (fun e' he' m hm => h.1 e' he' m hm) (ih h.2)

/-! ## the running example: two engines, queued messages, tasks, a lost engine, a resubmission -/

def exDict : MCfg := { sql := false, persistent := false }
def exSql : MCfg := { sql := true, persistent := true }

def rep (tag : Nat) (bufs : List Nat) (u : Option Uuid) : Reply := { tag := tag, bufs := bufs, engine := u, aborted := false }

def exHub : List MEv :=
  [.reg (.register 10 none), .reg (.newHeart 10), .reg (.register 11 none), .reg (.newHeart 11),
   .queueRequest 10 1, .queueRequest 10 2, .queueRequest 11 3, .taskRequest 4, .taskRequest 5, .taskDestination 4 11, .taskDestination 5 10,
   .queueResult 10 1 (rep 100 [7, 8] (some 10)), .iopub 4 50, .taskResult 4 (rep 101 [9] (some 11)),
   .reg (.stoppedHeart 11), .timer 0, .resubmit [4] [6], .taskRequest 6, .taskDestination 6 10]

theorem exHub_wb : WellBehaved exDict exHub := wellBehaved_of_check (by decide)
theorem exHub_ordered : Ordered exHub := ordered_of_check (by decide)
theorem exHub_live : ∀ e ∈ exHub, e.Live := exHub_wb.live

example : (mrun exDict exHub).pending = [2, 5, 6] ∧ (mrun exDict exHub).done = [1, 4, 3] := by decide

example : getResults (mrun exDict exHub) [3, 1, 6, 4] false = some
    { pending := [6], completed := [1, 3, 4],
      content := [(1, { requested := true, engine := some 10, result := some (.reply (rep 100 [7, 8] (some 10))), resubmitted := none, stdout := [] }),
        (3, { requested := true, engine := some 11, result := some (.died 11), resubmitted := none, stdout := [] }),
        (4, { requested := true, engine := some 11, result := some (.reply (rep 101 [9] (some 11))), resubmitted := some 6, stdout := [50] })],
      buffers := [7, 8, 9] } := by decide

example : queueStatus (mrun exDict exHub) 0 = some ([2], [1], [5, 6]) ∧ unanswered 10 exHub = [2] ∧ finished 10 exHub = [1] ∧ running 10 exHub = [5, 6] := by decide

/-- the general theorems, on the example -/
example : queueStatus (mrun exDict exHub) 0 = some (unanswered 10 exHub, finished 10 exHub, running 10 exHub) :=
  queue_status_exact_partial exDict exHub exHub_wb 0 10 (by decide)

example : (purge exDict (mrun exDict exHub) (.ids [1, 3]) []).2 = true ∧ (purge exDict (mrun exDict exHub) (.ids [1, 2]) []).2 = false ∧
    ((purge exDict (mrun exDict exHub) .all []).1.db.map Prod.fst) = [2, 5, 6] ∧
    ((purge exSql (mrun exSql exHub) (.ids [1]) [0]).1.db.map Prod.fst) = [2, 3, 4, 5, 6] := by decide

/-! ## what goes wrong outside the hypotheses -/

/-- **C30 is violated** if a result is seen before its request: the message stays pending for ever. -/
theorem result_before_request_violated :
    let evs : List MEv := [.taskResult 4 (rep 101 [] none), .taskRequest 4]
    4 ∈ (mrun exDict evs).pending ∧ 4 ∉ (mrun exDict evs).done := by decide

/-- **C30 is violated**: a result that overtakes the request of a resubmitted task leaves it both pending and completed. -/
theorem pending_and_completed_violated :
    let evs : List MEv := [.taskRequest 4, .taskResult 4 (rep 1 [] none), .resubmit [4] [6], .taskResult 6 (rep 2 [] none), .taskRequest 6]
    6 ∈ (mrun exDict evs).pending ∧ 6 ∈ (mrun exDict evs).done := by decide

/-- **C30 is violated**: once its messages were marked as died, a lost engine's queue still reports them as waiting, although they are completed. -/
theorem stranded_queue_violated :
    let evs : List MEv := [.reg (.register 10 none), .reg (.newHeart 10), .queueRequest 10 1, .reg (.stoppedHeart 10), .timer 0]
    1 ∈ (mrun exDict evs).done ∧ queueStatus (mrun exDict evs) 0 = some ([1], [], []) := by decide

/-- **C30 is violated**: when an engine id is taken again before the timer of its lost holder fires, the messages of the new, healthy engine are reported as died, and
those of the lost one stay pending for ever. -/
theorem reused_id_violated :
    let evs : List MEv := [.reg (.register 10 none), .reg (.newHeart 10), .queueRequest 10 1, .reg (.stoppedHeart 10),
      .reg (.register 11 (some 0)), .reg (.newHeart 11), .queueRequest 11 2, .timer 0]
    (0, 11) ∈ (mrun exDict evs).reg.engines ∧ (getKey (mrun exDict evs).db 2).map TRec.result = some (some (.died 10)) ∧
    1 ∈ (mrun exDict evs).pending ∧ (mrun exDict evs).timers = [] := by decide

/-- **C30 is violated**: a task sent again to another engine stays listed with the engine that it was first sent to. -/
theorem retried_task_listed_twice_violated :
    let evs : List MEv := [.reg (.register 10 none), .reg (.newHeart 10), .reg (.register 11 none), .reg (.newHeart 11),
      .taskRequest 4, .taskDestination 4 10, .taskDestination 4 11, .taskResult 4 (rep 1 [] (some 11))]
    4 ∈ (mrun exDict evs).done ∧ queueStatus (mrun exDict evs) 0 = some ([], [], [4]) ∧ queueStatus (mrun exDict evs) 1 = some ([], [4], []) := by decide

/-- the hypotheses of `get_results_stored_partial` and `get_results_unfinished_partial` are met after a restart: tasks 1 and 3 have results, 2 has none -/
example : let s := mrun exSql [.taskRequest 1, .taskResult 1 (rep 1 [7] none), .taskRequest 2, .taskRequest 3, .taskResult 3 (rep 2 [8, 9] none), .reg .restart]
    (∀ m ∈ [3, 1], m ∉ s.pending ∧ (getKey s.db m).isSome) ∧ (∀ x ∈ s.db, x.1 ∈ [3, 1] → x.2.result.isSome) ∧
    (getResults s [3, 1] false).map (fun r => (r.completed, r.buffers)) = some ([1, 3], [7, 8, 9]) ∧
    2 ∉ s.done ∧ (getKey s.db 2).isSome ∧ (∀ x ∈ s.db, x.1 ∈ [2] → x.2.result = none) ∧ (getResults s [2] false).map ResultReply.pending = some [2] := by decide

/-- **C31 is violated** after a restart with a persistent database: whether an id counts as completed is decided by the last record of the query (the name `rec` of an earlier
loop). Asked for a finished task 1 and an unfinished task 2, the hub calls both pending. -/
theorem stale_record_violated :
    let evs : List MEv := [.taskRequest 1, .taskResult 1 (rep 1 [] none), .taskRequest 2, .reg .restart]
    (getResults (mrun exSql evs) [1, 2] false).map ResultReply.pending = some [1, 2] ∧ (getResults (mrun exSql evs) [1] false).map ResultReply.completed = some [1] := by
  decide

/-- … and the other way round: an unfinished task 1 is reported as completed because the last record, of task 2, is. -/
theorem stale_record_completed_violated :
    let evs : List MEv := [.taskRequest 1, .taskRequest 2, .taskResult 2 (rep 1 [] none), .reg .restart]
    (getResults (mrun exSql evs) [1, 2] false).map ResultReply.completed = some [1, 2] ∧ (getKey (mrun exSql evs).db 1).map TRec.result = some none := by
  decide

/-- **C31 is violated** after a purge: the status of a purged id is "completed", while its result cannot be fetched (an error instead of the missing id). -/
theorem purged_status_violated :
    let evs : List MEv := [.taskRequest 1, .taskResult 1 (rep 1 [] none), .purge .all []]
    (getResults (mrun exDict evs) [1] true).map ResultReply.completed = some [1] ∧ getResults (mrun exDict evs) [1] false = none := by decide

end IPP.Hub
