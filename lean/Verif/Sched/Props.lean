import Verif.Sched.PickInv

/-!
# C15–C18, C22: properties of the task scheduler

Vocabulary: `Spec.lean` (functions of the observable trace only).  `Fresh evs`: message ids and engine identities are not reused (they
are uuids).  `Faithful tr`: engines only answer tasks that were sent to them and that they have not answered yet.  All histories are
otherwise arbitrary: any order of submissions, registrations, deaths, replies and timers, any choice of the scheme, any message content.
-/
namespace IPP.Sched

/-! ## A running example -/

/-- hwm = 1, the default; leastload, the default. -/
def exCfg : Config := { hwm := 1, pick := fun _ l => leastload l }

/-- Two engines, four tasks (one with retries, one waiting for another, one with a target), a failure, a death. -/
def exHistory : List Event :=
  [.register 7, .submit 1 { retries := 1 }, .submit 2 { after := some { ids := [1] } }, .register 8,
   .submit 3 { targets := [8] }, .submit 4 { follow := { ids := [1] } }, .result 7 1 false true, .result 8 3 true true, .result 8 1 true true,
   .unregister 7, .result 8 4 false true, .strandTimer 7]

theorem exHistory_fresh : Fresh exHistory := by unfold Fresh; decide

/-- `Faithful` for a concrete trace can be computed. -/
def faithfulFrom (p : List Obs) : List Obs → Bool
  | [] => true
  | o :: q => (match o with | .received e m _ _ => decide (m ∈ outstanding e p) | _ => true) && faithfulFrom (p ++ [o]) q

theorem faithfulFrom_iff (p tr : List Obs) (h : faithfulFrom p tr = true) :
    ∀ p' e m ok dm q, tr = p' ++ .received e m ok dm :: q → m ∈ outstanding e (p ++ p') := by
  induction tr generalizing p with
  | nil => intro p' e m ok dm q hq; simp at hq
  | cons o tr ih =>
    intro p' e m ok dm q hq
    simp only [faithfulFrom, Bool.and_eq_true] at h
    cases p' with
    | nil =>
      simp only [List.nil_append, List.cons.injEq] at hq
      obtain ⟨rfl, _⟩ := hq
      simpa using h.1
    | cons x p' =>
      simp only [List.cons_append, List.cons.injEq] at hq
      obtain ⟨rfl, hq⟩ := hq
      have := ih (p ++ [o]) h.2 p' e m ok dm q hq
      simpa using this

theorem faithful_of_check {tr : List Obs} (h : faithfulFrom [] tr = true) : Faithful tr := by
  intro p e m ok dm q hq
  simpa using faithfulFrom_iff [] tr h p e m ok dm q hq

theorem exHistory_faithful : Faithful (run exCfg exHistory).trace := faithful_of_check (by decide)

/-- What actually happens in the example. -/
theorem exHistory_trace : (run exCfg exHistory).trace =
    [.registered 7, .submitted 1 { retries := 1 }, .send 7 1, .submitted 2 { after := some { ids := [1] } }, .registered 8,
     .submitted 3 { targets := [8] }, .send 8 3, .submitted 4 { follow := { ids := [1] } },
     .received 7 1 false true, .retry 7 1 .failure, .received 8 3 true true, .relay 8 3 true, .send 8 1,
     .received 8 1 true true, .relay 8 1 true, .send 7 2, .send 8 4, .unregistered 7,
     .received 8 4 false true, .relay 8 4 false, .stranded 7 2, .relay 7 2 false] := by decide

/-! ## C15: the high water mark -/

/-- C15: at every moment (every prefix `p` of what was observed), no engine holds more than `hwm` unanswered tasks. -/
theorem hwm_never_exceeded (cfg : Config) (hh : cfg.hwm ≠ 0) (evs : List Event) (hf : Fresh evs)
    (hfa : Faithful (run cfg evs).trace) (p q : List Obs) (hp : (run cfg evs).trace = p ++ q) (e : Engine) :
    (outstanding e p).length ≤ cfg.hwm := by
  have h1 := run_hwmInv cfg evs hf hh p q hp e
  have hj := run_jobInv cfg evs hf
  have hl := (run_base cfg evs hf).1
  rw [loadSpec_eq_outstanding e p] at h1
  · omega
  · rw [hp] at hfa; exact hfa.prefix
  · have := hl.once e
    rw [hp, List.count_append] at this
    omega
  · intro p' m q' hq'
    obtain ⟨hr, _⟩ := hj.sent p' e m (q' ++ q) (by rw [hp, hq']; simp)
    exact List.count_pos_iff.mp (Nat.lt_of_le_of_lt (Nat.zero_le _) hr)

/-- C15, for dead and living engines alike, is also about the present: the number of unanswered tasks after the history. -/
theorem hwm_now (cfg : Config) (hh : cfg.hwm ≠ 0) (evs : List Event) (hf : Fresh evs)
    (hfa : Faithful (run cfg evs).trace) (e : Engine) : (outstanding e (run cfg evs).trace).length ≤ cfg.hwm :=
  hwm_never_exceeded cfg hh evs hf hfa _ [] (by simp) e

/-- The bound is reached: after the first seven events of the example both engines are full. -/
example : (outstanding 7 (run exCfg (exHistory.take 5)).trace).length = 1 ∧ (outstanding 8 (run exCfg (exHistory.take 5)).trace).length = 1 := by
  decide

/-- Finding: the bound fails if an engine identity is registered twice (the registration resets the load; hub.py never does that for
uuid identities). -/
example : (outstanding 7 (run exCfg [.register 7, .submit 1 {}, .register 7, .submit 2 {}]).trace).length = 2 := by decide

/-! ## C16: placement -/

/-- C16, without the part about `targets`: a task is only sent to an engine that is registered at that moment, that has
not already failed or refused it, and on which its follow dependency is met by tasks that ran there. -/
theorem placement_partial (cfg : Config) (evs : List Event) (hf : Fresh evs) (p q : List Obs) (e : Engine) (m : MsgId)
    (hp : (run cfg evs).trace = p ++ .send e m :: q) :
    Registered e p ∧ (∀ c, Obs.retry e m c ∉ p) ∧
    ∃ sub, Obs.submitted m sub ∈ p ∧ Satisfied sub.follow (okOn e p) (failOn e p) := by
  obtain ⟨h1, h2, sub, h3, h4, _⟩ := (run_jobInv cfg evs hf).sent p e m q hp
  exact ⟨h1, h2, sub, h3, h4⟩

/-- In the example: task 4 follows task 1, task 1 failed on 7 and then ran on 8; task 4 is sent to 8 after that. -/
example : ∃ p q, (run exCfg exHistory).trace = p ++ .send 8 4 :: q ∧ Obs.retry 7 1 .failure ∈ p ∧ okOn 8 p = [3, 1] :=
  ⟨(run exCfg exHistory).trace.take 16, (run exCfg exHistory).trace.drop 17, by decide, by decide, by decide⟩

/-! ## C17: time dependencies -/

/-- C17: a task with an `after` dependency is only sent when that dependency is met by the tasks that have succeeded / failed so far. -/
theorem after_before_send (cfg : Config) (evs : List Event) (hf : Fresh evs) (p q : List Obs) (e : Engine) (m : MsgId)
    (hp : (run cfg evs).trace = p ++ .send e m :: q) (sub : Submission) (hs : Obs.submitted m sub ∈ (run cfg evs).trace)
    (a : Dep) (ha : sub.after = some a) : Satisfied a (okIds p) (failIds p) := by
  have hj := run_jobInv cfg evs hf
  obtain ⟨_, _, sub', h3, _, h5⟩ := hj.sent p e m q hp
  have : sub = sub' := hj.uniq m sub sub' hs (by rw [hp]; simp [h3])
  exact h5 a (this ▸ ha)

/-- In the example task 2 waits for task 1 and is sent only after the success of 1 was reported. -/
example : ∃ p q, (run exCfg exHistory).trace = p ++ .send 7 2 :: q ∧ okIds p = [3, 1] :=
  ⟨(run exCfg exHistory).trace.take 15, (run exCfg exHistory).trace.drop 16, by decide, by decide⟩

/-! ## C18: retries -/

/-- C18: a failure is passed on to the client exactly when the task has failed `retries + 1` times: at that moment. -/
theorem failure_relayed_after_retries (cfg : Config) (evs : List Event) (hf : Fresh evs) (hfa : Faithful (run cfg evs).trace)
    (p q : List Obs) (e : Engine) (m : MsgId) (hp : (run cfg evs).trace = p ++ .relay e m false :: q) :
    ∃ sub, Obs.submitted m sub ∈ p ∧ failures m p = sub.retries + 1 := by
  obtain ⟨sub, h1, h2⟩ := (run_retryInv cfg evs hf hfa).relayed p e m false q hp
  exact ⟨sub, h1, h2 rfl⟩

/-- C18: after `retries + 1` failures the client has its reply. -/
theorem too_many_failures_relayed (cfg : Config) (evs : List Event) (hf : Fresh evs) (hfa : Faithful (run cfg evs).trace)
    (m : MsgId) (sub : Submission) (hs : Obs.submitted m sub ∈ (run cfg evs).trace)
    (hfail : sub.retries < failures m (run cfg evs).trace) : relays m (run cfg evs).trace = 1 := by
  have h := run_retryInv cfg evs hf hfa
  cases hr : (run cfg evs).retries m with
  | none => exact (h.done m sub hs hr).1
  | some k => have := (h.live m sub k hs hr).1; omega

/-- C18: a success is passed on at once (it is the very next thing the scheduler does), unless the client already has its reply. -/
theorem success_relayed_at_once (cfg : Config) (evs : List Event) (hf : Fresh evs) (hfa : Faithful (run cfg evs).trace)
    (p q : List Obs) (e : Engine) (m : MsgId) (hp : (run cfg evs).trace = p ++ .received e m true true :: q) :
    relays m p = 1 ∨ ∃ q', q = .relay e m true :: q' :=
  run_succInv cfg evs hf hfa p e m q hp

/-- C18: a task is tried again because of failures at most `retries` times. -/
theorem retried_at_most (cfg : Config) (evs : List Event) (hf : Fresh evs) (hfa : Faithful (run cfg evs).trace)
    (m : MsgId) (sub : Submission) (hs : Obs.submitted m sub ∈ (run cfg evs).trace) : retried m (run cfg evs).trace ≤ sub.retries := by
  have h := run_retryInv cfg evs hf hfa
  cases hr : (run cfg evs).retries m with
  | none => exact (h.done m sub hs hr).2
  | some k => have := h.live m sub k hs hr; omega

/-- At most one reply of an engine is passed on to the client for each task. -/
theorem at_most_one_relay (cfg : Config) (evs : List Event) (hf : Fresh evs) (hfa : Faithful (run cfg evs).trace) (m : MsgId) :
    relays m (run cfg evs).trace ≤ 1 := by
  have h := run_retryInv cfg evs hf hfa
  by_cases hs : ∃ sub, Obs.submitted m sub ∈ (run cfg evs).trace
  · obtain ⟨sub, hs⟩ := hs
    cases hr : (run cfg evs).retries m with
    | none => exact Nat.le_of_eq (h.done m sub hs hr).1
    | some k => have := h.live m sub k hs hr; omega
  · have := h.unsub m fun sub h => hs ⟨sub, h⟩
    omega

/-- The example has a retried task, a relayed failure and a relayed success. -/
example : retried 1 (run exCfg exHistory).trace = 1 ∧ failures 1 (run exCfg exHistory).trace = 1 ∧
    relays 1 (run exCfg exHistory).trace = 1 ∧ failures 2 (run exCfg exHistory).trace = 1 ∧
    relays 2 (run exCfg exHistory).trace = 1 := by decide

/-! ## C22: loads and schemes -/

/-- C22: the load recorded for each registered engine is the number of tasks sent to it and not answered. -/
theorem loads_exact (cfg : Config) (evs : List Event) (hf : Fresh evs) (hfa : Faithful (run cfg evs).trace) :
    (run cfg evs).loads = (run cfg evs).targets.map (fun e => ((outstanding e (run cfg evs).trace).length : Int)) ∧
    (run cfg evs).targets.Nodup ∧ ∀ e, e ∈ (run cfg evs).targets ↔ Registered e (run cfg evs).trace := by
  have hl := (run_base cfg evs hf).1
  have hj := run_jobInv cfg evs hf
  refine ⟨?_, hl.nodup, fun e => (registered_iff hl e).symm⟩
  rw [hl.load]
  refine List.map_congr_left fun e _ => ?_
  refine loadSpec_eq_outstanding e _ hfa (hl.once e) fun p m q hq => ?_
  obtain ⟨hr, _⟩ := hj.sent p e m q hq
  exact List.count_pos_iff.mp (Nat.lt_of_le_of_lt (Nat.zero_le _) hr)

theorem foldl_min_le (l : Int) (ls : List Int) : ls.foldl min l ≤ l ∧ (∀ x ∈ ls, ls.foldl min l ≤ x) ∧ ls.foldl min l ∈ l :: ls := by
  induction ls generalizing l with
  | nil => simp
  | cons x xs ih =>
    obtain ⟨h1, h2, h3⟩ := ih (min l x)
    simp only [List.foldl_cons]
    refine ⟨by omega, ?_, ?_⟩
    · intro y hy
      rcases List.mem_cons.mp hy with rfl | hy
      · omega
      · exact h2 y hy
    · rcases List.mem_cons.mp h3 with h | h
      · rw [h]
        rcases Int.le_total l x with hle | hle
        · rw [Int.min_eq_left hle]; simp
        · rw [Int.min_eq_right hle]; simp
      · simp [h]

/-- C22: `leastload` returns the first index of a minimal load. -/
theorem leastload_minimal (loads : List Int) (hne : loads ≠ []) :
    ∃ l, loads[leastload loads]? = some l ∧ (∀ x ∈ loads, l ≤ x) ∧ ∀ i, i < leastload loads → ∀ x, loads[i]? = some x → l < x := by
  cases loads with
  | nil => exact absurd rfl hne
  | cons a as =>
    obtain ⟨h1, h2, h3⟩ := foldl_min_le a as
    have hmin : ∀ x ∈ a :: as, as.foldl min a ≤ x := by
      intro x hx
      rcases List.mem_cons.mp hx with rfl | hx
      · exact h1
      · exact h2 x hx
    have hlt : (a :: as).idxOf (as.foldl min a) < (a :: as).length := List.idxOf_lt_length_of_mem h3
    refine ⟨as.foldl min a, ?_, hmin, ?_⟩
    · simp only [leastload]
      rw [List.getElem?_eq_getElem hlt, List.getElem_idxOf]
    · intro i hi x hx
      have hne : x ≠ as.foldl min a := by
        rintro rfl
        simp only [leastload] at hi
        obtain ⟨hil, hie⟩ := List.getElem?_eq_some_iff.mp hx
        have := List.not_of_lt_findIdx (p := (· == as.foldl min a)) (xs := a :: as) (i := i) hi
        simp [hie] at this
      have := hmin x (List.mem_of_getElem? hx)
      omega

/-- C22: every scheme returns a valid index (whatever the random numbers). -/
theorem schemes_valid (loads : List Int) (hne : loads ≠ []) (r₁ r₂ : Nat) :
    leastload loads < loads.length ∧ lru loads < loads.length ∧ plainrandom r₁ loads < loads.length ∧
    twobin r₁ r₂ loads < loads.length := by
  have hpos : 0 < loads.length := List.length_pos_iff.mpr hne
  refine ⟨?_, hpos, Nat.mod_lt _ hpos, ?_⟩
  · obtain ⟨l, hl, _⟩ := leastload_minimal loads hne
    exact (List.getElem?_eq_some_iff.mp hl).1
  · exact Nat.lt_of_le_of_lt (Nat.min_le_left _ _) (Nat.mod_lt _ hpos)

/-- C22: with the leastload scheme a task (without location dependency) goes to an engine with the fewest unanswered tasks among all engines
where it may run now: registered, not full, in its targets, not yet tried. -/
theorem leastload_picks_least (cfg : Config) (hpick : cfg.pick = fun _ l => leastload l) (evs : List Event) (hf : Fresh evs)
    (hfa : Faithful (run cfg evs).trace) (p q : List Obs) (e : Engine) (m : MsgId) (hp : (run cfg evs).trace = p ++ .send e m :: q)
    (sub : Submission) (hs : Obs.submitted m sub ∈ p) (hfo : sub.follow.ids = [])
    (e' : Engine) (hreg : Registered e' p) (hnew : ∀ c, Obs.retry e' m c ∉ p) (htg : sub.targets = [] ∨ e' ∈ sub.targets) :
    (outstanding e p).length ≤ (outstanding e' p).length := by
  have hl := (run_base cfg evs hf).1
  have hj := run_jobInv cfg evs hf
  have hload : ∀ x, loadSpec x p = (outstanding x p).length := by
    intro x
    apply loadSpec_eq_outstanding x p
    · rw [hp] at hfa; exact hfa.prefix
    · have := hl.once x
      rw [hp, List.count_append] at this
      omega
    · intro p' m' q' hq'
      obtain ⟨hr, _⟩ := hj.sent p' x m' (q' ++ .send e m :: q) (by rw [hp, hq']; simp)
      exact List.count_pos_iff.mp (Nat.lt_of_le_of_lt (Nat.zero_le _) hr)
  obtain ⟨C, _, hget, hcomp⟩ := (run_pickInv cfg evs hf).picked p e m q hp
  by_cases hfull : cfg.hwm = 0 ∨ loadSpec e' p < (cfg.hwm : Int)
  · have hin := hcomp sub hs hfo e' hreg hfull hnew htg
    rw [hpick] at hget
    have hne : C.map (loadSpec · p) ≠ [] := by
      intro h
      have : C = [] := by simpa using h
      rw [this] at hin; cases hin
    obtain ⟨l, hl1, hl2, _⟩ := leastload_minimal _ hne
    rw [List.getElem?_map, hget] at hl1
    simp at hl1
    have := hl2 (loadSpec e' p) (List.mem_map.mpr ⟨e', hin, rfl⟩)
    rw [← hl1, hload, hload] at this
    omega
  · -- `e'` is full, and no engine has more
    simp only [not_or, Int.not_lt] at hfull
    have h1 := hwm_never_exceeded cfg hfull.1 evs hf hfa p (.send e m :: q) hp e
    have h2 := hload e'
    omega

/-- C22: with the lru scheme the task goes to the engine used least recently among the eligible ones. -/
theorem lru_picks_oldest (cfg : Config) (hpick : cfg.pick = fun _ l => lru l) (evs : List Event) (hf : Fresh evs)
    (p q : List Obs) (e : Engine) (m : MsgId) (hp : (run cfg evs).trace = p ++ .send e m :: q)
    (sub : Submission) (hs : Obs.submitted m sub ∈ p) (hfo : sub.follow.ids = [])
    (e' : Engine) (hreg : Registered e' p) (hnew : ∀ c, Obs.retry e' m c ∉ p) (htg : sub.targets = [] ∨ e' ∈ sub.targets)
    (hfa : Faithful (run cfg evs).trace) (hfree : cfg.hwm = 0 ∨ (outstanding e' p).length < cfg.hwm) :
    lastSend e p ≤ lastSend e' p := by
  have hl := (run_base cfg evs hf).1
  have hj := run_jobInv cfg evs hf
  have hload : loadSpec e' p = (outstanding e' p).length := by
    apply loadSpec_eq_outstanding e' p
    · rw [hp] at hfa; exact hfa.prefix
    · have := hl.once e'
      rw [hp, List.count_append] at this
      omega
    · intro p' m' q' hq'
      obtain ⟨hr, _⟩ := hj.sent p' e' m' (q' ++ .send e m :: q) (by rw [hp, hq']; simp)
      exact List.count_pos_iff.mp (Nat.lt_of_le_of_lt (Nat.zero_le _) hr)
  obtain ⟨C, hsorted, hget, hcomp⟩ := (run_pickInv cfg evs hf).picked p e m q hp
  have hin := hcomp sub hs hfo e' hreg (hfree.imp id fun h => by omega) hnew htg
  rw [hpick] at hget
  cases C with
  | nil => cases hin
  | cons c cs =>
    simp [lru] at hget
    subst hget
    rcases List.mem_cons.mp hin with rfl | hin
    · exact Nat.le_refl _
    · exact (List.pairwise_cons.mp hsorted).1 e' hin

/-- Two engines, hwm = 2: three tasks are spread 2 + 1 by both schemes; the third goes to the engine used least recently. -/
example : (run { hwm := 2, pick := fun _ l => leastload l } [.register 7, .register 8, .submit 1 {}, .submit 2 {}, .submit 3 {}]).trace.drop 2 =
    [.submitted 1 {}, .send 8 1, .submitted 2 {}, .send 7 2, .submitted 3 {}, .send 8 3] := by decide
example : (run { hwm := 2, pick := fun _ l => lru l } [.register 7, .register 8, .submit 1 {}, .submit 2 {}, .submit 3 {}]).trace.drop 2 =
    [.submitted 1 {}, .send 8 1, .submitted 2 {}, .send 7 2, .submitted 3 {}, .send 8 3] := by decide

end IPP.Sched
