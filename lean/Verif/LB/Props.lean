import Verif.LB.Exact
import Verif.Namespace.Props
import Verif.Sched.FailProps
import Verif.Sched.WorkProps
/-!
# C68: load-balanced tasks from end to end

`Passes` and `Fails` say what functional dependencies (`@depend`, `@require`) mean, `Chain` what it means that an engine's namespace persists.
A history `h` is any sequence of submissions, registrations, deaths and steps of engines and timers in which message ids and engine ids are not reused.
-/
namespace IPP.LB
open IPP.Namespace

variable {V : Type}

/-! ## Specification -/

/-- All functional dependencies of the callable hold when they are called one after the other, the innermost first, starting in `ns`: none raises or returns `False`.
`f` is the decorated function, `ns'` the namespace that they leave. -/
inductive Passes (i : Interp V) : Callable V → Space V → Fn V → Space V → Prop
  | plain (f : Fn V) (ns : Space V) : Passes i (.plain f) ns f ns
  | dep {c : Callable V} {ns : Space V} {f : Fn V} {ns1 ns2 : Space V} {df : Fn V} {a : List V} {k : List (String × V)} {r : Ret V} :
      Passes i c ns f ns1 → df ns1 a k = (ns2, .ok r) → i.isFalse r = false → Passes i (.dep c df a k) ns f ns2

/-- The first functional dependency that does not hold returns `False` or raises; `e` is the exception. -/
inductive Fails (i : Interp V) : Callable V → Space V → Err → Space V → Prop
  | inner {c : Callable V} {ns : Space V} {e : Err} {ns1 : Space V} {df : Fn V} {a : List V} {k : List (String × V)} : Fails i c ns e ns1 → Fails i (.dep c df a k) ns e ns1
  | isFalse {c : Callable V} {ns : Space V} {f : Fn V} {ns1 ns2 : Space V} {df : Fn V} {a : List V} {k : List (String × V)} {r : Ret V} :
      Passes i c ns f ns1 → df ns1 a k = (ns2, .ok r) → i.isFalse r = true → Fails i (.dep c df a k) ns (.user "UnmetDependency") ns2
  | raised {c : Callable V} {ns : Space V} {f : Fn V} {ns1 ns2 : Space V} {df : Fn V} {a : List V} {k : List (String × V)} {e : Err} :
      Passes i c ns f ns1 → df ns1 a k = (ns2, .raised e) → Fails i (.dep c df a k) ns e ns2

/-- executions one after the other: each starts in the namespace that the one before left -/
inductive Chain : Space V → List (Exec V) → Space V → Prop
  | nil (ns : Space V) : Chain ns [] ns
  | snoc {ns : Space V} {l : List (Exec V)} {x : Exec V} : Chain ns l x.before → Chain ns (l ++ [x]) x.after

/-- executions on an engine -/
def onEngine (e : Sched.Engine) (s : Sys V) : List (Exec V) := s.log.filter (fun l => l.engine = e)

/-- how often the task's own function was called -/
def calls (m : MsgId) (s : Sys V) : Nat := s.log.countP (fun l => l.msg = m && l.started)

/-- replies that the client has for the task -/
def answers (m : MsgId) (s : Sys V) : Nat := s.client.countP (fun x => x.1 = m)

/-- No message or engine id is used twice. -/
def Distinct (h : List (Ev V)) : Prop := (submits h).Nodup ∧ (registers h).Nodup

/-- The default configuration (one task at a time on each engine), or no task with message dependencies and a scheme that picks one of the engines (C22: all do). -/
def Usual (cfg : Sched.Config) (h : List (Ev V)) : Prop := cfg.hwm = 1 ∨ ((∀ m sub t, Ev.submit m sub t ∈ h → Sched.NoDeps sub) ∧ Sched.InRange cfg)

/-! ## Functional dependencies -/

theorem uncan_ok {i : Interp V} {c : Callable V} {ns ns' : Space V} {f : Fn V} : uncan i c ns = (ns', .ok f) ↔ Passes i c ns f ns' := by
  constructor
  · intro h
    induction c generalizing ns ns' with
    | plain g => simp [uncan] at h; obtain ⟨rfl, rfl⟩ := h; exact .plain _ _
    | dep c df a k ih =>
      simp only [uncan] at h
      rcases hc : uncan i c ns with ⟨ns1, e | g⟩
      · rw [hc] at h; simp at h
      · rw [hc] at h
        rcases hd : df ns1 a k with ⟨ns2, r | e⟩
        · simp only [hd] at h
          by_cases hf : i.isFalse r = true
          · rw [if_pos hf] at h; simp at h
          · rw [if_neg hf] at h
            simp at h
            obtain ⟨rfl, rfl⟩ := h
            exact .dep (ih hc) hd (by simpa using hf)
        · simp [hd] at h
  · intro h
    induction h with
    | plain => rfl
    | dep _ hd hf ih => simp only [uncan, ih, hd, hf]; rfl

theorem uncan_error {i : Interp V} {c : Callable V} {ns ns' : Space V} {e : Err} : uncan i c ns = (ns', .error e) ↔ Fails i c ns e ns' := by
  constructor
  · intro h
    induction c generalizing ns ns' with
    | plain g => simp [uncan] at h
    | dep c df a k ih =>
      simp only [uncan] at h
      rcases hc : uncan i c ns with ⟨ns1, e' | g⟩
      · rw [hc] at h
        simp at h
        obtain ⟨rfl, rfl⟩ := h
        exact .inner (ih hc)
      · rw [hc] at h
        rcases hd : df ns1 a k with ⟨ns2, r | e'⟩
        · simp only [hd] at h
          by_cases hf : i.isFalse r = true
          · rw [if_pos hf] at h
            simp at h
            obtain ⟨rfl, rfl⟩ := h
            exact .isFalse (uncan_ok.1 hc) hd hf
          · rw [if_neg hf] at h; simp at h
        · simp [hd] at h
          obtain ⟨rfl, rfl⟩ := h
          exact .raised (uncan_ok.1 hc) hd
  · intro h
    induction h with
    | inner _ ih => simp only [uncan, ih]
    | isFalse hp hd hf => simp only [uncan, uncan_ok.2 hp, hd, hf]; rfl
    | raised hp hd => simp only [uncan, uncan_ok.2 hp, hd]

theorem isOk_iff {ε α : Type} {x : Except ε α} : isOk x = true ↔ ∃ a, x = .ok a := by
  cases x <;> simp [isOk]

/-- what one execution is -/
theorem execute_spec (i : Interp V) (ns : Space V) (msg : String) (t : Task V) (ns' : Space V) (st : Bool) (o : Outcome V) (h : execute i ns msg t = (ns', st, o)) :
    (st = true ∧ ∃ f ns1 as vs, Passes i t.f ns f ns1 ∧ resolveAll ns1 t.args = .ok as ∧ resolveAll ns1 (t.kwargs.map (·.2)) = .ok vs ∧ doApply i.toInterp ns1 msg f t.args t.kwargs = (ns', o)) ∨
    (st = false ∧ ∃ e, o = .raised e ∧ (Fails i t.f ns e ns' ∨ ∃ f, Passes i t.f ns f ns' ∧ (resolveAll ns' t.args = .error e ∨ resolveAll ns' (t.kwargs.map (·.2)) = .error e))) := by
  unfold execute at h
  rcases hu : uncan i t.f ns with ⟨ns1, e | f⟩
  · rw [hu] at h
    simp only [Prod.mk.injEq] at h
    obtain ⟨rfl, rfl, rfl⟩ := h
    exact .inr ⟨rfl, e, rfl, .inl (uncan_error.1 hu)⟩
  · rw [hu] at h
    simp only [Prod.mk.injEq] at h
    obtain ⟨h1, h2, h3⟩ := h
    cases ha : resolveAll ns1 t.args with
    | error e =>
      rw [ha] at h2
      have : doApply i.toInterp ns1 msg f t.args t.kwargs = (ns1, .raised e) := by unfold doApply; rw [ha]
      rw [this] at h1 h3
      refine .inr ⟨by rw [← h2]; rfl, e, h3.symm, .inr ⟨f, ?_, .inl ?_⟩⟩
      · rw [← h1]; exact uncan_ok.1 hu
      · rw [← h1]; exact ha
    | ok as =>
      cases hk : resolveAll ns1 (t.kwargs.map (·.2)) with
      | error e =>
        rw [ha, hk] at h2
        have : doApply i.toInterp ns1 msg f t.args t.kwargs = (ns1, .raised e) := by unfold doApply; rw [ha, hk]
        rw [this] at h1 h3
        refine .inr ⟨by rw [← h2]; rfl, e, h3.symm, .inr ⟨f, ?_, .inr ?_⟩⟩
        · rw [← h1]; exact uncan_ok.1 hu
        · rw [← h1]; exact hk
      | ok vs =>
        rw [ha, hk] at h2
        exact .inl ⟨by rw [← h2]; rfl, f, ns1, as, vs, uncan_ok.1 hu, ha, hk, by rw [← h1, ← h3]⟩

theorem distinct_submit {h : List (Ev V)} (hd : Distinct h) {m : MsgId} {s1 s2 : Sched.Submission} {t1 t2 : Task V} (h1 : Ev.submit m s1 t1 ∈ h) (h2 : Ev.submit m s2 t2 ∈ h) : s1 = s2 ∧ t1 = t2 := by
  have hn := hd.1
  clear hd
  induction h with
  | nil => cases h1
  | cons x h ih =>
    have key : ∀ s t', Ev.submit m s t' ∈ h → m ∈ submits h := fun s t' hs => List.mem_filterMap.2 ⟨_, hs, rfl⟩
    rcases List.mem_cons.1 h1 with a | a <;> rcases List.mem_cons.1 h2 with b | b
    · rw [← a] at b; cases b; exact ⟨rfl, rfl⟩
    · rw [← a] at hn
      simp only [submits, List.filterMap_cons] at hn
      exact absurd (key _ _ b) (List.nodup_cons.1 hn).1
    · rw [← b] at hn
      simp only [submits, List.filterMap_cons] at hn
      exact absurd (key _ _ a) (List.nodup_cons.1 hn).1
    · refine ih a b ?_
      simp only [submits, List.filterMap_cons] at hn ⊢
      split at hn
      · exact hn
      · exact (List.nodup_cons.1 hn).2

/-- **The function is called only where its dependencies hold**: each execution is of a submitted task, in the engine's namespace at that time. Either all functional dependencies
held, one after the other, and the references in the arguments could be resolved: then the function was called, and the outcome and the namespace are those of the call (C64).
Or the function was not called, and the outcome is the error of the first dependency that did not hold (`UnmetDependency` if it returned `False`), or of a reference. -/
theorem execution_right (i : Interp V) (cfg : Sched.Config) (h : List (Ev V)) (hd : Distinct h) (l : Exec V) (hl : l ∈ (run i cfg h).log) :
    ∃ sub t, Ev.submit l.msg sub t ∈ h ∧
      ((l.started = true ∧ ∃ f ns1 as vs, Passes i t.f l.before f ns1 ∧ resolveAll ns1 t.args = .ok as ∧ resolveAll ns1 (t.kwargs.map (·.2)) = .ok vs ∧
        doApply i.toInterp ns1 (toString l.msg) f t.args t.kwargs = (l.after, l.out)) ∨
       (l.started = false ∧ ∃ e, l.out = .raised e ∧ (Fails i t.f l.before e l.after ∨
        ∃ f, Passes i t.f l.before f l.after ∧ (resolveAll l.after t.args = .error e ∨ resolveAll l.after (t.kwargs.map (·.2)) = .error e)))) := by
  have hi := inv i cfg h hd.1 hd.2
  obtain ⟨t, h1, h2⟩ := hi.exe l hl
  obtain ⟨sub, h3⟩ := hi.tsk _ _ h1
  exact ⟨sub, t, h3, execute_spec _ _ _ _ _ _ _ h2⟩

/-- The same for a function that does not look for the engine's temporary variables, called with values: the outcome is what it returns or raises (if that can be pickled),
and the namespace is as it leaves it. -/
theorem call_right (i : Interp V) (cfg : Sched.Config) (h : List (Ev V)) (hd : Distinct h) (m : MsgId) (sub : Sched.Submission) (c : Callable V) (args : List V) (kwargs : List (String × V))
    (hs : Ev.submit m sub ⟨c, args.map .val, kwargs.map (fun e => (e.1, .val e.2))⟩ ∈ h) (l : Exec V) (hl : l ∈ (run i cfg h).log) (hm : l.msg = m) (hst : l.started = true)
    (hun : ∀ f ns ns', Passes i c ns f ns' → Unaware (temps (toString m)) f) :
    ∃ f ns1, Passes i c l.before f ns1 ∧ l.out = sent i.toInterp (f ns1 args kwargs).2 ∧ SameBut (temps (toString m)) l.after (f ns1 args kwargs).1 ∧ Free (temps (toString m)) l.after := by
  obtain ⟨sub', t, h1, h2⟩ := execution_right i cfg h hd l hl
  have ht : t = ⟨c, args.map .val, kwargs.map (fun e => (e.1, .val e.2))⟩ := (distinct_submit hd (hm ▸ h1) hs).2
  subst ht
  rcases h2 with ⟨_, f, ns1, _, _, hp, _, _, ha⟩ | ⟨h3, _⟩
  · refine ⟨f, ns1, hp, ?_⟩
    rw [hm] at ha
    have := apply_effect i.toInterp ns1 (toString m) f args kwargs (hun f _ _ hp)
    rw [ha] at this
    exact this
  · rw [hst] at h3; cases h3

/-! ## Engines -/

/-- **An engine's namespace persists**: its executions start in the initial namespace and continue each other; nothing else changes it. -/
theorem namespace_persists (i : Interp V) (cfg : Sched.Config) (h : List (Ev V)) (e : Sched.Engine) : Chain i.initial (onEngine e (run i cfg h)) ((run i cfg h).ns e) := by
  induction h using Sched.snoc_induction with
  | nil => exact .nil _
  | snoc h x ih =>
    rw [run_snoc]
    cases x with
    | work e' =>
      simp only [LB.step]
      split
      · exact ih
      · split
        · exact ih
        · rename_i m rest hin
          split
          · exact ih
          · unfold onEngine at ih ⊢
            rw [List.filter_append]
            dsimp only
            unfold upd
            by_cases he : e = e'
            · subst he
              simp only [List.filter_cons, decide_true, if_true, List.filter_nil]
              exact Chain.snoc (x := ⟨e, m, (run i cfg h).ns e, _, _, _⟩) ih
            · have h0 : decide (e' = e) = false := by simpa using fun h => he h.symm
              rw [if_neg he]
              simpa [List.filter_cons, h0] using ih
    | deliver e' =>
      simp only [LB.step]
      split <;> exact ih
    | _ => exact ih

/-! ## Results -/

/-- **What the client gets for a task is right**: an engine's reply is the outcome of an execution of this task (and no refusal); an `EngineError` only if an engine to which the task
was sent was unregistered; a failure only if the scheduler gave the task up (C17, C22). -/
theorem reply_right (i : Interp V) (cfg : Sched.Config) (h : List (Ev V)) (hd : Distinct h) (m : MsgId) (r : Final V) (hr : (m, r) ∈ (run i cfg h).client) :
    match r with
    | .reply o => ∃ l ∈ (run i cfg h).log, l.msg = m ∧ l.out = o ∧ o ≠ .raised (.user "UnmetDependency")
    | .engineError => ∃ e, Ev.unregister e ∈ h ∧ Sched.Obs.send e m ∈ (run i cfg h).sched.trace
    | .failed why => Sched.Obs.fail m why ∈ (run i cfg h).sched.trace := by
  have hi := inv i cfg h hd.1 hd.2
  cases r with
  | reply o =>
    obtain ⟨l, h1, h2, h3, h4⟩ := hi.cli m o hr
    refine ⟨l, h1, h2, h3, fun ho => ?_⟩
    subst ho
    simp [refused, unmet] at h4
  | engineError => exact hi.err m hr
  | failed why => exact hi.fai m why hr

/-- A result (not an exception) means that the task's function was called where all its dependencies held, and is what it returned. -/
theorem result_right (i : Interp V) (cfg : Sched.Config) (h : List (Ev V)) (hd : Distinct h) (m : MsgId) (v : Ret V) (hr : (m, Final.reply (.ok v)) ∈ (run i cfg h).client) :
    ∃ l ∈ (run i cfg h).log, ∃ sub t f ns1, l.msg = m ∧ l.started = true ∧ Ev.submit m sub t ∈ h ∧ Passes i t.f l.before f ns1 ∧
      doApply i.toInterp ns1 (toString m) f t.args t.kwargs = (l.after, .ok v) := by
  obtain ⟨l, h1, h2, h3, _⟩ := reply_right i cfg h hd m _ hr
  obtain ⟨sub, t, h5, h6⟩ := execution_right i cfg h hd l h1
  rcases h6 with ⟨h6, f, ns1, _, _, hp, _, _, ha⟩ | ⟨_, e, he, _⟩
  · rw [h3, h2] at ha
    exact ⟨l, h1, sub, t, f, ns1, h2, h6, h2 ▸ h5, hp, ha⟩
  · rw [h3] at he; cases he

theorem orderly_of_usual {i : Interp V} {cfg : Sched.Config} {h : List (Ev V)} (hd : Distinct h) (hu : Usual cfg h) : Sched.Orderly cfg (run i cfg h).evs := by
  have hi := inv i cfg h hd.1 hd.2
  refine hu.imp id fun ⟨h1, h2⟩ => ⟨fun m sub hm => ?_, h2⟩
  obtain ⟨t, ht⟩ := (hi.subev m sub).1 hm
  exact h1 m sub t ht

theorem fresh_evs {i : Interp V} {cfg : Sched.Config} {h : List (Ev V)} (hd : Distinct h) : Sched.Fresh (run i cfg h).evs := by
  have hi := inv i cfg h hd.1 hd.2
  exact ⟨by rw [hi.subs]; exact hd.1, by rw [hi.regs]; exact hd.2⟩

/-- **The client gets at most one reply for a task.** -/
theorem one_answer_partial (i : Interp V) (cfg : Sched.Config) (h : List (Ev V)) (hd : Distinct h) (hu : Usual cfg h) (hs : Settled i cfg h) (m : MsgId) : answers m (run i cfg h) ≤ 1 := by
  have hi := inv i cfg h hd.1 hd.2
  have := Sched.at_most_one_reply_partial cfg _ (fresh_evs hd) (orderly_of_usual hd hu) (evs_result hd.1 hd.2 hs) m
  rw [← hi.sync, ← hi.cnt] at this
  exact this

/-! ## How often the function is called -/

theorem execs_le (i : Interp V) (cfg : Sched.Config) (h : List (Ev V)) (hd : Distinct h) (m : MsgId) :
    (run i cfg h).log.countP (fun l => decide (l.msg = m)) ≤ Sched.sends m (run i cfg h).sched.trace := by
  have hi := inv i cfg h hd.1 hd.2
  generalize hA : ((run i cfg h).log.filter (fun l => decide (l.msg = m))).map (·.engine) = A
  generalize hB : (run i cfg h).sched.trace.filterMap (fun o => match o with | .send e m' => if m' = m then some e else none | _ => none) = B
  have h1 : A.length ≤ B.length := by
    refine length_le_of_count A B fun e => ?_
    have hx : A.count e = (run i cfg h).log.countP (fun l => decide (l.engine = e ∧ l.msg = m)) := by
      rw [← hA]
      induction (run i cfg h).log with
      | nil => rfl
      | cons l t ih =>
        by_cases h1 : l.msg = m <;> by_cases h2 : l.engine = e <;> simp_all [List.filter_cons, List.countP_cons, List.count_cons]
    have hy : B.count e = (run i cfg h).sched.trace.count (.send e m) := by
      rw [← hB]
      clear hx hA hB hi
      induction (run i cfg h).sched.trace with
      | nil => rfl
      | cons o t ih =>
        rw [List.filterMap_cons, List.count_cons, ← ih]
        cases o with
        | send e' m' => by_cases h1 : m' = m <;> by_cases h2 : e' = e <;> simp [h1, h2]
        | _ => simp
    have := hi.execs e m
    omega
  have h2 : A.length = (run i cfg h).log.countP (fun l => decide (l.msg = m)) := by rw [← hA, List.length_map, List.countP_eq_length_filter]
  have h3 : B.length = Sched.sends m (run i cfg h).sched.trace := by
    rw [← hB]
    unfold Sched.sends
    clear hi h1 h2 hB
    induction (run i cfg h).sched.trace with
    | nil => rfl
    | cons o t ih =>
      rw [List.filterMap_cons, List.countP_cons, ← ih]
      cases o with
      | send e' m' => by_cases h1 : m' = m <;> simp [h1]
      | _ => simp
  omega

theorem refusals_le (i : Interp V) (cfg : Sched.Config) (h : List (Ev V)) (hd : Distinct h) (m : MsgId) :
    Sched.refusals m (run i cfg h).sched.trace ≤ (run i cfg h).log.countP (fun l => decide (l.msg = m ∧ refused l.out = true)) := by
  have hi := inv i cfg h hd.1 hd.2
  generalize hA : ((run i cfg h).log.filter (fun l => decide (l.msg = m ∧ refused l.out = true))).map (·.engine) = A
  generalize hB : (run i cfg h).sched.trace.filterMap (fun o => match o with | .received e m' _ false => if m' = m then some e else none | _ => none) = B
  have h1 : B.length ≤ A.length := by
    refine length_le_of_count B A fun e => ?_
    have hx : A.count e = (run i cfg h).log.countP (fun l => decide (l.engine = e ∧ l.msg = m ∧ refused l.out = true)) := by
      rw [← hA]
      induction (run i cfg h).log with
      | nil => rfl
      | cons l t ih =>
        rw [List.filter_cons, List.countP_cons, ← ih]
        by_cases h1 : l.msg = m ∧ refused l.out = true <;> by_cases h2 : l.engine = e <;> simp [h1, h2]
    have hy : B.count e = gotRefusals e m (run i cfg h).sched.trace := by
      rw [← hB]
      unfold gotRefusals
      clear hx hA hB hi
      induction (run i cfg h).sched.trace with
      | nil => rfl
      | cons o t ih =>
        rw [List.filterMap_cons, List.countP_cons, ← ih]
        cases o with
        | received e' m' ok dm => cases dm <;> by_cases h1 : m' = m <;> by_cases h2 : e' = e <;> simp [h1, h2]
        | _ => simp
    have := hi.refs e m
    omega
  have h2 : A.length = (run i cfg h).log.countP (fun l => decide (l.msg = m ∧ refused l.out = true)) := by rw [← hA, List.length_map, List.countP_eq_length_filter]
  have h3 : B.length = Sched.refusals m (run i cfg h).sched.trace := by
    rw [← hB]
    unfold Sched.refusals
    clear hi h1 h2 hB
    induction (run i cfg h).sched.trace with
    | nil => rfl
    | cons o t ih =>
      rw [List.filterMap_cons, List.countP_cons, ← ih]
      cases o with
      | received e' m' ok dm => cases dm <;> by_cases h1 : m' = m <;> simp [h1]
      | _ => simp
  omega

/-- the functions that the task may call as its body never raise `UnmetDependency` -/
def Civil (i : Interp V) (t : Task V) : Prop := ∀ ns f ns1, Passes i t.f ns f ns1 → ∀ n a k, (f n a k).2 ≠ .raised (.user "UnmetDependency")

theorem doApply_civil (i : Namespace.Interp V) (ns : Space V) (msg : String) (f : Fn V) (args : List (Arg V)) (kwargs : List (String × Arg V)) (as vs : List V) (ha : resolveAll ns args = .ok as)
    (hk : resolveAll ns (kwargs.map (·.2)) = .ok vs) (hf : ∀ n a k, (f n a k).2 ≠ .raised (.user "UnmetDependency")) : refused (doApply i ns msg f args kwargs).2 = false := by
  obtain ⟨h1, _⟩ := doApply_eq i ns msg f args kwargs as vs ha hk
  rw [h1]
  have := hf ((temps msg).foldl (fun n k => set k .internal n) ns) as ((kwargs.map (·.1)).zip vs)
  cases ho : (f ((temps msg).foldl (fun n k => set k .internal n) ns) as ((kwargs.map (·.1)).zip vs)).2 with
  | ok r =>
    simp only [sent]
    split <;> simp [refused, unmet]
  | raised e =>
    rw [ho] at this
    exact decide_eq_false fun he => this (congrArg Outcome.raised he)

/-- **A task's function is called at most `retries + 1` times**, and without retries at most once, wherever and however often engines refuse the task because of its functional dependencies
or die with it. -/
theorem called_at_most_partial (i : Interp V) (cfg : Sched.Config) (h : List (Ev V)) (hd : Distinct h) (hu : Usual cfg h) (hs : Settled i cfg h) (m : MsgId) (sub : Sched.Submission) (t : Task V)
    (hmt : Ev.submit m sub t ∈ h) (hc : Civil i t) : calls m (run i cfg h) ≤ sub.retries + 1 := by
  have hi := inv i cfg h hd.1 hd.2
  have h1 := execs_le i cfg h hd m
  by_cases hm : Sched.Obs.submitted m sub ∈ (run i cfg h).sched.trace
  case neg =>
    have h5 : Sched.sends m (run i cfg h).sched.trace = 0 := by
      refine List.countP_eq_zero.2 fun o ho => ?_
      cases o with
      | send e m' =>
        intro hmm
        have hmm : m' = m := by simpa using hmm
        subst hmm
        have hf := fresh_evs (i := i) (cfg := cfg) hd
        rw [hi.sync] at ho
        obtain ⟨sub', hs'⟩ := (Sched.run_jobInv cfg _ hf).sent_sub ho
        have he : Sched.Event.submit m' sub' ∈ (run i cfg h).evs := (Sched.run_base cfg _ hf).2 _ hs'
        have := hf.submit_unique ((hi.subev m' sub).2 ⟨t, hmt⟩) he
        subst this
        exact hm (by rw [hi.sync]; exact hs')
      | _ => simp
    have h6 : calls m (run i cfg h) ≤ (run i cfg h).log.countP (fun l => decide (l.msg = m)) := List.countP_mono_left fun l _ hl => by simp at hl ⊢; exact hl.1
    omega
  have h2 := refusals_le i cfg h hd m
  have h3 := Sched.started_at_most_partial cfg _ (fresh_evs (i := i) hd) (orderly_of_usual hd hu) (evs_result hd.1 hd.2 hs) m sub (by rw [← hi.sync]; exact hm)
  rw [← hi.sync] at h3
  have h4 : calls m (run i cfg h) + (run i cfg h).log.countP (fun l => decide (l.msg = m ∧ refused l.out = true)) ≤ (run i cfg h).log.countP (fun l => decide (l.msg = m)) := by
    have key : ∀ l ∈ (run i cfg h).log, l.msg = m → l.started = true → refused l.out = false := by
      intro l hl hlm hst
      obtain ⟨sub', t', h5, h6⟩ := execution_right i cfg h hd l hl
      rcases h6 with ⟨_, f, ns1, as, vs, hp, ha, hk, hap⟩ | ⟨hns, _⟩
      · have := doApply_civil i.toInterp ns1 (toString l.msg) f t'.args t'.kwargs as vs ha hk (by have he := (distinct_submit hd (hlm ▸ h5) hmt).2; subst he; exact hc _ f _ hp)
        rw [hap] at this
        exact this
      · rw [hst] at hns; cases hns
    unfold calls
    revert key
    generalize (run i cfg h).log = L
    intro key
    induction L with
    | nil => simp
    | cons l L ih =>
      have ih := ih fun l' hl' => key l' (List.mem_cons_of_mem _ hl')
      have kl := key l (by simp)
      simp only [List.countP_cons]
      generalize List.countP (fun l : Exec V => decide (l.msg = m ∧ refused l.out = true)) L = x at ih ⊢
      by_cases h1 : l.msg = m
      · cases hst : l.started
        · simp [h1]; split <;> omega
        · simp [h1, kl h1 hst]; omega
      · simp [h1]; omega
  omega

/-! ## Every task gets somewhere -/

theorem registered_in (cfg : Sched.Config) (evs : List Sched.Event) (hf : Sched.Fresh evs) (e : Sched.Engine) (h : Sched.Event.register e ∈ evs) : Sched.Obs.registered e ∈ (Sched.run cfg evs).trace := by
  induction evs using Sched.snoc_induction with
  | nil => cases h
  | snoc evs ev ih =>
    have hb := Sched.run_base cfg evs hf.snoc
    have hfr := hf.freshIn hb.1 hb.2
    rw [Sched.run_snoc]
    rcases List.mem_append.1 h with h | h
    · exact Sched.step_pres (Sched.mem_closed cfg ev _) _ (ih hf.snoc h) hfr
    · cases List.mem_singleton.1 h
      refine Sched.Hoare.final (I := fun s => Sched.Obs.registered e ∈ s.trace) (P := fun s => s = Sched.run cfg evs) ?_ rfl
      unfold Sched.handle Sched.registerEngine Sched.emit
      refine Sched.Hoare.modS fun s h => Sched.Hoare.modS fun s' h' => ?_
      subst h'
      refine (Sched.updateGraph_pres (Sched.mem_closed cfg (.jobTimer 0 0) _) _ _).pre fun s hs => ?_
      subst hs
      simp

theorem submitted_in (cfg : Sched.Config) (evs : List Sched.Event) (hf : Sched.Fresh evs) (m : MsgId) (sub : Sched.Submission) (hn : Sched.NoDeps sub) (h : Sched.Event.submit m sub ∈ evs) :
    Sched.Obs.submitted m sub ∈ (Sched.run cfg evs).trace := by
  have hj := Sched.job_exists cfg evs hf m sub hn.wellFormed h
  cases hj' : (Sched.run cfg evs).jobs m with
  | none => exact absurd hj' hj
  | some j =>
    obtain ⟨sub', h1, _⟩ := (Sched.run_jobInv cfg evs hf).job m j hj'
    have h2 : Sched.Event.submit m sub' ∈ evs := (Sched.run_base cfg evs hf).2 _ h1
    rwa [hf.submit_unique h h2]

/-- **No task is forgotten**: as long as no engine dies and no task has message dependencies, once all engines have done and reported what they were sent, each submitted task has been answered, or
each engine on which it may run has executed it, always without success (it refused it, or raised an exception and the task had retries left). -/
theorem answered_or_tried_partial (i : Interp V) (cfg : Sched.Config) (h : List (Ev V)) (hd : Distinct h) (hr : Sched.InRange cfg) (hn : ∀ m sub t, Ev.submit m sub t ∈ h → Sched.NoDeps sub)
    (hc : ∀ e k, Ev.crash e k ∉ h) (hu : ∀ e, Ev.unregister e ∉ h) (hidle : ∀ e, (run i cfg h).inbox e = [] ∧ (run i cfg h).outbox e = [])
    (m : MsgId) (sub : Sched.Submission) (t : Task V) (hm : Ev.submit m sub t ∈ h) :
    answers m (run i cfg h) = 1 ∨
    ((∀ e, Ev.register e ∈ h → (sub.targets ≠ [] ∧ e ∉ sub.targets) ∨ ∃ l ∈ (run i cfg h).log, l.engine = e ∧ l.msg = m) ∧
      ∀ l ∈ (run i cfg h).log, l.msg = m → ∃ err, l.out = .raised err ∧ (err = .user "UnmetDependency" ∨ 0 < sub.retries)) := by
  have hi := inv i cfg h hd.1 hd.2
  have hf := fresh_evs (i := i) (cfg := cfg) hd
  have hdead : ∀ e, (run i cfg h).dead e = false := by
    intro e
    have hc' := hc
    clear hidle hm hi hf hu hn hd hc
    induction h using Sched.snoc_induction with
    | nil => rfl
    | snoc h x ih =>
      have ih := ih fun e k hk => hc' e k (List.mem_append_left _ hk)
      rw [run_snoc]
      cases x with
      | crash e' k => exact absurd (List.mem_append_right _ (List.mem_singleton.2 rfl)) (hc' e' k)
      | work e' =>
        simp only [LB.step]
        split
        · exact ih
        · split
          · exact ih
          · split <;> exact ih
      | deliver e' => simp only [LB.step]; split <;> exact ih
      | _ => exact ih
  have hind : Sched.Independent (run i cfg h).evs := by
    intro m' sub' hm'
    obtain ⟨t', ht'⟩ := (hi.subev m' sub').1 hm'
    exact hn m' sub' t' ht'
  -- without unregistrations no timer is armed
  have hnostrand : ∀ (p : List (Ev V)) q, h = p ++ q → (run i cfg p).sched.strandTimers = [] := by
    intro p q hpq
    have hdp : Distinct p := by
      subst hpq
      constructor
      · have := hd.1; unfold submits at this; rw [List.filterMap_append] at this; exact (List.nodup_append.1 this).1
      · have := hd.2; unfold registers at this; rw [List.filterMap_append] at this; exact (List.nodup_append.1 this).1
    have hip := inv i cfg p hdp.1 hdp.2
    have hb := Sched.run_base cfg _ (fresh_evs (i := i) (cfg := cfg) hdp)
    cases hst : (run i cfg p).sched.strandTimers with
    | nil => rfl
    | cons e l =>
      have h1 := hb.2 _ (hb.1.strand e (by rw [← hip.sync, hst]; simp))
      exact absurd (by rw [hpq]; exact List.mem_append_left _ (hip.unre e h1)) (hu e)
  have hsett : Settled i cfg h := fun p e q hpq he => by rw [hnostrand p _ hpq] at he; cases he
  have hprompt : Sched.Prompt cfg (run i cfg h).evs := evs_result hd.1 hd.2 hsett
  have hholds : Holds (run i cfg h) := holds i cfg h hd.1 hd.2 hsett
  have hev : Sched.Event.submit m sub ∈ (run i cfg h).evs := (hi.subev m sub).2 ⟨t, hm⟩
  have hsub := submitted_in cfg _ hf m sub (hn m sub t hm) hev
  have hex := exact i cfg h hd.1 hd.2
  have hasg : ∀ e, Sched.assigned e (Sched.run cfg (run i cfg h).evs).trace = [] := by
    intro e
    rw [← List.length_eq_zero_iff, ← hi.sync]
    refine Nat.le_zero.1 (length_le_of_count _ [] fun x => ?_)
    have := (hholds e x).2 (hdead e)
    rw [(hidle e).1, (hidle e).2] at this
    simp at this ⊢
    omega
  have hcnt := hi.cnt m
  rcases Nat.eq_zero_or_pos (Sched.replies m (run i cfg h).sched.trace) with h0 | h0
  · right
    rw [hi.sync] at h0
    have hrel : Sched.relays m (Sched.run cfg (run i cfg h).evs).trace = 0 := Nat.le_zero.1 (h0 ▸ Sched.relays_le_replies m _)
    refine ⟨fun e he => ?_, fun l hl hlm => ?_⟩
    · have hreg0 : Sched.Event.register e ∈ (run i cfg h).evs := by
        have : e ∈ registers h := List.mem_filterMap.2 ⟨_, he, rfl⟩
        rw [← hi.regs] at this
        obtain ⟨ev, h1, h2⟩ := List.mem_filterMap.1 this
        cases ev <;> simp [Sched.Event.regId] at h2
        exact h2 ▸ h1
      have hreg1 := registered_in cfg _ hf e hreg0
      have hreg : Sched.Registered e (Sched.run cfg (run i cfg h).evs).trace := by
        unfold Sched.Registered
        have h1 : 0 < (Sched.run cfg (run i cfg h).evs).trace.count (.registered e) := List.count_pos_iff.2 hreg1
        have h2 : (Sched.run cfg (run i cfg h).evs).trace.count (.unregistered e) = 0 := by
          refine List.count_eq_zero.2 fun h3 => ?_
          exact hu e (hi.unre e ((Sched.run_base cfg _ hf).2 _ h3))
        omega
      rcases Sched.no_engine_idles_partial cfg _ hf hind hr hprompt m sub hev h0 (fun e' h' => by rw [hasg e'] at h'; cases h') e hreg with ⟨h1, h2⟩ | ⟨c, h1⟩ | h1
      · rw [hasg e] at h2; simp at h2; omega
      · right
        have h2 := (Sched.run_jobInv cfg _ hf).retr e m c h1
        have h3 := (hex e (hdead e) m).1
        rw [(hidle e).1, hi.sync] at h3
        have h4 : 0 < (Sched.run cfg (run i cfg h).evs).trace.count (.send e m) := List.count_pos_iff.2 h2
        simp only [List.count_nil] at h3
        obtain ⟨l, hl, hp⟩ := List.countP_pos_iff.1 (show 0 < List.countP (fun l => decide (l.engine = e ∧ l.msg = m)) (run i cfg h).log by omega)
        simp at hp
        exact ⟨l, hl, hp.1, hp.2⟩
      · exact .inl h1
    · have h3 := (hex l.engine (hdead _) m).2 (succeeded l.out) (!refused l.out)
      rw [(hidle l.engine).2] at h3
      have h4 : 0 < (run i cfg h).log.countP (fun l' => decide (l'.engine = l.engine) && isClass m (succeeded l.out) (!refused l.out) (l'.msg, l'.out)) :=
        List.countP_pos_iff.2 ⟨l, hl, by simp [isClass, hlm]⟩
      simp only [List.countP_nil, Nat.add_zero] at h3
      have h5 : Sched.Obs.received l.engine m (succeeded l.out) (!refused l.out) ∈ (Sched.run cfg (run i cfg h).evs).trace := by
        rw [← hi.sync]; exact List.count_pos_iff.1 (by omega)
      have hfa := hprompt.faithful hf
      cases hout : l.out with
      | ok r =>
        rw [hout] at h5
        obtain ⟨p, q, hpq⟩ := List.append_of_mem h5
        rcases Sched.success_relayed_at_once cfg _ hf hfa p q l.engine m hpq with h6 | ⟨q', h6⟩
        · exfalso
          have : Sched.relays m p ≤ Sched.relays m (Sched.run cfg (run i cfg h).evs).trace := by rw [hpq]; unfold Sched.relays; rw [List.countP_append]; omega
          omega
        · exfalso
          have : 0 < Sched.relays m (Sched.run cfg (run i cfg h).evs).trace := List.countP_pos_iff.2 ⟨.relay l.engine m true, by rw [hpq, h6]; simp, by simp⟩
          omega
      | raised err =>
        refine ⟨err, rfl, ?_⟩
        by_cases herr : err = .user "UnmetDependency"
        · exact .inl herr
        · right
          rw [hout] at h5
          have h6 : refused (Outcome.raised err : Outcome V) = false := decide_eq_false herr
          rw [h6] at h5
          have h7 : 0 < Sched.failures m (Sched.run cfg (run i cfg h).evs).trace := List.countP_pos_iff.2 ⟨_, h5, by simp [succeeded]⟩
          rcases Nat.eq_zero_or_pos sub.retries with h8 | h8
          · have := Sched.too_many_failures_relayed cfg _ hf hfa m sub hsub (by omega)
            omega
          · exact h8
  · left
    have h1 := Sched.at_most_one_reply_partial cfg _ hf (.inr ⟨hind, hr⟩) hprompt m
    rw [← hi.sync] at h1
    unfold answers
    omega

end IPP.LB
