import Verif.Magics.Model
/-!
# C79: the parallel magics do what the configuration and the arguments of the cell say
-/
namespace IPP.Magics

/-! ## Specification -/
namespace Spec

/-- the targets a cell is meant for: those of its `--targets`, or those of the view -/
def Chosen (env : Env) (s : St) (args : Args) (t : Targets) : Prop :=
  (args.targets = none ∧ t = s.conf.targets) ∨ (∃ x, args.targets = some x ∧ env.eval x = some t)

/-- what was submitted -/
def submitted (evs : List Ev) : List (Nat × Targets) := evs.filterMap fun | .submit c t => some (c, t) | _ => none
/-- signals sent to engines -/
def signalled (evs : List Ev) : List (Nat × Targets) := evs.filterMap fun | .signal c t => some (c, t) | _ => none
/-- how often the outputs were streamed and how often they were displayed -/
def streamed (evs : List Ev) : Nat := evs.countP (· = .stream)
def displayed (evs : List Ev) : List Nat := evs.filterMap fun | .display g => some g | _ => none
def ranLocally (evs : List Ev) : List Nat := evs.filterMap fun | .localRun c => some c | _ => none

/-- an option given with the cell, else the configured one -/
def Effective {α} (given : Option α) (configured eff : α) : Prop := eff = match given with | some x => x | none => configured

/-- Ctrl-C arrives during one of the calls that a blocking cell makes one after the other: the quick wait (with `progress_after > 0`), the progress bar (if not done by then; never with a negative value), and the fetching of the result -/
def Interrupted (env : Env) (after : Int) : Prop :=
  let quick := after > 0 ∧ (env.wait1 = .interrupt ∨ env.wait2 = .interrupt)
  let bar := after ≥ 0 ∧ (after > 0 → env.done = false) ∧ (env.wait3 = .interrupt ∨ env.wait4 = .interrupt)
  quick ∨ bar ∨ env.get = .interrupt

/-- no Ctrl-C while the cell blocks -/
def Quiet (env : Env) : Prop := env.wait1 = .fine ∧ env.wait2 = .fine ∧ env.wait3 = .fine ∧ env.wait4 = .fine ∧ env.wait5 = .fine ∧ env.get ≠ .interrupt

end Spec

/-! ## lemmas about the pieces -/

theorem execute_conf (env : Env) (s : St) (c : Nat) (b g sv st af sg) : (execute env s c b g sv st af sg).1.conf = s.conf := by
  simp only [execute]
  split
  · rfl
  · split <;> rfl

theorem cellPx_unfold (env : Env) (s : St) (args : Args) (cell : Nat) (t : Targets) (ht : Spec.Chosen env s args t) :
    cellPx env s args cell =
      (let r := execute env { s with conf := { s.conf with targets := t } } cell (if args.isLocal then some false else args.block) args.groupby args.save args.stream args.after args.signal
       let s2 : St := { r.1 with conf := { r.1.conf with targets := s.conf.targets } }
       match r.2.2 with
       | .raised e => (s2, r.2.1, .raised e)
       | o => let x := afterExecute env s2 args cell o; (s2, r.2.1 ++ x.1, x.2)) := by
  rcases ht with ⟨h, rfl⟩ | ⟨x, h, e⟩
  · unfold cellPx; rw [h]; rfl
  · unfold cellPx; rw [h]; simp only [e]; rfl

theorem cellPx_unchosen (env : Env) (s : St) (args : Args) (cell : Nat) (h : ∀ t, ¬ Spec.Chosen env s args t) :
    cellPx env s args cell = (s, [], .raised .other) := by
  unfold cellPx
  cases ha : args.targets with
  | none => exact absurd (Or.inl ⟨ha, rfl⟩) (h s.conf.targets)
  | some x =>
    cases he : env.eval x with
    | none => simp [he]
    | some t => exact absurd (Or.inr ⟨x, ha, he⟩) (h t)

/-! ## The theorems -/

/-- **C79 (the configuration survives a cell).** However `%%px` ends — result, remote error, Ctrl-C, failed submission, bad target — the view's targets and all options are afterwards what they were before: arguments of a cell never leak into the next one. -/
theorem cell_leaves_configuration (env : Env) (s : St) (args : Args) (cell : Nat) : (cellPx env s args cell).1.conf = s.conf := by
  rcases Classical.em (∃ t, Spec.Chosen env s args t) with ⟨t, ht⟩ | h
  · rw [cellPx_unfold env s args cell t ht]
    simp only
    split <;> simp [execute_conf]
  · rw [cellPx_unchosen env s args cell (fun t ht => h ⟨t, ht⟩)]

theorem submitted_execute (env : Env) (s : St) (c : Nat) (b g sv st af sg) :
    Spec.submitted (execute env s c b g sv st af sg).2.1 = if env.submitOk then [(c, s.conf.targets)] else [] := by
  simp only [execute]
  have hsay : ∀ l, Spec.submitted ((if s.conf.verbose = true then [Ev.say] else []) ++ l) = Spec.submitted l := by
    intro l; cases s.conf.verbose <;> simp [Spec.submitted]
  cases env.submitOk
  · simp; cases s.conf.verbose <;> simp [Spec.submitted]
  · simp only [Bool.true_eq_false, if_false, if_true]
    split
    · have h1 : ∀ e sg t, Spec.submitted (onInterrupt env sg t e).2 = [] := by
        intro e sg t; unfold onInterrupt; split
        · split <;> simp [Spec.submitted]
        · simp [Spec.submitted]
      have h2 : ∀ st g e, Spec.submitted (finally_ env st g e).2 = [] := by
        intro st g e; unfold finally_; split
        · simp [Spec.submitted]
        · split <;> simp [Spec.submitted]
      rw [List.append_assoc, List.append_assoc, List.append_assoc, hsay]
      have happ : ∀ a b, Spec.submitted (a ++ b) = Spec.submitted a ++ Spec.submitted b := by intro a b; simp [Spec.submitted]
      rw [happ, happ, happ, h1, h2]
      split <;> simp [Spec.submitted]
    · rw [hsay]; simp [Spec.submitted]

theorem submitted_after (env : Env) (s : St) (args : Args) (cell : Nat) (o : Out) : Spec.submitted (afterExecute env s args cell o).1 = [] := by
  have : ∀ x ∈ (afterExecute env s args cell o).1, ∀ c t, x ≠ .submit c t := by
    intro x hx c t e
    subst e
    simp only [afterExecute] at hx
    split at hx <;> (split at hx <;> (try split at hx) <;> (try split at hx) <;> simp at hx)
  simp only [Spec.submitted, List.filterMap_eq_nil_iff]
  intro x hx
  cases x <;> simp_all
  exact absurd rfl (this _ hx _ _)

/-- **C79 (one submission).** A cell with `%%px` is submitted exactly once, unchanged, to the engines of its `--targets`, or else to the view's; if the target expression cannot be evaluated, or the submission is refused, nothing is submitted. -/
theorem cell_submitted_once (env : Env) (s : St) (args : Args) (cell : Nat) :
    (∀ t, Spec.Chosen env s args t → env.submitOk = true → Spec.submitted (cellPx env s args cell).2.1 = [(cell, t)]) ∧
    ((∀ t, ¬ Spec.Chosen env s args t) ∨ env.submitOk = false → Spec.submitted (cellPx env s args cell).2.1 = [] ∧ (cellPx env s args cell).2.2 = .raised .other ∧ (cellPx env s args cell).1 = s) := by
  constructor
  · intro t ht hok
    rw [cellPx_unfold env s args cell t ht]
    simp only
    split
    · simp [submitted_execute, hok]
    · have happ : ∀ a b, Spec.submitted (a ++ b) = Spec.submitted a ++ Spec.submitted b := by intro a b; simp [Spec.submitted]
      simp only [happ, submitted_after, submitted_execute, hok]; simp
  · intro h
    rcases Classical.em (∃ t, Spec.Chosen env s args t) with ⟨t, ht⟩ | h'
    · have hok : env.submitOk = false := by
        rcases h with h | h
        · exact absurd ht (h t)
        · exact h
      rw [cellPx_unfold env s args cell t ht]
      simp only [execute, hok]
      simp
      cases s.conf.verbose <;> simp [Spec.submitted]
    · rw [cellPx_unchosen env s args cell (fun t ht => h' ⟨t, ht⟩)]
      simp [Spec.submitted]

/-- **C79 (the last result).** Once submitted, the result is the one `%pxresult` refers to and the one stored under the name given with `-o`, whether or not the cell then fails; nothing else of the namespace changes. -/
theorem cell_records_result (env : Env) (s : St) (args : Args) (cell : Nat) (t : Targets) (ht : Spec.Chosen env s args t) (hok : env.submitOk = true) :
    (cellPx env s args cell).1.last = some s.next ∧ (cellPx env s args cell).1.next = s.next + 1 ∧
    (∀ n, args.save = some n → (cellPx env s args cell).1.ns.lookup n = some s.next) ∧
    (∀ m, args.save ≠ some m → (cellPx env s args cell).1.ns.lookup m = s.ns.lookup m) := by
  have hs : ∀ (b g st af sg) (s1 : St), (execute env s1 cell b g args.save st af sg).1.last = some s1.next ∧
      (execute env s1 cell b g args.save st af sg).1.next = s1.next + 1 ∧
      (execute env s1 cell b g args.save st af sg).1.ns = (match args.save with | some n => (n, s1.next) :: s1.ns | none => s1.ns) := by
    intro b g st af sg s1
    simp only [execute, hok]
    simp only [Bool.true_eq_false, if_false]
    split <;> refine ⟨rfl, rfl, ?_⟩ <;> cases args.save <;> rfl
  have hns : (cellPx env s args cell).1.ns = (match args.save with | some n => (n, s.next) :: s.ns | none => s.ns) := by
    rw [cellPx_unfold env s args cell t ht]; simp only
    split <;> simp [hs]
  refine ⟨?_, ?_, ?_, ?_⟩
  · rw [cellPx_unfold env s args cell t ht]; simp only
    split <;> simp [hs]
  · rw [cellPx_unfold env s args cell t ht]; simp only
    split <;> simp [hs]
  · intro n hn; rw [hns, hn]; simp
  · intro m hm
    rw [hns]
    cases hsv : args.save with
    | none => rfl
    | some n =>
      have : m ≠ n := by intro e; subst e; exact hm hsv
      have h2 : (m == n) = false := by simpa using this
      simp [List.lookup_cons, h2]

/-! ### without `--local` -/

/-- the events of a cell that blocks -/
theorem cell_blocking (env : Env) (s : St) (args : Args) (cell : Nat) (t : Targets) (ht : Spec.Chosen env s args t) (hok : env.submitOk = true)
    (hl : args.isLocal = false) (hb : Spec.Effective args.block s.conf.block true)
    (st : Bool) (hst : Spec.Effective args.stream s.conf.stream st) (af : Int) (haf : Spec.Effective args.after s.conf.progressAfter af)
    (sg : Option Nat) (hsg : Spec.Effective (args.signal.map some) s.conf.signal sg) :
    (cellPx env s args cell).2.1 = (if s.conf.verbose then [Ev.say] else []) ++ [.submit cell t] ++ (if st then [.stream, .unstream] else []) ++ (onInterrupt env sg t (body env st af)).2 ++ (finally_ env st args.groupby (onInterrupt env sg t (body env st af)).1).2 ∧
    (cellPx env s args cell).2.2 = (finally_ env st args.groupby (onInterrupt env sg t (body env st af)).1).1.elim .none .raised := by
  have e1 : args.block.getD s.conf.block = true := by
    unfold Spec.Effective at hb; cases h : args.block <;> rw [h] at hb <;> simp_all
  have e2 : args.stream.getD s.conf.stream = st := by
    unfold Spec.Effective at hst; cases h : args.stream <;> rw [h] at hst <;> simp_all
  have e3 : args.after.getD s.conf.progressAfter = af := by
    unfold Spec.Effective at haf; cases h : args.after <;> rw [h] at haf <;> simp_all
  have e4 : args.signal.or s.conf.signal = sg := by
    unfold Spec.Effective at hsg; cases h : args.signal <;> rw [h] at hsg <;> simp_all
  rw [cellPx_unfold env s args cell t ht]
  simp only [hl, Bool.false_eq_true, if_false]
  simp only [execute, hok, e1, e2, e3, e4, Bool.true_eq_false, if_false, if_true]
  cases hf : (finally_ env st args.groupby (onInterrupt env sg t (body env st af)).1).1 with
  | none => simp [afterExecute, hl, e1]
  | some e => simp

/-- **C79 (blocking, no interrupt).** A blocking cell returns nothing, and raises iff the remote execution failed: a `CompositeError`, shown in its abbreviated form exactly if its output was streamed and complete. -/
theorem blocking_cell_raises_iff_failed (env : Env) (s : St) (args : Args) (cell : Nat) (t : Targets) (ht : Spec.Chosen env s args t) (hok : env.submitOk = true)
    (hl : args.isLocal = false) (hb : Spec.Effective args.block s.conf.block true) (hq : Spec.Quiet env)
    (st : Bool) (hst : Spec.Effective args.stream s.conf.stream st) :
    (cellPx env s args cell).2.2 = match env.get with
      | .fine => .none
      | .composite => if st = true ∧ env.outputReady = true then .raised .alreadyDisplayed else .raised .composite
      | _ => .raised .other := by
  obtain ⟨q1, q2, q3, q4, q5, q6⟩ := hq
  rw [(cell_blocking env s args cell t ht hok hl hb st hst _ rfl _ rfl).2]
  have hbody : ∀ af, body env st af = match env.get with
      | .fine => none
      | .composite => if st = true ∧ env.outputReady = true then some .alreadyDisplayed else some .composite
      | _ => some .other := by
    intro af
    simp only [body, q1, q2, q3, q4]
    cases hg : env.get <;> simp_all
  rw [hbody]
  cases hg : env.get
  · simp [onInterrupt, finally_, q5]; cases st <;> simp
  · exact absurd hg q6
  · cases st <;> cases env.outputReady <;> simp [onInterrupt, finally_, q5]
  · cases st <;> simp [onInterrupt, finally_, q5]

/-- **C79 (shown once).** The outputs of a blocking cell are streamed, or displayed after the end, never both: displayed also when the cell failed or was interrupted (unless a second Ctrl-C arrives during the wait for them), grouped as asked. -/
theorem blocking_cell_shown_once (env : Env) (s : St) (args : Args) (cell : Nat) (t : Targets) (ht : Spec.Chosen env s args t) (hok : env.submitOk = true)
    (hl : args.isLocal = false) (hb : Spec.Effective args.block s.conf.block true) (st : Bool) (hst : Spec.Effective args.stream s.conf.stream st) :
    Spec.streamed (cellPx env s args cell).2.1 = (if st then 1 else 0) ∧
    (st = true → Spec.displayed (cellPx env s args cell).2.1 = []) ∧
    (st = false → env.wait5 = .fine → Spec.displayed (cellPx env s args cell).2.1 = [args.groupby]) := by
  rw [(cell_blocking env s args cell t ht hok hl hb st hst _ rfl _ rfl).1]
  have hx : ∀ sg e, Spec.streamed (onInterrupt env sg t e).2 = 0 ∧ Spec.displayed (onInterrupt env sg t e).2 = [] := by
    intro sg e; unfold onInterrupt; split
    · split <;> simp [Spec.streamed, Spec.displayed]
    · simp [Spec.streamed, Spec.displayed]
  have hstr : ∀ a b, Spec.streamed (a ++ b) = Spec.streamed a + Spec.streamed b := by intro a b; simp [Spec.streamed]
  have hdis : ∀ a b, Spec.displayed (a ++ b) = Spec.displayed a ++ Spec.displayed b := by intro a b; simp [Spec.displayed]
  have hsay : Spec.streamed (if s.conf.verbose = true then [Ev.say] else []) = 0 ∧ Spec.displayed (if s.conf.verbose = true then [Ev.say] else []) = [] := by
    cases s.conf.verbose <;> simp [Spec.streamed, Spec.displayed]
  simp only [hstr, hdis, hx, hsay, finally_]
  cases st
  · refine ⟨?_, (by simp), ?_⟩
    · split <;> simp [Spec.streamed]
      split <;> simp
    · intro _ h5; simp [h5, Spec.displayed]
  · refine ⟨by simp [Spec.streamed], by simp [Spec.displayed], by simp⟩

theorem body_interrupt_iff (env : Env) (st : Bool) (af : Int) : body env st af = some .interrupt ↔ Spec.Interrupted env af := by
  unfold body Spec.Interrupted
  have three : (af > 0 ∧ af ≥ 0) ∨ (¬ af > 0 ∧ af ≥ 0) ∨ (¬ af > 0 ∧ ¬ af ≥ 0) := by omega
  rcases three with ⟨ha, hb⟩ | ⟨ha, hb⟩ | ⟨ha, hb⟩ <;>
  cases h1 : env.wait1 <;> cases h2 : env.wait2 <;> cases h3 : env.wait3 <;> cases h4 : env.wait4 <;> cases hd : env.done <;> cases hg : env.get <;>
    simp [ha, hb] <;> split <;> simp

/-- **C79 (Ctrl-C).** If Ctrl-C arrives while a blocking cell waits for its engines — in whichever of its waits — the configured signal is sent once, to exactly the engines the cell was submitted to, and the cell ends without exception (if the sending works); without a configured signal the `KeyboardInterrupt` is raised and nothing is sent. Without Ctrl-C no signal is ever sent. -/
theorem interrupt_signals_targets (env : Env) (s : St) (args : Args) (cell : Nat) (t : Targets) (ht : Spec.Chosen env s args t) (hok : env.submitOk = true)
    (hl : args.isLocal = false) (hb : Spec.Effective args.block s.conf.block true) (sg : Option Nat) (hsg : Spec.Effective (args.signal.map some) s.conf.signal sg)
    (af : Int) (haf : Spec.Effective args.after s.conf.progressAfter af) :
    (¬ Spec.Interrupted env af → Spec.signalled (cellPx env s args cell).2.1 = []) ∧
    (Spec.Interrupted env af →
      Spec.signalled (cellPx env s args cell).2.1 = (match sg with | some x => [(x, t)] | none => []) ∧
      (env.wait5 = .fine → (cellPx env s args cell).2.2 = (if sg = none then .raised .interrupt else if env.signalOk then .none else .raised .other))) := by
  have happ : ∀ a b, Spec.signalled (a ++ b) = Spec.signalled a ++ Spec.signalled b := by intro a b; simp [Spec.signalled]
  have hsay : Spec.signalled (if s.conf.verbose = true then [Ev.say] else []) = [] := by cases s.conf.verbose <;> simp [Spec.signalled]
  have hstr : ∀ st : Bool, Spec.signalled (if st = true then [Ev.stream, Ev.unstream] else []) = [] := by intro st; cases st <;> simp [Spec.signalled]
  have hfin : ∀ st g e, Spec.signalled (finally_ env st g e).2 = [] := by
    intro st g e; unfold finally_; split
    · simp [Spec.signalled]
    · split <;> simp [Spec.signalled]
  have hsub : Spec.signalled [Ev.submit cell t] = [] := by simp [Spec.signalled]
  constructor
  · intro hi
    rw [(cell_blocking env s args cell t ht hok hl hb _ rfl af haf _ rfl).1]
    simp only [happ, hsay, hstr, hfin, hsub]
    unfold onInterrupt
    split
    · next h => exact absurd ((body_interrupt_iff env _ af).1 h) hi
    · simp [Spec.signalled]
  · intro hi
    have hbody : ∀ st, body env st af = some .interrupt := fun st => (body_interrupt_iff env st af).2 hi
    rw [(cell_blocking env s args cell t ht hok hl hb _ rfl af haf sg hsg).1, (cell_blocking env s args cell t ht hok hl hb _ rfl af haf sg hsg).2]
    simp only [happ, hsay, hstr, hfin, hsub, hbody]
    refine ⟨?_, ?_⟩
    · cases sg with
      | none => simp [onInterrupt, Spec.signalled]
      | some x => simp [onInterrupt, Spec.signalled]
    · intro h5
      have hfo : ∀ st g e, (finally_ env st g e).1 = e := by
        intro st g e; unfold finally_; rw [h5]; split
        · rfl
        · simp
      rw [hfo]
      cases sg with
      | none => simp [onInterrupt]
      | some x => cases hs : env.signalOk <;> simp [onInterrupt, hs]

/-- **C79 (not blocking).** A cell that does not block returns its result at once: nothing is shown, no signal sent, nothing raised — whatever happens on the engines. -/
theorem noblock_returns_result (env : Env) (s : St) (args : Args) (cell : Nat) (t : Targets) (ht : Spec.Chosen env s args t) (hok : env.submitOk = true)
    (hl : args.isLocal = false) (hb : Spec.Effective args.block s.conf.block false) :
    (cellPx env s args cell).2.2 = .result s.next ∧ ∀ e ∈ (cellPx env s args cell).2.1, e = .say ∨ e = .submit cell t := by
  have e1 : args.block.getD s.conf.block = false := by
    unfold Spec.Effective at hb; cases h : args.block <;> rw [h] at hb <;> simp_all
  rw [cellPx_unfold env s args cell t ht]
  simp only [hl, Bool.false_eq_true, if_false]
  simp only [execute, hok, e1, Bool.true_eq_false, Bool.false_eq_true, if_false]
  simp [afterExecute, hl, e1]
  intro e h
  rcases h with h | h
  · exact Or.inl h.2
  · exact Or.inr h

/-! ### with `--local` -/

/-- **C79 (--local).** The cell is submitted first and then run locally, once, before anything is waited for. -/
theorem local_after_submit (env : Env) (s : St) (args : Args) (cell : Nat) (t : Targets) (ht : Spec.Chosen env s args t) (hok : env.submitOk = true) (hl : args.isLocal = true) :
    ∃ rest, (cellPx env s args cell).2.1 = (if s.conf.verbose then [Ev.say] else []) ++ [.submit cell t, .localRun cell] ++ rest ∧ Spec.ranLocally rest = [] ∧
      (Spec.Effective args.block s.conf.block false → rest = [] ∧ (cellPx env s args cell).2.2 = .result s.next) ∧
      (Spec.Effective args.block s.conf.block true → env.get = .fine → rest = [.display args.groupby] ∧ (cellPx env s args cell).2.2 = .none) := by
  rw [cellPx_unfold env s args cell t ht]
  simp only [execute, hok, hl, Option.getD_some]
  simp only [Bool.true_eq_false, Bool.false_eq_true, if_false, if_true]
  cases hb : args.block.getD s.conf.block
  · refine ⟨[], ?_, by simp [Spec.ranLocally], ?_, ?_⟩
    · simp [afterExecute, hl, hb]
    · intro _; simp [afterExecute, hl, hb]
    · intro h; unfold Spec.Effective at h; cases h' : args.block <;> rw [h'] at h hb <;> simp_all
  · have hf : ¬ Spec.Effective args.block s.conf.block false := by
      intro h; unfold Spec.Effective at h; cases h' : args.block <;> rw [h'] at h hb <;> simp_all
    cases hg : env.get
    · exact ⟨[.display args.groupby], by simp [afterExecute, hl, hb, hg], by simp [Spec.ranLocally], fun h => absurd h hf, fun _ _ => by simp [afterExecute, hl, hb, hg]⟩
    · exact ⟨[], by simp [afterExecute, hl, hb, hg], by simp [Spec.ranLocally], fun h => absurd h hf, fun _ h => (by cases h)⟩
    · exact ⟨[], by simp [afterExecute, hl, hb, hg], by simp [Spec.ranLocally], fun h => absurd h hf, fun _ h => (by cases h)⟩
    · exact ⟨[], by simp [afterExecute, hl, hb, hg], by simp [Spec.ranLocally], fun h => absurd h hf, fun _ h => (by cases h)⟩

/-! ### `%px`, `%pxresult`, `%pxconfig` -/

/-- **C79 (%px).** `%px line` is `%%px` with that line as the cell, no arguments and the default grouping. -/
theorem px_is_cell_without_arguments (env : Env) (s : St) (c : Nat) :
    let args : Args := { targets := none, block := none, stream := none, verbose := none, after := none, signal := none, groupby := 0, save := none, isLocal := false }
    px env s c = cellPx env s args c := by
  intro args
  rw [cellPx_unfold env s args c s.conf.targets (Or.inl ⟨rfl, rfl⟩)]
  have e : ({ s with conf := { s.conf with targets := s.conf.targets } } : St) = s := rfl
  have hpx : px env s c = execute env s c none 0 none none none none := rfl
  rw [hpx]
  have h1 : execute env { s with conf := { s.conf with targets := s.conf.targets } } c (if args.isLocal then some false else args.block) args.groupby args.save args.stream args.after args.signal = execute env s c none 0 none none none none := rfl
  simp only [h1]
  have hc := execute_conf env s c none 0 none none none none
  have hs : ({ (execute env s c none 0 none none none none).1 with conf := { (execute env s c none 0 none none none none).1.conf with targets := s.conf.targets } } : St) = (execute env s c none 0 none none none none).1 := by
    rw [hc]; rw [← hc]
  simp only [hs]
  have hout : env.submitOk = true → s.conf.block = true → ∀ r, (execute env s c none 0 none none none none).2.2 ≠ .result r := by
    intro hok hb r
    simp only [execute, hok, Option.getD_none, hb, Bool.true_eq_false, if_false, if_true]
    cases (finally_ _ _ _ _).1 <;> simp
  have hout2 : env.submitOk = true → s.conf.block = false → (execute env s c none 0 none none none none).2.2 = .result s.next := by
    intro hok hb
    simp only [execute, hok, hb]
    simp
  have hout3 : env.submitOk = false → (execute env s c none 0 none none none none).2.2 = .raised .other := by
    intro hok
    simp only [execute, hok]
    simp
  generalize execute env s c none 0 none none none none = r at *
  obtain ⟨r1, r2, r3⟩ := r
  simp only at *
  cases hok : env.submitOk
  · rw [hout3 hok]
  · cases hb : s.conf.block
    · rw [hout2 hok hb]; simp [afterExecute, args, hc, hb]
    · cases r3 with
      | none => simp [afterExecute, args]
      | result k => exact absurd rfl (hout hok hb k)
      | raised e => rfl

/-- **C79 (%pxresult).** `%pxresult` shows the outputs of the last result, once, when that has succeeded, and never submits anything; with `-o` it only stores the result; before the first cell it is a usage error. -/
theorem pxresult_shows_last (env : Env) (s : St) (save : Option Nat) (g : Nat) :
    Spec.submitted (pxresult env s save g).2.1 = [] ∧ (pxresult env s save g).1.last = s.last ∧ (pxresult env s save g).1.conf = s.conf ∧
    (s.last = none → pxresult env s save g = (s, [], .raised .usage)) ∧
    (∀ r, s.last = some r → save = none → env.get = .fine → pxresult env s save g = (s, [.display g], .none)) ∧
    (∀ r n, s.last = some r → save = some n → (pxresult env s save g).2 = ([], .none) ∧ (pxresult env s save g).1.ns.lookup n = some r ∧ ∀ m, m ≠ n → (pxresult env s save g).1.ns.lookup m = s.ns.lookup m) := by
  unfold pxresult
  cases hl : s.last with
  | none => simp [Spec.submitted]; exact hl
  | some r =>
    cases save with
    | some n => 
      refine ⟨by simp [Spec.submitted], rfl, rfl, (by intro h; cases h), (by intro r h h'; cases h'), ?_⟩
      intro r' n' h h'
      cases h; cases h'
      refine ⟨rfl, by simp, ?_⟩
      intro m hm
      have h2 : (m == n) = false := by simpa using hm
      simp [List.lookup_cons, h2]
    | none => cases hg : env.get <;> simp [Spec.submitted, hl]

/-- **C79 (%pxconfig).** `%pxconfig` changes exactly the options given, to the values given; if the target expression fails nothing changes. It neither submits nor touches results. -/
theorem pxconfig_changes_exactly (env : Env) (s : St) (args : Args) :
    (pxconfig env s args).1.last = s.last ∧ (pxconfig env s args).1.ns = s.ns ∧ (pxconfig env s args).1.next = s.next ∧
    ((∀ t, ¬ Spec.Chosen env s args t) → (pxconfig env s args).1 = s ∧ (pxconfig env s args).2 = .raised .other) ∧
    (∀ t, Spec.Chosen env s args t → (pxconfig env s args).2 = .none ∧
      let c := (pxconfig env s args).1.conf
      c.targets = t ∧ Spec.Effective args.block s.conf.block c.block ∧ Spec.Effective args.verbose s.conf.verbose c.verbose ∧
      Spec.Effective args.stream s.conf.stream c.stream ∧ Spec.Effective args.after s.conf.progressAfter c.progressAfter ∧ Spec.Effective (args.signal.map some) s.conf.signal c.signal) := by
  have key : ∀ (c : Conf), Spec.Effective args.block c.block (args.block.getD c.block) ∧ Spec.Effective args.verbose c.verbose (args.verbose.getD c.verbose) ∧
      Spec.Effective args.stream c.stream (args.stream.getD c.stream) ∧ Spec.Effective args.after c.progressAfter (args.after.getD c.progressAfter) ∧
      Spec.Effective (args.signal.map some) c.signal (args.signal.or c.signal) := by
    intro c
    refine ⟨?_, ?_, ?_, ?_, ?_⟩
    · cases args.block <;> rfl
    · cases args.verbose <;> rfl
    · cases args.stream <;> rfl
    · cases args.after <;> rfl
    · cases args.signal <;> rfl
  obtain ⟨k1, k2, k3, k4, k5⟩ := key s.conf
  cases ha : args.targets with
  | none =>
    have hp : pxconfig env s args = ({ s with conf := { s.conf with
      block := args.block.getD s.conf.block, verbose := args.verbose.getD s.conf.verbose, stream := args.stream.getD s.conf.stream,
      signal := args.signal.or s.conf.signal, progressAfter := args.after.getD s.conf.progressAfter } }, .none) := by simp only [pxconfig, ha]
    rw [hp]
    refine ⟨rfl, rfl, rfl, fun h => absurd (Or.inl ⟨ha, rfl⟩) (h s.conf.targets), ?_⟩
    rintro t (⟨-, rfl⟩ | ⟨x, h, -⟩)
    · exact ⟨rfl, rfl, k1, k2, k3, k4, k5⟩
    · rw [ha] at h; cases h
  | some x =>
    simp only [pxconfig, ha]
    cases he : env.eval x with
    | none =>
      refine ⟨rfl, rfl, rfl, fun _ => ⟨rfl, rfl⟩, ?_⟩
      rintro t (⟨h, -⟩ | ⟨y, h, h2⟩)
      · rw [ha] at h; cases h
      · rw [ha] at h; cases h; rw [he] at h2; cases h2
    | some t' =>
      refine ⟨rfl, rfl, rfl, fun h => absurd (Or.inr ⟨x, ha, he⟩) (h t'), ?_⟩
      rintro t (⟨h, -⟩ | ⟨y, h, h2⟩)
      · rw [ha] at h; cases h
      · rw [ha] at h; cases h; rw [he] at h2; cases h2
        exact ⟨rfl, rfl, k1, k2, k3, k4, k5⟩

/-! ### what does not hold -/

def quiet : Env := { submitOk := true, wait1 := .fine, wait2 := .fine, done := true, wait3 := .fine, wait4 := .fine, get := .fine, outputReady := true, wait5 := .fine, signalOk := true, eval := fun n => if n = 0 then none else some (.list [n]) }
def st0 : St := { conf := { targets := .all, block := true, verbose := false, stream := true, progressAfter := 2, signal := some 2 }, next := 5, last := none, ns := [] }
def args0 : Args := { targets := some 3, block := none, stream := none, verbose := none, after := none, signal := none, groupby := 1, save := some 9, isLocal := false }

/-- **C79 (violated for --local):** with `--local` a blocking cell whose remote execution fails never shows its outputs (magics.py:471-474: `ar.get()` raises before `display_outputs`, and nothing was streamed), although "always redisplay outputs if not streaming, on both success and error" is what the other path promises. -/
theorem local_failure_hides_outputs_violated (env : Env) (s : St) (args : Args) (cell : Nat) (hl : args.isLocal = true) (hg : env.get ≠ .fine) :
    Spec.streamed (cellPx env s args cell).2.1 = 0 ∧ Spec.displayed (cellPx env s args cell).2.1 = [] := by
  rcases Classical.em (∃ t, Spec.Chosen env s args t) with ⟨t, ht⟩ | h
  · rw [cellPx_unfold env s args cell t ht]
    simp only [hl, if_true]
    simp only [execute, Option.getD_some]
    have hsay : Spec.streamed (if s.conf.verbose = true then [Ev.say] else []) = 0 ∧ Spec.displayed (if s.conf.verbose = true then [Ev.say] else []) = [] := by
      cases s.conf.verbose <;> simp [Spec.streamed, Spec.displayed]
    cases hok : env.submitOk
    · simp [hsay]
    · simp only [Bool.true_eq_false, Bool.false_eq_true, if_false, if_true]
      have hstr : ∀ a b, Spec.streamed (a ++ b) = Spec.streamed a + Spec.streamed b := by intro a b; simp [Spec.streamed]
      have hdis : ∀ a b, Spec.displayed (a ++ b) = Spec.displayed a ++ Spec.displayed b := by intro a b; simp [Spec.displayed]
      simp only [hstr, hdis, hsay]
      cases hb : args.block.getD s.conf.block <;> cases hg' : env.get <;> simp_all [afterExecute, Spec.streamed, Spec.displayed]
  · rw [cellPx_unchosen env s args cell (fun t ht => h ⟨t, ht⟩)]
    simp [Spec.streamed, Spec.displayed]

/-- **C79 (violated for %pxresult):** `%pxresult` of a cell that failed raises and shows no output of it, not even of the engines that succeeded. -/
theorem pxresult_of_failure_hides_outputs_violated (env : Env) (s : St) (g : Nat) (hg : env.get ≠ .fine) :
    (pxresult env s none g).2.1 = [] ∧ ∃ e, (pxresult env s none g).2.2 = .raised e := by
  unfold pxresult
  cases s.last with
  | none => exact ⟨rfl, _, rfl⟩
  | some r => cases hg' : env.get <;> simp_all

/-- **C79 (violated for --verbose):** the option `--verbose`/`--no-verbose` of `%%px` is accepted and has no effect. -/
theorem cell_verbose_ignored_violated (env : Env) (s : St) (args : Args) (cell : Nat) (v : Option Bool) :
    cellPx env s { args with verbose := v } cell = cellPx env s args cell := rfl

/-- **C79 (violated for a single engine):** with integer targets the error of the cell is the engine's `RemoteError`, which is shown in full again although it was already streamed: only a `CompositeError` is abbreviated. -/
theorem single_engine_error_shown_twice_violated :
    ∃ (env : Env) (s : St) (args : Args) (cell : Nat), env.outputReady = true ∧ env.get = .other ∧ Spec.streamed (cellPx env s args cell).2.1 = 1 ∧ (cellPx env s args cell).2.2 = .raised .other :=
  ⟨{ quiet with get := .other }, { st0 with conf := { st0.conf with targets := .one 0 } }, { args0 with targets := none }, 7, rfl, rfl, rfl, rfl⟩

/-! ## The hypotheses hold in concrete cases -/

example : Spec.Chosen quiet st0 args0 (.list [3]) ∧ Spec.Effective args0.block st0.conf.block true ∧ Spec.Quiet quiet := ⟨Or.inr ⟨3, rfl, rfl⟩, rfl, rfl, rfl, rfl, rfl, rfl, by decide⟩
example : Spec.Interrupted { quiet with wait1 := .interrupt } 2 ∧ Spec.Interrupted { quiet with done := false, wait3 := .interrupt } 2 := ⟨Or.inl ⟨by decide, Or.inl rfl⟩, Or.inr (Or.inl ⟨by decide, fun _ => rfl, Or.inl rfl⟩)⟩
example : cellPx quiet st0 args0 7 = ({ st0 with next := 6, last := some 5, ns := [(9, 5)] }, [.submit 7 (.list [3]), .stream, .unstream], .none) := rfl
example : (cellPx { quiet with wait1 := .interrupt } st0 args0 7).2 = ([.submit 7 (.list [3]), .stream, .unstream, .signal 2 (.list [3])], .none) := rfl
example : (cellPx { quiet with get := .composite } st0 { args0 with stream := some false } 7).2 = ([.submit 7 (.list [3]), .display 1], .raised .composite) := rfl
example : (cellPx { quiet with get := .composite } st0 args0 7).2.2 = .raised .alreadyDisplayed := rfl
example : (cellPx quiet st0 { args0 with isLocal := true } 7).2 = ([.submit 7 (.list [3]), .localRun 7, .display 1], .none) := rfl
example : (cellPx quiet st0 { args0 with targets := some 0 } 7).2 = ([], .raised .other) := rfl
example : ((pxconfig quiet st0 args0).1.conf.targets, (pxconfig quiet st0 args0).1.conf.block) = (.list [3], true) := rfl

end IPP.Magics
