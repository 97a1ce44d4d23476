import Verif.Async.Wait
import Verif.Async.Props

/-!
# Waiting for results (C69)
-/
namespace IPP.Async.Wait
open IPP.Map (Dist)
open IPP.Async

/-! ## Specification: what the user sees is the children's results -/

/-- Task `i` is finished with result `r`. -/
def Finished (s : St V) (i : Nat) (r : Res (Chunk V)) : Prop := s.child i = some r

/-- All tasks are finished, with the results `res` in the order of submission. -/
def AllFinished (A : AR) (s : St V) (res : List (Res (Chunk V))) : Prop :=
  res.length = A.n ∧ ∀ i (h : i < res.length), s.child i = some res[i]

/-- The result is a remote error (also one wrapped as composite). -/
def RemoteRes : Res (Chunk V) → Prop
  | .exc (.remote _) => True
  | .exc (.composite _) => True
  | _ => False

/-- The result of this task counts as a failure of the AsyncResult: any exception for tasks that are looked at one by one; for the chunks of a map, and for
a list with one task, remote errors unless `return_exceptions`. -/
def Fails (A : AR) (r : Res (Chunk V)) : Prop :=
  match A.kind with
  | .single => ∃ e, r = .exc e
  | .list => if A.n = 1 then A.re = false ∧ RemoteRes r else ∃ e, r = .exc e
  | .map _ => A.re = false ∧ RemoteRes r

/-! ## Invariant -/

/-- Callbacks run only for complete children. -/
structure Inv (A : AR) (s : St V) : Prop where
  main : s.main ≠ .pending → ∃ res, results A s = some res ∧ (resolve A.kind A.re res).isSome
  part : ∀ i, s.part i ≠ .pending → i < A.n ∧ (s.child i).isSome ∧ s.isSplit = true

theorem inv_init (A : AR) (c : Nat → Option (Res (Chunk V))) : Inv A (St.init c) :=
  ⟨fun h => absurd rfl h, fun _ h => absurd rfl h⟩

theorem mapM_mono {f g : Nat → Option α} : ∀ (l : List Nat) (res : List α), (∀ i r, f i = some r → g i = some r) →
    l.mapM f = some res → l.mapM g = some res := by
  intro l
  induction l with
  | nil => intro res _ h; simpa using h
  | cons x xs ih =>
    intro res hm h
    rw [List.mapM_cons] at h ⊢
    cases hx : f x with
    | none => rw [hx] at h; simp at h
    | some a =>
      rw [hx] at h
      cases hxs : xs.mapM f with
      | none => rw [hxs] at h; simp at h
      | some as =>
        rw [hxs] at h
        simp only [Option.pure_def, Option.bind_eq_bind, Option.bind_some, Option.some.injEq] at h
        rw [hm x a hx, ih as hm hxs]
        simp [h]

theorem step_child {A : AR} {s t : St V} (h : Step A s t) (i : Nat) (r : Res (Chunk V)) (hc : s.child i = some r) :
    t.child i = some r := by
  cases h with
  | finish j r' hj hn =>
    by_cases hij : i = j
    · subst hij; rw [hn] at hc; cases hc
    · simp [hij, hc]
  | mainDone => exact hc
  | mainReady => exact hc
  | split => exact hc
  | partDone => exact hc
  | partReady => exact hc

theorem steps_child {A : AR} {s t : St V} (h : Steps A s t) (i : Nat) (r : Res (Chunk V)) (hc : s.child i = some r) :
    t.child i = some r := by
  induction h with
  | refl => exact hc
  | tail _ h ih => exact step_child h i r ih

theorem results_mono {A : AR} {s t : St V} (h : Steps A s t) (res : List (Res (Chunk V))) (hr : results A s = some res) :
    results A t = some res := mapM_mono _ _ (fun i r => steps_child h i r) hr

theorem inv_step {A : AR} {s t : St V} (hi : Inv A s) (h : Step A s t) : Inv A t := by
  have hm := Steps.tail (Steps.refl s) h
  cases h with
  | finish j r' hj hn =>
    refine ⟨fun hp => ?_, fun i hp => ?_⟩
    · obtain ⟨res, h1, h2⟩ := hi.main hp
      exact ⟨res, results_mono hm res h1, h2⟩
    · obtain ⟨h1, h2, h3⟩ := hi.part i hp
      refine ⟨h1, ?_, h3⟩
      obtain ⟨r, hr⟩ := Option.isSome_iff_exists.1 h2
      exact Option.isSome_iff_exists.2 ⟨r, steps_child hm i r hr⟩
  | mainDone res hp hr hs => exact ⟨fun _ => ⟨res, hr, hs⟩, hi.part⟩
  | mainReady hp => exact ⟨fun _ => hi.main (by rw [hp]; decide), hi.part⟩
  | split hn => exact ⟨hi.main, fun i hp => ⟨(hi.part i hp).1, (hi.part i hp).2.1, rfl⟩⟩
  | partDone j hj hs hc hp =>
    refine ⟨hi.main, fun i hp => ?_⟩
    by_cases hij : i = j
    · subst hij; exact ⟨hj, hc, hs⟩
    · exact hi.part i (by simpa [hij] using hp)
  | partReady j hp' =>
    refine ⟨hi.main, fun i hp => ?_⟩
    by_cases hij : i = j
    · subst hij; exact hi.part i (by rw [hp']; decide)
    · exact hi.part i (by simpa [hij] using hp)

theorem inv_steps {A : AR} {s t : St V} (hi : Inv A s) (h : Steps A s t) : Inv A t := by
  induction h with
  | refl => exact hi
  | tail _ h ih => exact inv_step ih h

theorem steps_trans {A : AR} {s t u : St V} (h : Steps A s t) (h' : Steps A t u) : Steps A s u := by
  induction h' with
  | refl => exact h
  | tail _ h' ih => exact .tail ih h'

theorem main_mono {A : AR} {s t : St V} (h : Steps A s t) :
    (s.main ≠ .pending → t.main ≠ .pending) ∧ (s.main = .ready → t.main = .ready) := by
  induction h with
  | refl => exact ⟨id, id⟩
  | tail _ h ih =>
    cases h with
    | mainDone res hp => exact ⟨fun _ => by simp, fun hh => by rw [ih.2 hh] at hp; cases hp⟩
    | mainReady hp => exact ⟨fun _ => by simp, fun _ => rfl⟩
    | finish => exact ih
    | split => exact ih
    | partDone => exact ih
    | partReady => exact ih

theorem part_mono {A : AR} {s t : St V} (h : Steps A s t) (i : Nat) : s.part i ≠ .pending → t.part i ≠ .pending := by
  induction h with
  | refl => exact id
  | tail _ h ih =>
    cases h with
    | mainDone => exact ih
    | mainReady => exact ih
    | finish => exact ih
    | split => exact ih
    | partDone j => intro hp; by_cases hij : i = j <;> simp [hij]; exact fun h => ih hp h
    | partReady j => intro hp; by_cases hij : i = j <;> simp [hij]; exact fun h => ih hp h

theorem stageOf_mono {A : AR} {s t : St V} (h : Steps A s t) (i : Nat) :
    stageOf A s i ≠ .pending → stageOf A t i ≠ .pending := by
  unfold stageOf
  split
  · exact (main_mono h).1
  · exact part_mono h i

theorem mapM_get {f : Nat → Option α} : ∀ (l : List Nat) (res : List α), l.mapM f = some res →
    res.length = l.length ∧ ∀ i (h : i < res.length) (h' : i < l.length), f l[i] = some res[i] := by
  intro l
  induction l with
  | nil => intro res h; simp at h; subst h; simp
  | cons x xs ih =>
    intro res h
    rw [List.mapM_cons] at h
    cases hx : f x with
    | none => rw [hx] at h; simp at h
    | some a =>
      rw [hx] at h
      cases hxs : xs.mapM f with
      | none => rw [hxs] at h; simp at h
      | some as =>
        rw [hxs] at h
        simp only [Option.pure_def, Option.bind_eq_bind, Option.bind_some, Option.some.injEq] at h
        subst h
        obtain ⟨h1, h2⟩ := ih as hxs
        refine ⟨by simp [h1], ?_⟩
        intro i hi hi'
        cases i with
        | zero => simpa using hx
        | succ i => simp only [List.getElem_cons_succ]; exact h2 i _ _

theorem results_spec {A : AR} {s : St V} {res : List (Res (Chunk V))} (h : results A s = some res) : AllFinished A s res := by
  obtain ⟨h1, h2⟩ := mapM_get _ _ h
  rw [List.length_range] at h1
  refine ⟨h1, fun i hi => ?_⟩
  have := h2 i hi (by simp; omega)
  simpa using this

theorem mapM_total {f : Nat → Option α} : ∀ (l : List Nat), (∀ i ∈ l, (f i).isSome) → ∃ res, l.mapM f = some res := by
  intro l
  induction l with
  | nil => intro _; exact ⟨[], rfl⟩
  | cons x xs ih =>
    intro h
    obtain ⟨as, has⟩ := ih (fun i hi => h i (by simp [hi]))
    obtain ⟨a, ha⟩ := Option.isSome_iff_exists.1 (h x (by simp))
    exact ⟨a :: as, by rw [List.mapM_cons, ha, has]; rfl⟩

theorem main_finished {A : AR} {s : St V} (hi : Inv A s) (h : s.main ≠ .pending) (i : Nat) (hn : i < A.n) :
    ∃ r, s.child i = some r := by
  obtain ⟨res, h1, _⟩ := hi.main h
  obtain ⟨h2, h3⟩ := results_spec h1
  exact ⟨res[i], h3 i (by omega)⟩

theorem stage_finished {A : AR} {s : St V} (hi : Inv A s) (i : Nat) (hn : i < A.n) (h : stageOf A s i ≠ .pending) :
    ∃ r, s.child i = some r := by
  unfold stageOf at h
  split at h
  · exact main_finished hi h i hn
  · exact Option.isSome_iff_exists.1 (hi.part i h).2.1

theorem asRemote_iff (r : Res (Chunk V)) : (∃ t, asRemote r = some t) ↔ RemoteRes r := by
  cases r with
  | val => simp [asRemote, RemoteRes]
  | exc e => cases e <;> simp [asRemote, RemoteRes]

theorem collect_one (r : Res (Chunk V)) : (∃ e, collectExceptions [r] = .error e) ↔ RemoteRes r := by
  rw [← asRemote_iff]
  unfold collectExceptions collectLoop
  cases h : asRemote r with
  | none => simp [collectLoop]
  | some t =>
    simp only [Option.some.injEq, exists_eq', iff_true]
    by_cases ht : t.en = some "CompositeError"
    · simp [ht]
    · simp [ht, collectLoop]

theorem exmap_err {α β : Type u} (x : Except Exc α) (f : α → β) : (∃ e, x.map f = .error e) ↔ ∃ e, x = .error e := by
  cases x <;> simp [Except.map]

theorem list_fail (re : Bool) (r : Res (Chunk V)) :
    (∃ e, resolve .list re [r] = some (.error e)) ↔ re = false ∧ RemoteRes r := by
  simp only [resolve, Option.some.injEq, exmap_err]
  cases re with
  | true => simp [collectFor]
  | false => simp [collectFor, collect_one]

theorem map_fail (d : Dist) (re : Bool) (r : Res (Chunk V)) :
    (∃ e, resolve (.map d) re [r] = some (.error e)) ↔ re = false ∧ RemoteRes r := by
  simp only [resolve, resolveMap]
  cases re with
  | true =>
    simp only [collectFor, if_true, Bool.true_eq_false, false_and, iff_false, not_exists]
    intro e
    cases reconstruct d true [r] <;> simp [Except.map]
  | false =>
    rw [← collect_one]
    simp only [collectFor, Bool.false_eq_true, if_false, true_and]
    cases hc : collectExceptions [r] with
    | error e => simp [Except.map]
    | ok l =>
      simp only [reduceCtorEq, exists_false, iff_false, not_exists]
      intro e
      cases reconstruct d false l <;> simp [Except.map]

theorem single_fail (re : Bool) (r : Res (Chunk V)) :
    (∃ e, resolve .single re [r] = some (.error e)) ↔ ∃ e, r = .exc e := by
  cases r <;> simp [resolve]

theorem failedPart_iff (A : AR) (s : St V) (i : Nat) :
    failedPart A s i = true ↔ ∃ r, s.child i = some r ∧ Fails A r := by
  have h0 : failedPart A s i = true ↔ ∃ e, outcomeOf A s i = some (.error e) := by
    unfold failedPart
    split
    · rename_i e h; simp [h]
    · rename_i h
      constructor
      · intro hh; cases hh
      · intro ⟨e, he⟩; exact absurd he (h e)
  rw [h0]
  unfold outcomeOf
  cases hc : s.child i with
  | none => simp
  | some r =>
    simp only [Option.some.injEq, exists_eq_left']
    unfold Fails
    by_cases hn : A.n = 1
    · simp only [hn, if_true]
      cases A.kind with
      | single => simp only; exact single_fail _ _
      | list => simp only; exact list_fail _ _
      | map d => simp only; exact map_fail d _ _
    · simp only [hn, if_false]
      cases A.kind with
      | single => simp only [partKind]; exact single_fail _ _
      | list => simp only [partKind]; exact single_fail _ _
      | map d => simp only [partKind]; exact list_fail _ _

/-! ## Theorems -/

/-- **C69 (the two sets).** `wait(return_when=...)` divides the tasks into done and pending: every task is in exactly one of the sets, only finished tasks
are reported done, and every task that had been seen to be done before the call is. For every interleaving with the io thread. -/
theorem wait_sets (A : AR) (c : Nat → Option (Res (Chunk V))) (s0 s : St V) (tmo : Bool) (w : When) (d p : List Nat)
    (h0 : Steps A (St.init c) s0) (h : WaitReturns A s0 tmo w s d p) :
    (∀ i, i < A.n → (i ∈ p ↔ i ∉ d)) ∧ (∀ i ∈ d, i < A.n ∧ ∃ r, Finished s i r) ∧ (∀ i ∈ p, i < A.n) ∧
      (∀ i, i < A.n → stageOf A s0 i ≠ .pending → i ∉ p) := by
  have hi := inv_steps (inv_init A c) (steps_trans h0 h.steps)
  refine ⟨fun i hn => by rw [h.pending]; simp [hn], fun i hd => ?_, fun i hp => ?_, fun i hn hs hp => ?_⟩
  · exact ⟨(h.sound i hd).1, stage_finished hi i (h.sound i hd).1 (h.sound i hd).2⟩
  · rw [h.pending] at hp; simp at hp; exact hp.1
  · rw [h.pending] at hp; simp at hp; exact hp.2 (h.known i hn hs)

/-- **C69 (`return_when`).** Without a timeout, `wait` returns only when what was asked for has happened: all tasks finished (ALL_COMPLETED), at least
one reported done (FIRST_COMPLETED), one of those reported done failed or all finished (FIRST_EXCEPTION). -/
theorem wait_when (A : AR) (hn : 0 < A.n) (c : Nat → Option (Res (Chunk V))) (s0 s : St V) (w : When) (d p : List Nat)
    (h0 : Steps A (St.init c) s0) (h : WaitReturns A s0 false w s d p) :
    match w with
    | .allCompleted => p = [] ∧ ∀ i, i < A.n → ∃ r, Finished s i r
    | .firstCompleted => ∃ i ∈ d, ∃ r, Finished s i r
    | .firstException => (∃ i ∈ d, ∃ r, Finished s i r ∧ Fails A r) ∨ (p = [] ∧ ∀ i, i < A.n → ∃ r, Finished s i r) := by
  obtain ⟨_, h2, _, _⟩ := wait_sets A c s0 s false w d p h0 h
  have hall : (∀ i, i < A.n → i ∈ d) → p = [] ∧ ∀ i, i < A.n → ∃ r, Finished s i r := by
    intro ha
    refine ⟨?_, fun i hi => (h2 i (ha i hi)).2⟩
    rw [h.pending, List.filter_eq_nil_iff]
    intro i hi
    simp at hi
    simp [ha i hi]
  have he : Enough A s w d := by
    rcases h.enough with he | he
    · exact he
    · cases he
  cases w with
  | allCompleted =>
    rcases he with he | he
    · exact hall he
    · cases he
  | firstCompleted =>
    rcases he with he | he
    · exact ⟨0, he 0 hn, (h2 0 (he 0 hn)).2⟩
    · obtain ⟨i, hi⟩ := List.exists_mem_of_ne_nil d he
      exact ⟨i, hi, (h2 i hi).2⟩
  | firstException =>
    rcases he with he | ⟨i, hi, hf⟩
    · exact Or.inr (hall he)
    · obtain ⟨r, hr, hf⟩ := (failedPart_iff A s i).1 hf
      exact Or.inl ⟨i, hi, r, hr, hf⟩

/-- **C69 (`wait()` without `return_when`).** It returns True only when all tasks are finished, and without a timeout it returns nothing else. -/
theorem wait_all (A : AR) (c : Nat → Option (Res (Chunk V))) (s0 s : St V) (tmo b : Bool)
    (h0 : Steps A (St.init c) s0) (h : WaitAll A s0 tmo s b) :
    (b = true → ∀ i, i < A.n → ∃ r, Finished s i r) ∧ (tmo = false → b = true) := by
  have hi := inv_steps (inv_init A c) (steps_trans h0 h.steps)
  refine ⟨fun hb i hn => ?_, fun ht => ?_⟩
  · have : s.main = .ready := by have := h.flag; rw [hb] at this; simpa using this.symm
    exact main_finished hi (by rw [this]; decide) i hn
  · rcases h.enough with he | he
    · rw [h.flag]; simp [he]
    · rw [ht] at he; cases he

theorem finishGet_value {k : Kind} {re : Bool} {res : List (Res (Chunk V))} {o : Out V}
    (h : finishGet k re false res = .value o) : resolve k re res = some (.ok o) := by
  unfold finishGet at h
  split at h
  · cases h; assumption
  · simp at h
  · cases h

/-- What a successful `get()` returns: nothing but the tasks' results, each in its place. -/
def Complete (A : AR) (res : List (Res (Chunk V))) (o : Out V) : Prop :=
  match A.kind with
  | .single => ∃ v, res.head? = some (.val v) ∧ o = .one (.val v)
  | .list => o = .many res ∧ (A.re = false → ∀ r ∈ res, ¬ RemoteRes r)
  | .map d => resolveMap d A.re res = (match o with | .items l => some (.ok l) | _ => none) ∧ (A.re = false → ∀ r ∈ res, ¬ RemoteRes r)

theorem loop_remote (rs : List (Res (Chunk V))) : ∀ el el', collectLoop rs el = .ok el' → el'.length = 0 →
    el.length = 0 ∧ ∀ r ∈ rs, ¬ RemoteRes r := by
  induction rs with
  | nil => intro el el' h hl; simp only [collectLoop, Except.ok.injEq] at h; subst h; exact ⟨hl, by simp⟩
  | cons r rs ih =>
    intro el el' h hl
    unfold collectLoop at h
    cases hr : asRemote r with
    | none =>
      rw [hr] at h
      obtain ⟨h1, h2⟩ := ih el el' h hl
      refine ⟨h1, fun x hx => ?_⟩
      rcases List.mem_cons.1 hx with rfl | hx
      · intro hh; obtain ⟨t, ht⟩ := (asRemote_iff x).2 hh; rw [hr] at ht; cases ht
      · exact h2 x hx
    | some t =>
      rw [hr] at h
      by_cases ht : t.en = some "CompositeError"
      · simp [ht] at h
      · simp only [ht, if_false] at h
        obtain ⟨h1, _⟩ := ih _ _ h hl
        simp at h1

theorem collect_clean {rs l : List (Res (Chunk V))} (h : collectExceptions rs = .ok l) : l = rs ∧ ∀ r ∈ rs, ¬ RemoteRes r := by
  unfold collectExceptions at h
  cases hc : collectLoop rs [] with
  | error e => rw [hc] at h; cases h
  | ok el =>
    rw [hc] at h
    by_cases hl : el.length = 0
    · simp only [hl, if_true, Except.ok.injEq] at h
      exact ⟨h.symm, (loop_remote rs [] el hc hl).2⟩
    · simp [hl] at h

theorem resolve_complete {A : AR} {res : List (Res (Chunk V))} {o : Out V} (h : resolve A.kind A.re res = some (.ok o)) :
    Complete A res o := by
  unfold Complete
  unfold resolve at h
  cases hk : A.kind with
  | single =>
    rw [hk] at h
    simp only at h ⊢
    split at h
    · cases h
    · rename_i v rest; simp only [Option.some.injEq, Except.ok.injEq] at h; exact ⟨v, rfl, h.symm⟩
    · cases h
  | list =>
    rw [hk] at h
    simp only [Option.some.injEq] at h ⊢
    cases hre : A.re with
    | true => rw [hre] at h; simp only [collectFor, if_true, Except.map, Except.ok.injEq] at h; exact ⟨h.symm, fun h => by cases h⟩
    | false =>
      rw [hre] at h
      simp only [collectFor, Bool.false_eq_true, if_false] at h
      cases hc : collectExceptions res with
      | error e => rw [hc] at h; cases h
      | ok l =>
        rw [hc] at h
        obtain ⟨h1, h2⟩ := collect_clean hc
        simp only [Except.map, Except.ok.injEq] at h
        exact ⟨by rw [← h, h1], fun _ => h2⟩
  | map d =>
    rw [hk] at h
    simp only [Option.map_eq_some_iff] at h ⊢
    obtain ⟨x, hx, hxo⟩ := h
    cases x with
    | error e => cases hxo
    | ok l =>
      simp only [Except.map, Except.ok.injEq] at hxo
      subst hxo
      refine ⟨hx, fun hre => ?_⟩
      unfold resolveMap at hx
      rw [hre] at hx
      simp only [collectFor, Bool.false_eq_true, if_false] at hx
      cases hc : collectExceptions res with
      | error e => rw [hc] at hx; simp at hx
      | ok l => exact (collect_clean hc).2

/-- Rest of the result is not needed for `get` on a part: it never returns a value. -/
theorem part_not_value {A : AR} {s : St V} {i : Nat} {r : Res (Chunk V)} (hc : s.child i = some r)
    (hf : failedPart A s i = true) (o : Out V) :
    finishGet (if A.n = 1 then A.kind else partKind A.kind) A.re false [r] ≠ .value o := by
  intro h
  have h1 := finishGet_value h
  unfold failedPart outcomeOf at hf
  rw [hc] at hf
  by_cases hn : A.n = 1
  · simp only [hn, if_true] at h1 hf; rw [h1] at hf; cases hf
  · simp only [hn, if_false] at h1 hf; rw [h1] at hf; cases hf

/-- **C69 (`get` returns only the complete result).** Whatever `return_when`, a `get` that returns a value (without `return_exceptions`) returns the results of
*all* tasks, every one of them finished, in order, and none of them a remote error. -/
theorem get_complete (A : AR) (c : Nat → Option (Res (Chunk V))) (s0 s : St V) (tmo fe : Bool) (o : Out V)
    (h0 : Steps A (St.init c) s0) (h : GetReturns A s0 tmo false fe s (.value o)) :
    ∃ res, AllFinished A s res ∧ Complete A res o := by
  generalize hg : Got.value o = g at h
  cases h with
  | ready fe s res hs hm hr =>
    exact ⟨res, results_spec hr, resolve_complete (finishGet_value hg.symm)⟩
  | timeout => cases hg
  | nothing => cases hg
  | part t t' t'' d p i r hw h1 h2 h3 h4 h5 h6 h7 =>
    have hf : failedPart A s i = true := by
      obtain ⟨r', hr', hf⟩ := (failedPart_iff A t' i).1 h4
      exact (failedPart_iff A s i).2 ⟨r', steps_child h5 i r' hr', hf⟩
    exact absurd hg.symm (part_not_value h7 hf o)

/-- The items of a complete map result over block chunks are all items of all chunks in order (with C08's `expected`). -/
theorem get_complete_map (A : AR) (hk : A.kind = .map .b) (c : Nat → Option (Res (Chunk V))) (s0 s : St V) (tmo fe : Bool)
    (o : Out V) (h0 : Steps A (St.init c) s0) (h : GetReturns A s0 tmo false fe s (.value o)) (ls : List (List V))
    (hl : ∀ i (hi : i < ls.length), s.child i = some (lres ls[i])) (hn : ls.length = A.n) (hp : 0 < A.n) :
    o = .items (expected ls) := by
  obtain ⟨res, ⟨h1, h2⟩, h3⟩ := get_complete A c s0 s tmo fe o h0 h
  have : res = ls.map lres := by
    apply List.ext_getElem (by simp [h1, hn])
    intro i hi hi'
    have := h2 i hi
    rw [hl i (by simpa using hi')] at this
    simpa using this.symm
  unfold Complete at h3
  rw [hk] at h3
  simp only at h3
  have hne : ls ≠ [] := by intro h; rw [h] at hn; simp at hn; omega
  rw [this, get_block A.re ls hne] at h3
  cases o with
  | one => simp at h3
  | many => simp at h3
  | items l => simp only [Option.some.injEq, Except.ok.injEq] at h3; rw [h3.1]

/-- What a `get` that failed because tasks failed raises, when everything is finished: the error of the single task, or the
error `collect_exceptions` makes of all (C10). -/
def RaisedBy (A : AR) (res : List (Res (Chunk V))) (e : Exc) : Prop :=
  match A.kind with
  | .single => res.head? = some (.exc e)
  | _ => A.re = false ∧ collectExceptions res = .error e ∧ ∃ r ∈ res, RemoteRes r

theorem collect_err_mem {rs : List (Res (Chunk V))} {e : Exc} (h : collectExceptions rs = .error e) : ∃ r ∈ rs, RemoteRes r := by
  by_cases hc : ∃ r ∈ rs, RemoteRes r
  · exact hc
  · exfalso
    have hnone : ∀ r ∈ rs, asRemote r = none := by
      intro r hr
      cases ha : asRemote r with
      | none => rfl
      | some t => exact absurd ⟨r, hr, (asRemote_iff r).1 ⟨t, ha⟩⟩ hc
    have : ∀ el, collectLoop rs el = .ok el := by
      clear h hc
      induction rs with
      | nil => intro el; rfl
      | cons r rs ih =>
        intro el
        unfold collectLoop
        rw [hnone r (by simp)]
        exact ih (fun x hx => hnone x (by simp [hx])) el
    unfold collectExceptions at h
    rw [this] at h
    simp at h

theorem resolve_raised {A : AR} {res : List (Res (Chunk V))} {e : Exc} (h : resolve A.kind A.re res = some (.error e)) :
    RaisedBy A res e := by
  unfold RaisedBy
  unfold resolve at h
  cases hk : A.kind with
  | single =>
    rw [hk] at h
    simp only at h ⊢
    split at h
    · simp only [Option.some.injEq, Except.error.injEq] at h; simp [h]
    · cases h
    · cases h
  | list =>
    rw [hk] at h
    simp only [Option.some.injEq] at h ⊢
    cases hre : A.re with
    | true => rw [hre] at h; simp [collectFor, Except.map] at h
    | false =>
      rw [hre] at h
      simp only [collectFor, Bool.false_eq_true, if_false] at h
      cases hc : collectExceptions res with
      | ok l => rw [hc] at h; cases h
      | error e' =>
        rw [hc] at h
        simp only [Except.map, Except.error.injEq] at h
        subst h
        exact ⟨rfl, rfl, collect_err_mem hc⟩
  | map d =>
    rw [hk] at h
    simp only [Option.map_eq_some_iff] at h ⊢
    obtain ⟨x, hx, hxo⟩ := h
    cases x with
    | ok l => cases hxo
    | error e' =>
      simp only [Except.map, Except.error.injEq] at hxo
      subst hxo
      unfold resolveMap at hx
      cases hre : A.re with
      | true =>
        rw [hre] at hx
        simp only [collectFor, if_true] at hx
        cases hq : reconstruct d true res <;> rw [hq] at hx <;> simp at hx
      | false =>
        rw [hre] at hx
        simp only [collectFor, Bool.false_eq_true, if_false] at hx
        cases hc : collectExceptions res with
        | error e2 =>
          rw [hc] at hx
          simp only [Option.some.injEq, Except.error.injEq] at hx
          subst hx
          exact ⟨rfl, rfl, collect_err_mem hc⟩
        | ok l =>
          rw [hc] at hx
          cases hq : reconstruct d false l <;> simp only [hq] at hx <;> cases hx

theorem finishGet_raised {k : Kind} {re : Bool} {res : List (Res (Chunk V))} {e : Exc} (hs : (resolve k re res).isSome)
    (h : finishGet k re false res = .raised e) : resolve k re res = some (.error e) := by
  unfold finishGet at h
  split at h
  · cases h
  · rename_i e' he; simp only [Bool.false_eq_true, if_false, Got.raised.injEq] at h; rw [he, h]
  · rename_i hn; rw [hn] at hs; cases hs

/-- The error of one task, as raised by its own part of the result. -/
def TaskError (A : AR) (r : Res (Chunk V)) (e : Exc) : Prop :=
  RaisedBy { A with n := 1, kind := if A.n = 1 then A.kind else partKind A.kind } [r] e

/-- **C69 (`get` raises only what happened).** An error raised by `get` is TimeoutError, or the error of all the (finished) tasks together, or, with
FIRST_EXCEPTION, the error of one task that failed.  Without FIRST_EXCEPTION, TimeoutError (other than a task's own) only if a timeout was given. -/
theorem get_raises (A : AR) (c : Nat → Option (Res (Chunk V))) (s0 s : St V) (tmo fe : Bool) (e : Exc)
    (h0 : Steps A (St.init c) s0) (h : GetReturns A s0 tmo false fe s (.raised e)) :
    (∃ res, AllFinished A s res ∧ RaisedBy A res e) ∨
    (fe = true ∧ ∃ i r, i < A.n ∧ Finished s i r ∧ Fails A r ∧ TaskError A r e) ∨
    (e = .timeout ∧ s.main ≠ .ready ∧ (fe = false → tmo = true)) := by
  generalize hg : Got.raised e = g at h
  cases h with
  | ready fe s res hs hm hr =>
    have hi := inv_steps (inv_init A c) (steps_trans h0 hs)
    obtain ⟨res', h1, h2⟩ := hi.main (by rw [hm]; decide)
    rw [hr] at h1; cases h1
    exact Or.inl ⟨res, results_spec hr, resolve_raised (finishGet_raised h2 hg.symm)⟩
  | timeout t s' hw hs hne =>
    cases hg
    refine Or.inr (Or.inr ⟨rfl, hne, fun _ => ?_⟩)
    rcases hw.enough with he | he
    · have := hw.flag; simp [he] at this
    · exact he
  | nothing t s' d p hw hs hne hnf =>
    cases hg
    exact Or.inr (Or.inr ⟨rfl, hne, fun h => by cases h⟩)
  | part t t' t'' d p i r hw h1 h2 h3 h4 h5 h6 h7 =>
    obtain ⟨r', hr', hf⟩ := (failedPart_iff A t' i).1 h4
    have hrr : r' = r := by have := steps_child h5 i r' hr'; rw [h7] at this; cases this; rfl
    subst hrr
    have hsome : (resolve (if A.n = 1 then A.kind else partKind A.kind) A.re [r']).isSome := by
      unfold failedPart outcomeOf at h4
      rw [hr'] at h4
      by_cases hn : A.n = 1
      · simp only [hn, if_true] at h4 ⊢
        split at h4
        · rename_i x hx; rw [hx]; rfl
        · cases h4
      · simp only [hn, if_false] at h4 ⊢
        split at h4
        · rename_i x hx; rw [hx]; rfl
        · cases h4
    refine Or.inr (Or.inl ⟨rfl, i, r', (hw.sound i h3).1, h7, hf, ?_⟩)
    exact resolve_raised (A := { A with n := 1, kind := if A.n = 1 then A.kind else partKind A.kind })
      (finishGet_raised hsome hg.symm)

/-- **C69 (a spurious TimeoutError is possible only at the very end).** If `get(return_when=FIRST_EXCEPTION)` without a timeout raises TimeoutError although no task has failed, then
every task is finished (only the last callbacks have not run). -/
theorem first_exception_timeout_partial (A : AR) (c : Nat → Option (Res (Chunk V))) (s0 s : St V) (e : Exc)
    (h0 : Steps A (St.init c) s0) (h : GetReturns A s0 false false true s (.raised e)) :
    (∃ i r, i < A.n ∧ Finished s i r ∧ ∃ x, r = .exc x) ∨ (e = .timeout ∧ ∀ i, i < A.n → ∃ r, Finished s i r) := by
  generalize hg : Got.raised e = g at h
  cases h with
  | ready fe s res hs hm hr =>
    have hi := inv_steps (inv_init A c) (steps_trans h0 hs)
    obtain ⟨res', h1, h2⟩ := hi.main (by rw [hm]; decide)
    rw [hr] at h1; cases h1
    have hrb := resolve_raised (finishGet_raised h2 hg.symm)
    obtain ⟨hl, hc⟩ := results_spec hr
    have hmem : ∃ r ∈ res, ∃ x, r = Res.exc x := by
      unfold RaisedBy at hrb
      split at hrb
      · cases res with
        | nil => simp at hrb
        | cons a as => simp only [List.head?_cons, Option.some.injEq] at hrb; exact ⟨a, by simp, e, hrb⟩
      · obtain ⟨_, _, r, hr, hx⟩ := hrb
        refine ⟨r, hr, ?_⟩
        cases r with
        | val => simp [RemoteRes] at hx
        | exc x => exact ⟨x, rfl⟩
    obtain ⟨r, hr, hx⟩ := hmem
    obtain ⟨i, hi, rfl⟩ := List.getElem_of_mem hr
    exact Or.inl ⟨i, res[i], by omega, hc i hi, hx⟩
  | nothing t s' d p hw hs hne hnf =>
    cases hg
    rcases hw.enough with he | he
    · rcases he with he | ⟨i, hi, hf⟩
      · refine Or.inr ⟨rfl, fun i hn => ?_⟩
        have hi := inv_steps (inv_init A c) (steps_trans h0 hw.steps)
        obtain ⟨r, hr⟩ := stage_finished hi i hn (hw.sound i (he i hn)).2
        exact ⟨r, steps_child hs i r hr⟩
      · obtain ⟨r, hr, hff⟩ := (failedPart_iff A t i).1 hf
        have := (failedPart_iff A s i).2 ⟨r, steps_child hs i r hr, hff⟩
        rw [hnf i hi] at this; cases this
    · cases he
  | part t t' t'' d p i r hw h1 h2 h3 h4 h5 h6 h7 =>
    obtain ⟨r', hr', hf⟩ := (failedPart_iff A t' i).1 h4
    have hrr : r' = r := by have := steps_child h5 i r' hr'; rw [h7] at this; cases this; rfl
    subst hrr
    refine Or.inl ⟨i, r', (hw.sound i h3).1, h7, ?_⟩
    cases r' with
    | exc x => exact ⟨x, rfl⟩
    | val v =>
      unfold Fails at hf
      cases hk : A.kind with
      | single => rw [hk] at hf; simp at hf
      | list => rw [hk] at hf; simp only at hf; split at hf <;> simp [RemoteRes] at hf
      | map d => rw [hk] at hf; simp [RemoteRes] at hf

/-- No callback is waiting to be run. -/
def Quiet (A : AR) (s : St V) : Prop := ∀ t, Step A s t → (∃ i r, s.child i = none ∧ t.child i = some r) ∨ t = { s with isSplit := true }

theorem quiet_part {A : AR} {s : St V} (hq : Quiet A s) (hs : s.isSplit = true) (i : Nat) (hi : i < A.n)
    (hc : ∃ r, s.child i = some r) : s.part i = .ready := by
  cases hp : s.part i with
  | ready => rfl
  | pending =>
    exfalso
    rcases hq _ (.partDone s i hi hs (Option.isSome_iff_exists.2 hc) hp) with ⟨j, r, h1, h2⟩ | h
    · simp only at h2; rw [h1] at h2; cases h2
    · have := congrArg (fun x => x.part i) h
      simp [hp] at this
  | done =>
    exfalso
    rcases hq _ (.partReady s i hp) with ⟨j, r, h1, h2⟩ | h
    · simp only at h2; rw [h1] at h2; cases h2
    · have := congrArg (fun x => x.part i) h
      simp [hp] at this

theorem quiet_main {A : AR} {s : St V} (hq : Quiet A s) (res : List (Res (Chunk V))) (hr : results A s = some res)
    (hres : (resolve A.kind A.re res).isSome) : s.main = .ready := by
  cases hp : s.main with
  | ready => rfl
  | pending =>
    exfalso
    rcases hq _ (.mainDone s res hp hr hres) with ⟨j, r, h1, h2⟩ | h
    · simp only at h2; rw [h1] at h2; cases h2
    · have := congrArg (fun x => x.main) h
      simp [hp] at this
  | done =>
    exfalso
    rcases hq _ (.mainReady s hp) with ⟨j, r, h1, h2⟩ | h
    · simp only at h2; rw [h1] at h2; cases h2
    · have := congrArg (fun x => x.main) h
      simp [hp] at this

/-- A result that is resolved by its callbacks: single results and lists always, maps unless an aborted task's exception breaks the
reconstruction (`aborted_map_never_resolves`, C10). -/
def Resolvable (A : AR) (res : List (Res (Chunk V))) : Prop :=
  match A.kind with
  | .map d => resolveMap d A.re res ≠ none
  | _ => True

/-- **C69 (waiting ends).** When all tasks are finished and no callback is left to run, `wait()` and `get()` return at once, with the complete result. -/
theorem wait_ends (A : AR) (hn : 0 < A.n) (s : St V) (hq : Quiet A s) (res : List (Res (Chunk V)))
    (hf : AllFinished A s res) (hr : Resolvable A res) (fe : Bool) :
    WaitAll A s false s true ∧ ∃ g, GetReturns A s false false fe s g := by
  have hres : results A s = some res := by
    obtain ⟨res', h⟩ := mapM_total (f := s.child) (List.range A.n) (by
      intro i hi
      simp at hi
      exact Option.isSome_iff_exists.2 ⟨res[i]'(by have := hf.1; omega), hf.2 i (by have := hf.1; omega)⟩)
    have h' := results_spec (A := A) (s := s) (res := res') h
    have : res' = res := by
      apply List.ext_getElem (by rw [h'.1, hf.1])
      intro i h1 h2
      have ha := h'.2 i h1
      rw [hf.2 i h2] at ha
      exact (Option.some.inj ha).symm
    rw [← this]; exact h
  have hm : s.main = .ready := by
    apply quiet_main hq res hres
    unfold Resolvable at hr
    unfold resolve
    cases hk : A.kind with
    | single =>
      cases res with
      | nil => have := hf.1; simp at this; omega
      | cons r rs => cases r <;> rfl
    | list => rfl
    | map d =>
      rw [hk] at hr
      simp only at hr ⊢
      cases hx : resolveMap d A.re res with
      | none => exact absurd hx hr
      | some x => rfl
  exact ⟨⟨.refl s, by simp [hm], Or.inl hm⟩, _, .ready fe s res (.refl s) hm hres⟩

/-- **C69 (FIRST_EXCEPTION does not wait for the others).** As soon as one of several tasks has failed and the callbacks have run,
`wait(return_when=FIRST_EXCEPTION)` returns, and `get(return_when=FIRST_EXCEPTION)` raises this task's error, though the others are still running. -/
theorem first_exception_prompt (A : AR) (hn : A.n ≠ 1) (s : St V) (hq : Quiet A s) (hs : s.isSplit = true)
    (hm : s.main ≠ .ready) (i : Nat) (hi : i < A.n) (r : Res (Chunk V)) (hc : Finished s i r) (hf : Fails A r) :
    ∃ d p, WaitReturns A s false .firstException s d p ∧ i ∈ d ∧
      ∃ e, GetReturns A s false false true s (.raised e) ∧ TaskError A r e := by
  have hpart := quiet_part hq hs i hi ⟨r, hc⟩
  have hfp : failedPart A s i = true := (failedPart_iff A s i).2 ⟨r, hc, hf⟩
  have hst : stageOf A s i = .ready := by simp [stageOf, hn, hpart]
  have hd : i ∈ (List.range A.n).filter (fun i => stageOf A s i ≠ .pending) := by simp [hi, hst]
  have hw : WaitReturns A s false .firstException s ((List.range A.n).filter (fun i => stageOf A s i ≠ .pending))
      ((List.range A.n).filter (fun j => j ∉ (List.range A.n).filter (fun i => stageOf A s i ≠ .pending))) := by
    refine ⟨.refl s, Or.inr hs, ?_, ?_, rfl, Or.inl (Or.inr ⟨i, hd, hfp⟩)⟩
    · intro j hj; simp at hj; exact hj
    · intro j hj hjs; simp [hj]; exact hjs
  refine ⟨_, _, hw, hd, ?_⟩
  have hg := GetReturns.part (tmo := false) (retExc := false) s s s _ _ i r hw (.refl s) hm hd hfp (.refl s) hst hc
  have herr : ∃ e, resolve (if A.n = 1 then A.kind else partKind A.kind) A.re [r] = some (.error e) := by
    unfold failedPart outcomeOf at hfp
    rw [show s.child i = some r from hc] at hfp
    simp only [hn, if_false] at hfp ⊢
    split at hfp
    · rename_i e he; exact ⟨e, he⟩
    · cases hfp
  obtain ⟨e, he⟩ := herr
  refine ⟨e, ?_, resolve_raised (A := { A with n := 1, kind := if A.n = 1 then A.kind else partKind A.kind }) he⟩
  have : finishGet (if A.n = 1 then A.kind else partKind A.kind) A.re false [r] = .raised e := by
    unfold finishGet; rw [he]; rfl
  rw [this] at hg
  exact hg

/-- **C69 is false in a race.** A single finished, successful task: `get(return_when=FIRST_EXCEPTION)`, called without a timeout, raises TimeoutError when the waiting
thread is woken (`set_result` notifies the waiters first) before `_finalize_result` has run. -/
theorem spurious_timeout_violated :
    let A : AR := ⟨.single, 1, false, some [some 0]⟩
    let s0 : St Nat := St.init (fun _ => none)
    ∃ s : St Nat, Finished s 0 (.val (.scalar 7)) ∧ GetReturns A s0 false false true s (.raised .timeout) := by
  intro A s0
  let s1 : St Nat := { s0 with child := fun j => if j = 0 then some (.val (.scalar 7)) else none }
  let s2 : St Nat := { s1 with main := .done }
  have h : Steps A s0 s2 :=
    .tail (.tail (.refl _) (Step.finish s0 0 (.val (.scalar 7)) (by decide) rfl)) (Step.mainDone s1 [.val (.scalar 7)] rfl rfl rfl)
  refine ⟨s2, rfl, .nothing s2 s2 [0] [] ⟨h, Or.inl rfl, ?_, ?_, rfl, Or.inl (Or.inl ?_)⟩ (.refl _) (by decide) ?_⟩
  · intro i hi; simp at hi; subst hi; exact ⟨by decide, by decide⟩
  · intro i hi _; have : i = 0 := by simp [A] at hi; exact hi
    subst this; simp
  · intro i hi; have : i = 0 := by simp [A] at hi; exact hi
    subst this; simp
  · intro i hi; simp at hi; subst hi; rfl

/-- **C69: with `return_exceptions=True`, FIRST_EXCEPTION returns a single exception object instead of the list of results** (one entry per engine) as soon as one task
fails: the documented shape of the result is lost. -/
theorem first_exception_shape_violated (t : ETuple) :
    let A : AR := ⟨.list, 2, false, some [some 0, some 1]⟩
    ∃ s : St Nat, Steps A (St.init (fun _ => none)) s ∧ s.child 1 = none ∧
      GetReturns A s false true true s (.value (.one (.exc (.remote t)))) := by
  intro A
  let r : Res (Chunk Nat) := .exc (.remote t)
  let s0 : St Nat := St.init (fun _ => none)
  let s1 : St Nat := { s0 with isSplit := true }
  let s2 : St Nat := { s1 with child := fun j => if j = 0 then some r else none }
  let s3 : St Nat := { s2 with part := fun j => if j = 0 then .done else .pending }
  let s4 : St Nat := { s3 with part := fun j => if j = 0 then .ready else s3.part j }
  have h : Steps A s0 s4 :=
    .tail (.tail (.tail (.tail (.refl _) (Step.split s0 (by decide))) (Step.finish s1 0 r (by decide) rfl))
      (Step.partDone s2 0 (by decide) rfl rfl rfl)) (Step.partReady s3 0 rfl)
  refine ⟨s4, h, rfl, ?_⟩
  have hw : WaitReturns A s4 false .firstException s4 [0] [1] := by
    refine ⟨.refl _, Or.inr rfl, ?_, ?_, rfl, Or.inl (Or.inr ⟨0, by simp, rfl⟩)⟩
    · intro i hi; simp at hi; subst hi; exact ⟨by decide, fun h => by cases h⟩
    · intro i hi hs
      by_cases h1 : i = 0
      · simp [h1]
      · exfalso; apply hs; simp [stageOf, A, s4, s3, h1]
  exact GetReturns.part s4 s4 s4 [0] [1] 0 r hw (.refl _) (fun h => by cases h) (by simp) rfl (.refl _) rfl rfl

/-- **C69: a result fetched from the hub (`AsyncHubResult`) does not support FIRST_EXCEPTION**: when it is not ready in time, `get` raises TypeError. -/
theorem hub_first_exception_violated : (hubGetNotReady true : Got Nat) = .raised .typeError := rfl

/-! ### split and join -/

theorem zip_flat (ids : List String) : ∀ (ts : List (Option Nat)), ts.length = ids.length →
    ((ts.zip ids).map (fun x => ([x.2], some [x.1]))).flatMap Prod.fst = ids ∧
    ((ts.zip ids).map (fun x => (([x.2] : List String), some [x.1]))).mapM Prod.snd = some (ts.map (fun t => [t])) := by
  induction ids with
  | nil => intro ts h; cases ts <;> simp at h ⊢
  | cons a as ih =>
    intro ts h
    cases ts with
    | nil => simp at h
    | cons t ts =>
      obtain ⟨h1, h2⟩ := ih ts (by simpa using h)
      refine ⟨by simp [h1], ?_⟩
      simp only [List.zip_cons_cons, List.map_cons, List.mapM_cons, h2]
      rfl

theorem flatten_singletons (l : List α) : (l.map (fun t => [t])).flatten = l := by
  induction l <;> simp_all

/-- **C69 (`split` then `join`).** Joining the parts of a result gives a result for the same messages in the same order, and the same engines
(one target per message, as every view provides, or none). -/
theorem join_split (ids : List String) (hne : ids ≠ []) (targets : Option (List (Option Nat)))
    (ht : ∀ ts, targets = some ts → ts.length = ids.length) :
    ∃ ts', join false (splitIds ids targets) = .ok (ids, ts') ∧
      (∀ ts, targets = some ts → ts' = some ts) := by
  unfold splitIds
  by_cases h1 : ids.length = 1
  · simp only [h1, if_true]
    exact ⟨targets, rfl, fun ts h => h⟩
  · simp only [h1, if_false]
    generalize hts : targets.getD (List.replicate ids.length none) = ts
    have hlen : ts.length = ids.length := by
      cases targets with
      | none => simp at hts; subst hts; simp
      | some t => simp at hts; subst hts; exact ht t rfl
    obtain ⟨hz1, hz2⟩ := zip_flat ids ts hlen
    have hl2 : 2 ≤ ((ts.zip ids).map (fun x => (([x.2] : List String), some [x.1]))).length := by
      have : ids.length ≠ 0 := by intro h; exact hne (List.length_eq_zero_iff.1 h)
      simp [hlen]; omega
    generalize (ts.zip ids).map (fun x => (([x.2] : List String), some [x.1])) = parts at *
    refine ⟨some ts, ?_, ?_⟩
    · match parts, hl2, hz1, hz2 with
      | a :: b :: rest, _, hz1, hz2 =>
        unfold join
        dsimp only
        rw [hz2]
        simp only [Bool.false_eq_true, if_false, hz1, flatten_singletons]
    · intro ts0 h0
      subst h0
      simp at hts
      rw [hts]

/-- **C69: results of load-balanced calls cannot be joined** (they have no targets): `AsyncResult.join` of two of them raises TypeError. -/
theorem join_load_balanced_violated (a b : List String) : join false [(a, none), (b, none)] = .error .typeError := by
  simp [join]

/-- **C69: `AsyncMapResult.join` raises TypeError for any two results**: its constructor does not take what `join` passes. -/
theorem join_map_violated (a b : List String) (ta tb : Option (List (Option Nat))) : join true [(a, ta), (b, tb)] = .error .typeError := by
  cases ta <;> cases tb <;> simp [join]

/-! ### The hypotheses are met -/

/-- A result over three engines; the second fails while the others run: FIRST_EXCEPTION. -/
example : ∃ s : St Nat, let A : AR := ⟨.list, 3, false, some [some 0, some 1, some 2]⟩
    Steps A (St.init (fun _ => none)) s ∧ s.child 0 = none ∧ s.child 2 = none ∧
    GetReturns A s false false true s (.raised (.remote ⟨none, none, none, some 1⟩)) := by
  let A : AR := ⟨.list, 3, false, some [some 0, some 1, some 2]⟩
  let r : Res (Chunk Nat) := .exc (.remote ⟨none, none, none, some 1⟩)
  let s0 : St Nat := St.init (fun _ => none)
  let s1 : St Nat := { s0 with isSplit := true }
  let s2 : St Nat := { s1 with child := fun j => if j = 1 then some r else none }
  let s3 : St Nat := { s2 with part := fun j => if j = 1 then .done else .pending }
  let s4 : St Nat := { s3 with part := fun j => if j = 1 then .ready else s3.part j }
  have h : Steps A s0 s4 :=
    .tail (.tail (.tail (.tail (.refl _) (Step.split s0 (by decide))) (Step.finish s1 1 r (by decide) rfl))
      (Step.partDone s2 1 (by decide) rfl rfl rfl)) (Step.partReady s3 1 rfl)
  refine ⟨s4, h, rfl, rfl, ?_⟩
  have hw : WaitReturns A s4 false .firstException s4 [1] [0, 2] := by
    refine ⟨.refl _, Or.inr rfl, ?_, ?_, rfl, Or.inl (Or.inr ⟨1, by simp, rfl⟩)⟩
    · intro i hi; simp at hi; subst hi; exact ⟨by decide, by decide⟩
    · intro i hi hs
      by_cases h1 : i = 1
      · simp [h1]
      · exfalso; apply hs; simp [stageOf, A, s4, s3, h1]
  exact GetReturns.part s4 s4 s4 [1] [0, 2] 1 r hw (.refl _) (by decide) (by simp) rfl (.refl _) rfl rfl

end IPP.Async.Wait
