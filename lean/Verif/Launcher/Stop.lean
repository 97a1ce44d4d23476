/-!
# C47: stop notifications of launchers — launcher.py

`BaseLauncher.on_stop`, `notify_stop` and the engine sets `LocalEngineSetLauncher` (SSH sets inherit it). Everything runs on the event loop's thread: the background thread that waits for the process only
schedules `notify_stop` (launcher.py:492-505), `poll` may call it too. Not modelled: processes, signals, output files.
-/
namespace IPP.Launcher

/-- cluster/launcher.py:86-135 -/
inductive State where
  | before
  | running
  | after
  deriving DecidableEq, Repr

/-- a launcher with stop data of type `δ`; callbacks are numbered; `calls`: callbacks that were called, with the data — cluster/launcher.py:86-135 -/
structure L (δ : Type) where
  state : State
  stopData : Option δ
  callbacks : List Nat
  calls : List (Nat × δ)

/-- a launcher with its initial state — launcher.py:108-133 -/
def new (δ : Type) : L δ := { state := .before, stopData := none, callbacks := [], calls := [] }

/-- `notify_start` — launcher.py:268-277 -/
def start {δ : Type} (l : L δ) : L δ := { l with state := .running }

/-- `on_stop(f)` — launcher.py:259-266 (`stop_data` is set when the state is 'after') -/
def onStop {δ : Type} (f : Nat) (l : L δ) : L δ :=
  if l.state = .after then
    match l.stopData with
    | some d => { l with calls := l.calls ++ [(f, d)] }
    | none => l
  else { l with callbacks := l.callbacks ++ [f] }

/-- the callbacks that `notify_stop` gets to: the first one that raises ends the loop — launcher.py:292-293 -/
def reached (raises : Nat → Bool) : List Nat → List Nat
  | [] => []
  | f :: r => if raises f then [f] else f :: reached raises r

/-- `notify_stop(data)` — launcher.py:279-294 -/
def notifyStop {δ : Type} (raises : Nat → Bool) (d : δ) (l : L δ) : L δ :=
  if l.state = .after then l
  else { l with state := .after, stopData := some d, calls := l.calls ++ (reached raises l.callbacks).map (fun f => (f, d)) }

/-- what happens to a launcher — cluster/launcher.py:261-298 -/
inductive Ev (δ : Type) where
  | start
  | onStop (f : Nat)
  | stopped (d : δ)

/-- cluster/launcher.py:261-298 -/
def step {δ : Type} (raises : Nat → Bool) (l : L δ) : Ev δ → L δ
  | .start => if l.state = .before then start l else l
  | .onStop f => Launcher.onStop f l
  | .stopped d => notifyStop raises d l

/-- a sequence of calls of cluster/launcher.py:261-298 -/
def run {δ : Type} (raises : Nat → Bool) (h : List (Ev δ)) : L δ := h.foldl (step raises) (new δ)

/-- (spec) the data of the first stop -/
def firstStop {δ : Type} : List (Ev δ) → Option δ
  | [] => none
  | .stopped d :: _ => some d
  | _ :: r => firstStop r

/-- (spec) the callbacks registered, in order -/
def registered {δ : Type} : List (Ev δ) → List Nat
  | [] => []
  | .onStop f :: r => f :: registered r
  | _ :: r => registered r

theorem reached_all {raises : Nat → Bool} : ∀ (l : List Nat), (∀ f ∈ l, raises f = false) → reached raises l = l
  | [], _ => rfl
  | f :: r, h => by
    simp only [reached, h f (by simp)]
    rw [reached_all r (fun g hg => h g (by simp [hg]))]
    simp

theorem firstStop_append {δ : Type} (a b : List (Ev δ)) : firstStop (a ++ b) = (firstStop a).or (firstStop b) := by
  induction a with
  | nil => simp [firstStop]
  | cons e r ih => cases e <;> simp [firstStop, ih]

theorem registered_append {δ : Type} (a b : List (Ev δ)) : registered (a ++ b) = registered a ++ registered b := by
  induction a with
  | nil => simp [registered]
  | cons e r ih => cases e <;> simp [registered, ih]

theorem run_snoc {δ : Type} (raises : Nat → Bool) (h : List (Ev δ)) (e : Ev δ) : run raises (h ++ [e]) = step raises (run raises h) e := by
  simp [run, List.foldl_append]

theorem snoc_induction {α : Type} {P : List α → Prop} (h0 : P []) (hs : ∀ l a, P l → P (l ++ [a])) (l : List α) : P l := by
  have : ∀ (r l : List α), P l → P (l ++ r) := by
    intro r
    induction r with
    | nil => intro l h; simpa using h
    | cons a r ih =>
      intro l h
      have := ih (l ++ [a]) (hs l a h)
      simpa using this
  simpa using this l [] h0

/-- C47: in every history whose callbacks do not raise, the callbacks called are exactly those registered, each once and in the order of registration, if the process has stopped, and none otherwise. All get the data of the
first stop, whether they were registered before or after it. -/
theorem callbacks_exactly_once_partial {δ : Type} (raises : Nat → Bool) (h : List (Ev δ)) (hr : ∀ f ∈ registered h, raises f = false) :
    (run raises h).calls = match firstStop h with
      | some d => (registered h).map (fun f => (f, d))
      | none => [] := by
  suffices H : ∀ h : List (Ev δ), (∀ f ∈ registered h, raises f = false) →
      match firstStop h with
      | some d => (run raises h).state = .after ∧ (run raises h).stopData = some d ∧ (run raises h).calls = (registered h).map (fun f => (f, d))
      | none => (run raises h).state ≠ .after ∧ (run raises h).callbacks = registered h ∧ (run raises h).calls = [] by
    have := H h hr
    cases hf : firstStop h with
    | none => rw [hf] at this; exact this.2.2
    | some d => rw [hf] at this; exact this.2.2
  intro h
  induction h using snoc_induction with
  | h0 => intro _; simp [firstStop, run, new, registered]
  | hs h e ih =>
    intro hr
    have hr' : ∀ f ∈ registered h, raises f = false := fun f hf => hr f (by rw [registered_append]; simp [hf])
    have ih := ih hr'
    rw [firstStop_append, run_snoc, registered_append]
    cases hf : firstStop h with
    | some d =>
      rw [hf] at ih
      obtain ⟨h1, h2, h3⟩ := ih
      simp only [Option.some_or]
      cases e with
      | start => simp [step, h1, h2, h3, registered]
      | onStop f => simp [step, onStop, h1, h2, h3, registered]
      | stopped d' => simp [step, notifyStop, h1, h2, h3, registered]
    | none =>
      rw [hf] at ih
      obtain ⟨h1, h2, h3⟩ := ih
      simp only [Option.none_or]
      cases e with
      | start =>
        simp only [firstStop, step, registered, List.append_nil]
        split
        · exact ⟨by simp [start], h2, h3⟩
        · exact ⟨h1, h2, h3⟩
      | onStop f => simp [firstStop, step, onStop, h1, h2, h3, registered]
      | stopped d =>
        simp only [firstStop, step, notifyStop, if_neg h1, h2, h3, registered, List.append_nil, List.nil_append, true_and]
        rw [reached_all _ hr']

/-- C47 violated: when one callback raises, those registered after it are never called, also not by a later stop. -/
theorem raising_callback_violated : ∃ (raises : Nat → Bool) (h : List (Ev Nat)), firstStop h = some 0 ∧ 2 ∈ registered h ∧ raises 2 = false ∧
    ∀ h' : List (Ev Nat), (∀ f ∈ registered h', f ≠ 2) → ∀ d, (2, d) ∉ (run raises (h ++ h')).calls := by
  refine ⟨fun f => f == 1, [.start, .onStop 1, .onStop 2, .stopped 0], rfl, by decide, rfl, ?_⟩
  intro h' hh d
  suffices H : (run (fun f => f == 1) ([Ev.start, .onStop 1, .onStop 2, .stopped 0] ++ h')).state = .after ∧
      (2, d) ∉ (run (fun f => f == 1) ([Ev.start, .onStop 1, .onStop 2, .stopped 0] ++ h')).calls from H.2
  induction h' using snoc_induction with
  | h0 => simp [run, step, start, new, onStop, notifyStop, reached]
  | hs h' e ih =>
    have ih := ih (fun f hf => hh f (by rw [registered_append]; simp [hf]))
    rw [← List.append_assoc, run_snoc]
    cases e with
    | start => simp only [step]; rw [if_neg (by rw [ih.1]; simp)]; exact ih
    | stopped d' => simp only [step, notifyStop]; rw [if_pos ih.1]; exact ih
    | onStop f =>
      have hf : f ≠ 2 := hh f (by rw [registered_append]; simp [registered])
      simp only [step, onStop]
      rw [if_pos ih.1]
      split
      · refine ⟨ih.1, ?_⟩
        simp only [List.mem_append, List.mem_singleton, Prod.mk.injEq, not_or, not_and]
        exact ⟨ih.2, fun h => absurd h.symm hf⟩
      · exact ih

/-! ## engine sets -/

/-- exit codes; `unknown` is the string that `poll` reports — launcher.py:655-660 -/
inductive Code where
  | none
  | num (n : Int)
  | unknown
  deriving DecidableEq, Repr

/-- `if exit_code` — cluster/launcher.py:801-821 -/
def Code.truthy : Code → Bool
  | .none => false
  | .num n => n ≠ 0
  | .unknown => true

/-- The launcher of a set. `launchers`: engines still in the dict; `engines`: `stop_data["engines"]`; `stopped`: engine launchers in state 'after' — cluster/launcher.py:705-821 -/
structure SetL where
  launchers : List Nat
  engines : List (Nat × Code)
  after : List Nat
  base : L Code

/-- the exit code of a set — launcher.py:789-801; `none`: Python's `None` -/
def exitCode : List (Nat × Code) → Code → Code
  | [], acc => acc
  | (_, c) :: r, acc => if c.truthy then c else exitCode r (if acc = .none then c else acc)

/-- `_notice_engine_stopped` — launcher.py:780-803 -/
def notice (raises : Nat → Bool) (i : Nat) (c : Code) (s : SetL) : SetL :=
  let launchers := s.launchers.filter (· ≠ i)
  let engines := s.engines ++ [(i, c)]
  if launchers.isEmpty then { s with launchers := launchers, engines := engines, base := notifyStop raises (exitCode engines .none) s.base }
  else { s with launchers := launchers, engines := engines }

/-- the callbacks of the set that were called — cluster/launcher.py:282-298 -/
def SetL.calls (s : SetL) : List Nat := s.base.calls.map (·.1)

/-- what happens to a set: an engine's `notify_stop` is called (perhaps again), or a callback is registered — cluster/launcher.py:801-821 -/
inductive SetEv where
  | engine (i : Nat) (c : Code)
  | onStop (f : Nat)
  deriving DecidableEq, Repr

/-- an engine's launcher calls back on its first `notify_stop`, if it was started — launcher.py:286-288 -/
def setStep (raises : Nat → Bool) (started : List Nat) (s : SetL) : SetEv → SetL
  | .engine i c =>
    if i ∈ started ∧ i ∉ s.after then notice raises i c { s with after := s.after ++ [i] }
    else s
  | .onStop f => { s with base := onStop f s.base }

/-- `start(n)` — launcher.py:737-768; the engines whose `start` works come before the first whose does not, if any: `failing = true` means that the last one of `ids` raised -/
def setStart (ids : List Nat) (failing : Bool) : SetL :=
  { launchers := ids, engines := [], after := [], base := if failing then new Code else start (new Code) }

/-- a set of engines `ids` that were all started — cluster/launcher.py:752-821 -/
def setRun (raises : Nat → Bool) (ids : List Nat) (h : List SetEv) : SetL := h.foldl (setStep raises ids) (setStart ids false)

/-- (spec) the first exit of every engine of the set, in order -/
def exits (ids : List Nat) : List SetEv → List (Nat × Code)
  | [] => []
  | .engine i c :: r => if i ∈ ids then (i, c) :: exits (ids.filter (· ≠ i)) r else exits ids r
  | .onStop _ :: r => exits ids r

def setRegistered : List SetEv → List Nat
  | [] => []
  | .onStop f :: r => f :: setRegistered r
  | _ :: r => setRegistered r

theorem exits_mem {ids : List Nat} {h : List SetEv} {e : Nat × Code} (he : e ∈ exits ids h) : e.1 ∈ ids := by
  induction h generalizing ids with
  | nil => simp [exits] at he
  | cons x r ih =>
    cases x with
    | onStop f => exact ih he
    | engine i c =>
      simp only [exits] at he
      split at he
      next hi =>
        rcases List.mem_cons.1 he with rfl | he
        · exact hi
        · exact (List.mem_filter.1 (ih he)).1
      · exact ih he

/-- invariant of a set: `live` are the engines without an exit -/
structure SetInv (raises : Nat → Bool) (ids : List Nat) (h : List SetEv) (s : SetL) : Prop where
  eng : s.engines = exits ids h
  launch : s.launchers = ids.filter (fun i => i ∉ (exits ids h).map (·.1))
  aft : s.after = (exits ids h).map (·.1)
  run : s.launchers ≠ [] → s.base.state = .running ∧ s.base.callbacks = setRegistered h ∧ s.base.calls = []
  stop : s.launchers = [] → s.base.state = .after ∧ s.base.stopData = some (exitCode (exits ids h) .none) ∧ s.base.calls = (setRegistered h).map (fun f => (f, exitCode (exits ids h) .none))

theorem exits_snoc (ids : List Nat) (h : List SetEv) (e : SetEv) : exits ids (h ++ [e]) = exits ids h ++ (match e with
    | .engine i c => if i ∈ ids ∧ i ∉ (exits ids h).map (·.1) then [(i, c)] else []
    | .onStop _ => []) := by
  induction h generalizing ids with
  | nil =>
    cases e with
    | onStop f => simp [exits]
    | engine i c => simp only [List.nil_append, exits, List.map_nil, List.not_mem_nil, not_false_eq_true, and_true]
  | cons x r ih =>
    cases x with
    | onStop f => simp only [List.cons_append, exits]; exact ih ids
    | engine j d =>
      by_cases hj : j ∈ ids
      · simp only [List.cons_append, exits, if_pos hj, ih]
        cases e with
        | onStop f => simp
        | engine i c =>
          simp only [List.cons_append, List.map_cons, List.mem_cons, not_or, List.mem_filter, decide_eq_true_eq, ne_eq]
          simp only [and_assoc]
      · simp only [List.cons_append, exits, if_neg hj, ih]

theorem setRegistered_append (a b : List SetEv) : setRegistered (a ++ b) = setRegistered a ++ setRegistered b := by
  induction a with
  | nil => simp [setRegistered]
  | cons e r ih => cases e <;> simp [setRegistered, ih]

theorem set_inv (raises : Nat → Bool) (ids : List Nat) (hne : ids ≠ []) (h : List SetEv) (hr : ∀ f ∈ setRegistered h, raises f = false) : SetInv raises ids h (setRun raises ids h) := by
  induction h using snoc_induction with
  | h0 =>
    refine ⟨rfl, ?_, rfl, ?_, ?_⟩
    · simp only [setRun, List.foldl_nil, setStart, exits, List.map_nil, List.not_mem_nil, not_false_eq_true, decide_true]
      exact (List.filter_eq_self.2 (fun _ _ => rfl)).symm
    · intro _; exact ⟨rfl, rfl, rfl⟩
    · intro hh; exact absurd hh hne
  | hs h e ih =>
    have ih := ih (fun f hf => hr f (by rw [setRegistered_append]; simp [hf]))
    have hst : setRun raises ids (h ++ [e]) = setStep raises ids (setRun raises ids h) e := by simp [setRun, List.foldl_append]
    rw [hst]
    generalize setRun raises ids h = s at ih
    cases e with
    | onStop f =>
      have hex : exits ids (h ++ [SetEv.onStop f]) = exits ids h := by rw [exits_snoc]; simp
      have hreg : setRegistered (h ++ [SetEv.onStop f]) = setRegistered h ++ [f] := by rw [setRegistered_append]; rfl
      refine ⟨by rw [hex]; exact ih.eng, by rw [hex]; exact ih.launch, by rw [hex]; exact ih.aft, ?_, ?_⟩
      · intro hh
        obtain ⟨a, b, c⟩ := ih.run hh
        simp only [setStep, onStop]
        rw [if_neg (by rw [a]; simp)]
        exact ⟨a, by simp [b, hreg], c⟩
      · intro hh
        obtain ⟨a, b, c⟩ := ih.stop hh
        simp only [setStep, onStop]
        rw [if_pos a, b]
        exact ⟨a, by rw [hex], by simp [c, hex, hreg]⟩
    | engine i c =>
      have hreg : setRegistered (h ++ [SetEv.engine i c]) = setRegistered h := by rw [setRegistered_append]; simp [setRegistered]
      by_cases hi : i ∈ ids ∧ i ∉ s.after
      · have hex : exits ids (h ++ [SetEv.engine i c]) = exits ids h ++ [(i, c)] := by
          rw [exits_snoc]; simp only; rw [if_pos (by rw [← ih.aft]; exact hi)]
        have hil : i ∈ s.launchers := by
          rw [ih.launch, List.mem_filter]
          refine ⟨hi.1, ?_⟩
          rw [← ih.aft]
          simpa using hi.2
        have hne' : s.launchers ≠ [] := List.ne_nil_of_mem hil
        obtain ⟨r1, r2, r3⟩ := ih.run hne'
        have hlaunch : s.launchers.filter (· ≠ i) = ids.filter (fun j => j ∉ (exits ids h ++ [(i, c)]).map (·.1)) := by
          rw [ih.launch, List.filter_filter]
          apply List.filter_congr
          intro j _
          simp only [List.map_append, List.map_cons, List.map_nil, List.mem_append, List.mem_singleton, not_or]
          by_cases hji : j = i <;> simp [hji]
        simp only [setStep]
        rw [if_pos hi]
        simp only [notice]
        by_cases hemp : (s.launchers.filter (· ≠ i)).isEmpty = true
        · rw [if_pos hemp]
          refine ⟨by rw [hex, ih.eng], by rw [hex]; exact hlaunch, by rw [hex, ih.aft]; simp, ?_, ?_⟩
          · intro hh; exact absurd (List.isEmpty_iff.1 hemp) hh
          · intro _
            simp only [notifyStop]
            rw [if_neg (by rw [r1]; simp)]
            refine ⟨rfl, by rw [hex, ih.eng], ?_⟩
            simp only
            rw [r3, r2, hex, hreg, ih.eng, reached_all]
            · rfl
            · intro f hf; exact hr f (by rw [hreg]; exact hf)
        · rw [if_neg hemp]
          refine ⟨by rw [hex, ih.eng], by rw [hex]; exact hlaunch, by rw [hex, ih.aft]; simp, ?_, ?_⟩
          · intro _; exact ⟨r1, by rw [hreg]; exact r2, r3⟩
          · intro hh
            exact absurd (List.isEmpty_iff.2 hh) hemp
      · have hex : exits ids (h ++ [SetEv.engine i c]) = exits ids h := by
          rw [exits_snoc]; simp only; rw [if_neg (by rw [← ih.aft]; exact hi)]; simp
        simp only [setStep]
        rw [if_neg hi]
        exact ⟨by rw [hex]; exact ih.eng, by rw [hex]; exact ih.launch, by rw [hex]; exact ih.aft, fun hh => by rw [hreg]; exact ih.run hh, fun hh => by rw [hex, hreg]; exact ih.stop hh⟩

/-- (spec) an engine of the set has exited -/
def hasExited (i : Nat) (h : List SetEv) : Prop := ∃ c, SetEv.engine i c ∈ h

theorem exits_iff (ids : List Nat) (h : List SetEv) (i : Nat) : i ∈ (exits ids h).map (·.1) ↔ i ∈ ids ∧ hasExited i h := by
  induction h using snoc_induction with
  | h0 => simp [exits, hasExited]
  | hs h e ih =>
    rw [exits_snoc]
    cases e with
    | onStop f =>
      simp only [List.append_nil, ih, hasExited, List.mem_append, List.mem_singleton, reduceCtorEq, or_false]
    | engine j c =>
      simp only [List.map_append, List.mem_append, ih]
      constructor
      · rintro (⟨h1, c', h2⟩ | h1)
        · exact ⟨h1, c', by simp [h2]⟩
        · split at h1
          next hj =>
            have : i = j := by simpa using h1
            subst this
            exact ⟨hj.1, c, by simp⟩
          · simp at h1
      · rintro ⟨h1, c', h2⟩
        rcases List.mem_append.1 h2 with h2 | h2
        · exact .inl ⟨h1, c', h2⟩
        · have : i = j := by simp at h2; exact h2.1
          subst this
          by_cases hx : hasExited i h
          · exact .inl ⟨h1, hx⟩
          · refine .inr ?_
            rw [if_pos ⟨h1, fun hc => hx ((ih.1 hc).2)⟩]
            simp

theorem set_stopped_iff_nil {raises : Nat → Bool} {ids : List Nat} {h : List SetEv} {s : SetL} (I : SetInv raises ids h s) : s.base.state = .after ↔ s.launchers = [] := by
  constructor
  · intro ha
    apply Decidable.byContradiction
    intro hc
    have := (I.run hc).1
    rw [ha] at this; cases this
  · exact fun hn => (I.stop hn).1

/-- C47: a set reports that it stopped exactly when all its engines have exited. -/
theorem set_stops_iff_partial (raises : Nat → Bool) (ids : List Nat) (hne : ids ≠ []) (h : List SetEv) (hr : ∀ f ∈ setRegistered h, raises f = false) :
    (setRun raises ids h).base.state = .after ↔ ∀ i ∈ ids, hasExited i h := by
  have I := set_inv raises ids hne h hr
  rw [set_stopped_iff_nil I, I.launch, List.filter_eq_nil_iff]
  constructor
  · intro hh i hi
    have := hh i hi
    simp only [decide_eq_true_eq, Decidable.not_not] at this
    exact ((exits_iff ids h i).1 this).2
  · intro hh i hi
    simp only [decide_eq_true_eq, Decidable.not_not]
    exact (exits_iff ids h i).2 ⟨hi, hh i hi⟩

/-- C47: every callback registered on a set is called exactly once if all engines have exited, and not before. -/
theorem set_callbacks_exactly_once_partial (raises : Nat → Bool) (ids : List Nat) (hne : ids ≠ []) (h : List SetEv) (hr : ∀ f ∈ setRegistered h, raises f = false) :
    ((∀ i ∈ ids, hasExited i h) → (setRun raises ids h).calls = setRegistered h) ∧ ((¬ ∀ i ∈ ids, hasExited i h) → (setRun raises ids h).calls = []) := by
  have I := set_inv raises ids hne h hr
  have hiff := set_stops_iff_partial raises ids hne h hr
  rw [set_stopped_iff_nil I] at hiff
  refine ⟨fun ha => ?_, fun ha => ?_⟩
  · simp [SetL.calls, (I.stop (hiff.2 ha)).2.2, List.map_map, Function.comp_def]
  · simp [SetL.calls, (I.run (fun hc => ha (hiff.1 hc))).2.2]

theorem exitCode_truthy (l : List (Nat × Code)) (acc : Code) (ha : acc.truthy = false) :
    ((exitCode l acc).truthy = true ↔ ∃ e ∈ l, e.2.truthy = true) ∧ ((exitCode l acc).truthy = true → ∃ e ∈ l, e.2 = exitCode l acc) := by
  induction l generalizing acc with
  | nil => simp [exitCode, ha]
  | cons e r ih =>
    obtain ⟨i, c⟩ := e
    simp only [exitCode]
    by_cases hc : c.truthy = true
    · rw [if_pos hc]
      exact ⟨⟨fun _ => ⟨(i, c), by simp, hc⟩, fun _ => hc⟩, fun _ => ⟨(i, c), by simp, rfl⟩⟩
    · rw [if_neg hc]
      have hacc : (if acc = .none then c else acc).truthy = false := by
        split
        · simpa using hc
        · exact ha
      obtain ⟨h1, h2⟩ := ih _ hacc
      refine ⟨?_, ?_⟩
      · rw [h1]
        constructor
        · rintro ⟨e, he, ht⟩
          exact ⟨e, by simp [he], ht⟩
        · rintro ⟨e, he, ht⟩
          rcases List.mem_cons.1 he with rfl | he
          · exact absurd ht hc
          · exact ⟨e, he, ht⟩
      · intro ht
        obtain ⟨e, he, h3⟩ := h2 ht
        exact ⟨e, by simp [he], h3⟩

theorem exitCode_zero (l : List (Nat × Code)) (acc : Code) (hl : ∀ e ∈ l, e.2.truthy = false) (ha : acc = .num 0 ∨ (acc = .none ∧ ∃ e ∈ l, e.2 ≠ .none)) : exitCode l acc = .num 0 := by
  induction l generalizing acc with
  | nil => rcases ha with rfl | ⟨-, e, he, -⟩; rfl; simp at he
  | cons e r ih =>
    obtain ⟨i, c⟩ := e
    have hc := hl (i, c) (by simp)
    simp only [exitCode]
    rw [if_neg (by simpa using hc)]
    refine ih _ (fun e he => hl e (by simp [he])) ?_
    rcases ha with rfl | ⟨rfl, e, he, hne⟩
    · left; simp
    · rw [if_pos rfl]
      cases c with
      | none =>
        right
        refine ⟨rfl, ?_⟩
        rcases List.mem_cons.1 he with rfl | he
        · exact absurd rfl hne
        · exact ⟨e, he, hne⟩
      | num z =>
        left
        simp only [Code.truthy] at hc
        have : z = 0 := by simpa using hc
        rw [this]
      | unknown => simp [Code.truthy] at hc

/-- C47: the exit code of a stopped set is a failure (nonzero, or unknown) exactly if some engine's first exit was one, and then it is that of one of these engines. -/
theorem set_exit_code_partial (raises : Nat → Bool) (ids : List Nat) (hne : ids ≠ []) (h : List SetEv) (hr : ∀ f ∈ setRegistered h, raises f = false) (hs : ∀ i ∈ ids, hasExited i h) :
    ∃ c, (setRun raises ids h).base.stopData = some c ∧ (c.truthy = true ↔ ∃ e ∈ exits ids h, e.2.truthy = true) ∧ (c.truthy = true → ∃ e ∈ exits ids h, e.2 = c) ∧
      ((∀ e ∈ exits ids h, e.2 = .num 0) → c = .num 0) ∧ ∀ x ∈ (setRun raises ids h).base.calls, x.2 = c := by
  have I := set_inv raises ids hne h hr
  have hn : (setRun raises ids h).launchers = [] := (set_stopped_iff_nil I).1 ((set_stops_iff_partial raises ids hne h hr).2 hs)
  obtain ⟨h1, h2, h3⟩ := I.stop hn
  refine ⟨_, h2, (exitCode_truthy _ _ rfl).1, (exitCode_truthy _ _ rfl).2, ?_, ?_⟩
  · intro hz
    refine exitCode_zero _ _ (fun e he => by rw [hz e he]; rfl) (.inr ⟨rfl, ?_⟩)
    cases ids with
    | nil => exact absurd rfl hne
    | cons i r =>
      have := (exits_iff (i :: r) h i).2 ⟨by simp, hs i (by simp)⟩
      obtain ⟨e, he, -⟩ := List.mem_map.1 this
      exact ⟨e, he, by rw [hz e he]; simp⟩
  · intro x hx
    rw [h3] at hx
    obtain ⟨f, -, rfl⟩ := List.mem_map.1 hx
    rfl

/-- C47 violated: if starting an engine fails, its launcher stays in the set and the set never reports that it stopped, whatever happens to the other engines. -/
theorem failed_start_never_stops_violated (raises : Nat → Bool) (ids : List Nat) (k : Nat) (hk : k ∉ ids) (h : List SetEv) :
    let s := h.foldl (setStep raises ids) (setStart (ids ++ [k]) true)
    s.base.state ≠ .after ∧ s.base.calls = [] := by
  suffices H : ∀ h : List SetEv, let s := h.foldl (setStep raises ids) (setStart (ids ++ [k]) true)
      k ∈ s.launchers ∧ s.base.state ≠ .after ∧ s.base.calls = [] from (H h).2
  intro h
  induction h using snoc_induction with
  | h0 => simp [setStart, new]
  | hs h e ih =>
    simp only [List.foldl_append, List.foldl_cons, List.foldl_nil] at ih ⊢
    generalize h.foldl (setStep raises ids) (setStart (ids ++ [k]) true) = s at ih
    obtain ⟨h1, h2, h3⟩ := ih
    cases e with
    | onStop f => simp only [setStep, onStop]; rw [if_neg h2]; exact ⟨h1, h2, h3⟩
    | engine i c =>
      simp only [setStep]
      split
      next hi =>
        have hik : k ≠ i := by rintro rfl; exact hk hi.1
        have hm : k ∈ s.launchers.filter (· ≠ i) := List.mem_filter.2 ⟨h1, by simpa using hik⟩
        simp only [notice]
        rw [if_neg (by rw [List.isEmpty_iff]; exact List.ne_nil_of_mem hm)]
        exact ⟨hm, h2, h3⟩
      · exact ⟨h1, h2, h3⟩

/-- C47 violated: a set of no engines never reports that it stopped. -/
theorem empty_set_never_stops_violated (raises : Nat → Bool) (h : List SetEv) : (setRun raises [] h).base.state ≠ .after := by
  suffices H : ∀ h : List SetEv, (setRun raises [] h).base.state = .running by rw [H h]; simp
  intro h
  induction h using snoc_induction with
  | h0 => rfl
  | hs h e ih =>
    have hst : setRun raises [] (h ++ [e]) = setStep raises [] (setRun raises [] h) e := by simp [setRun, List.foldl_append]
    rw [hst]
    cases e with
    | onStop f => simp only [setStep, onStop]; rw [if_neg (by rw [ih]; simp)]; exact ih
    | engine i c => simp only [setStep]; rw [if_neg (by simp)]; exact ih

/-- three engines; the second exits with 2, the first twice; a callback registered before and one after -/
example : let s := setRun (fun _ => false) [0, 1, 2] [.onStop 5, .engine 1 (.num 2), .engine 0 (.num 0), .engine 0 (.num 9), .engine 2 .none, .onStop 6]
    s.base.state = .after ∧ s.base.calls = [(5, .num 2), (6, .num 2)] := by decide

/-! ## SSH engine sets: how many engines are started where -/

/-- the loops of `SSHEngineSetLauncher.start` — launcher.py:1486-1534: hosts with their number of engines, `left` engines still wanted -/
def place : List (Nat × Nat) → Nat → List (Nat × Nat)
  | [], _ => []
  | (host, n) :: r, left => (List.range (min n left)).map (fun i => (host, i)) ++ place r (left - min n left)

/-- C52: `start(n)` of an SSH engine set starts the first `n` of the configured slots, in the order of the configuration. -/
theorem place_first (hosts : List (Nat × Nat)) (left : Nat) : place hosts left = (hosts.flatMap (fun e => (List.range e.2).map (fun i => (e.1, i)))).take left := by
  induction hosts generalizing left with
  | nil => simp [place]
  | cons e r ih =>
    obtain ⟨host, n⟩ := e
    simp only [place, List.flatMap_cons, ih, List.take_append, List.length_map, List.length_range]
    congr 1
    · rw [← List.map_take, List.take_range, Nat.min_comm]
    · congr 1; omega

/-- C52: never more engines than asked for, and all of them if there are enough slots. -/
theorem place_count (hosts : List (Nat × Nat)) (left : Nat) : (place hosts left).length = min left ((hosts.map (·.2)).sum) := by
  rw [place_first, List.length_take, List.length_flatMap]
  simp

/-- a host's configuration: a number, or a dict with perhaps `n` — cluster/launcher.py:1455-1534 -/
inductive HostCfg where
  | num (n : Nat)
  | dict (n : Option Nat)
  deriving DecidableEq, Repr

/-- the number used — launcher.py:1487-1493 -/
def HostCfg.n : HostCfg → Nat
  | .num n => n
  | .dict n => n.getD 1

/-- the configuration afterwards: `overrides.pop("n", 1)` changes the configured dict — cluster/launcher.py:1469-1534 -/
def HostCfg.popped : HostCfg → HostCfg
  | .num n => .num n
  | .dict _ => .dict none

/-- one call of `start` with this configuration: the engines started and the configuration left — cluster/launcher.py:1469-1534 -/
def sshStart (hosts : List (Nat × HostCfg)) (n : Nat) : List (Nat × Nat) × List (Nat × HostCfg) :=
  (place (hosts.map (fun e => (e.1, e.2.n))) n, hosts.map (fun e => (e.1, e.2.popped)))

/-- C52: what `start(n)` does with a configuration entry: a number gives that many slots, a dict the number under `n`, and one slot if the dict names none; the engines started are the first `n` slots of the hosts in their order. -/
theorem start_slots (hosts : List (Nat × HostCfg)) (n : Nat) (slots : HostCfg → Nat) (hnum : ∀ k, slots (.num k) = k) (hdict : ∀ k, slots (.dict (some k)) = k) (hnone : slots (.dict none) = 1) :
    (sshStart hosts n).1 = (hosts.flatMap (fun e => (List.range (slots e.2)).map (fun i => (e.1, i)))).take n := by
  have e : ∀ c : HostCfg, c.n = slots c := by
    intro c
    cases c with
    | num k => exact (hnum k).symm
    | dict o => cases o with
      | none => exact hnone.symm
      | some k => exact (hdict k).symm
  simp only [sshStart, place_first, List.flatMap_map, e]

example : (sshStart [(7, .dict none), (8, .num 2), (9, .dict (some 3))] 5).1 = [(7, 0), (8, 0), (8, 1), (9, 0), (9, 1)] := by decide

/-- C52: with plain numbers every start does the same. -/
theorem restart_same_partial (hosts : List (Nat × HostCfg)) (n : Nat) (h : ∀ e ∈ hosts, ∃ k, e.2 = .num k) : sshStart (sshStart hosts n).2 n = sshStart hosts n := by
  have : hosts.map (fun e => (e.1, e.2.popped)) = hosts := by
    conv => rhs; rw [← List.map_id hosts]
    apply List.map_congr_left
    intro e he
    obtain ⟨k, hk⟩ := h e he
    obtain ⟨a, b⟩ := e
    simp only at hk
    subst hk
    rfl
  simp only [sshStart, this]

/-- C52 violated: with a dict for a host the second start of a set with the same configuration starts one engine there instead of the configured number. -/
theorem restart_forgets_violated : ∃ hosts n, (sshStart hosts n).1 ≠ (sshStart (sshStart hosts n).2 n).1 := ⟨[(0, .dict (some 4))], 4, by decide⟩

example : place [(7, 2), (8, 0), (9, 3)] 4 = [(7, 0), (7, 1), (9, 0), (9, 1)] := by decide

end IPP.Launcher
