import Verif.LB.Require
import Verif.Namespace.Examples
/-!
# Load-balanced tasks: examples, and what does not hold
-/
namespace IPP.LB
open IPP.Namespace

/-- `Settled` of a concrete history can be computed -/
def settledFrom {V : Type} (i : Interp V) (cfg : Sched.Config) (s : Sys V) : List (Ev V) → Bool
  | [] => true
  | ev :: q => (match ev with | .strandTimer e => decide (e ∈ s.sched.strandTimers → (s.outbox e).isEmpty = true ∧ (s.dead e = true ∨ s.inbox e = [])) | _ => true) && settledFrom i cfg (step i cfg s ev) q

theorem settledFrom_iff {V : Type} (i : Interp V) (cfg : Sched.Config) (p h : List (Ev V)) (hs : settledFrom i cfg (run i cfg p) h = true) :
    ∀ p' e q, h = p' ++ .strandTimer e :: q → e ∈ (run i cfg (p ++ p')).sched.strandTimers →
    (run i cfg (p ++ p')).outbox e = [] ∧ ((run i cfg (p ++ p')).dead e = true ∨ (run i cfg (p ++ p')).inbox e = []) := by
  induction h generalizing p with
  | nil => intro p' e q hq; simp at hq
  | cons x h ih =>
    simp only [settledFrom, Bool.and_eq_true] at hs
    intro p' e q hq
    cases p' with
    | nil =>
      simp only [List.nil_append, List.cons.injEq] at hq
      obtain ⟨rfl, rfl⟩ := hq
      have := hs.1
      rw [decide_eq_true_eq] at this
      rw [List.append_nil]
      exact fun he => ⟨List.isEmpty_iff.1 (this he).1, (this he).2⟩
    | cons y p' =>
      simp only [List.cons_append, List.cons.injEq] at hq
      obtain ⟨rfl, hq⟩ := hq
      have := ih (p ++ [x]) (by rw [run_snoc]; exact hs.2) p' e q hq
      rw [List.append_assoc] at this
      exact this

theorem settled_of {V : Type} {i : Interp V} {cfg : Sched.Config} {h : List (Ev V)} (hs : settledFrom i cfg (init i) h = true) : Settled i cfg h :=
  fun p e q hq => settledFrom_iff i cfg [] h hs p e q hq

/-! ## An example: a task that sets `gpu` on one engine, and one that needs it -/

def exI : Interp Nat := { Namespace.exI with isFalse := fun r => r = .val 0 }
def exCfg : Sched.Config := { hwm := 1, pick := fun _ l => Sched.leastload l }
def setGpu : Fn Nat := fun ns _ _ => (set "gpu" (.user 1) ns, .ok .nothing)
def hasGpu : Fn Nat := fun ns _ _ => (ns, .ok (.val (if (get "gpu" ns).isSome then 1 else 0)))
def addOne : Fn Nat := fun ns as _ => (ns, match as with | [a] => .ok (.val (a + 1)) | _ => .raised (.user "TypeError"))
def t1 : Task Nat := ⟨.plain setGpu, [], []⟩
/-- `@depend(hasGpu) def addOne(a)`, applied to `4` -/
def t2 : Task Nat := ⟨.dep (.plain addOne) hasGpu [] [], [.val 4], []⟩

/-- Engine 8 runs task 1; engine 7 refuses task 2, then engine 8 runs it. -/
def exH : List (Ev Nat) := [.register 7, .register 8, .submit 1 {} t1, .work 8, .deliver 8, .submit 2 {} t2, .work 7, .deliver 7, .work 8, .deliver 8]

theorem exH_distinct : Distinct exH := ⟨by decide, by decide⟩
theorem exH_usual : Usual exCfg exH := .inl rfl
theorem exH_settled : Settled exI exCfg exH := settled_of (by decide +kernel)
theorem exH_log : (run exI exCfg exH).log.map (fun l => (l.engine, l.msg, l.started, l.out)) =
    [(8, 1, true, .ok .nothing), (7, 2, false, .raised (.user "UnmetDependency")), (8, 2, true, .ok (.val 5))] := by decide +kernel

example : ∃ l ∈ (run exI exCfg exH).log, l.engine = 8 ∧ l.msg = 2 ∧ l.started = true := by
  have := exH_log
  have h : (8, 2, true, Outcome.ok (Ret.val 5)) ∈ (run exI exCfg exH).log.map (fun l => (l.engine, l.msg, l.started, l.out)) := by rw [this]; decide
  obtain ⟨l, hl, he⟩ := List.mem_map.1 h
  simp only [Prod.mk.injEq] at he
  exact ⟨l, hl, he.1, he.2.1, he.2.2.1⟩

theorem exH_client : (2, Final.reply (.ok (.val 5))) ∈ (run exI exCfg exH).client := by
  have : ((run exI exCfg exH).client.map fun x => (x.1, match x.2 with | .reply o => some o | _ => none)) = [(1, some (.ok .nothing)), (2, some (.ok (.val 5)))] := by decide +kernel
  have h : (2, some (Outcome.ok (Ret.val 5))) ∈ (run exI exCfg exH).client.map fun x => (x.1, match x.2 with | .reply o => some o | _ => none) := by rw [this]; decide
  obtain ⟨⟨m, r⟩, hl, he⟩ := List.mem_map.1 h
  simp only [Prod.mk.injEq] at he
  obtain ⟨h1, h2⟩ := he
  subst h1
  cases r with
  | reply o => simp only [Option.some.injEq] at h2; rw [← h2]; exact hl
  | _ => cases h2

example : answers 2 (run exI exCfg exH) = 1 := by decide +kernel
example : answers 2 (run exI exCfg exH) ≤ 1 := one_answer_partial exI exCfg exH exH_distinct exH_usual exH_settled 2
example : ∃ l ∈ (run exI exCfg exH).log, ∃ sub t f ns1, l.msg = 2 ∧ l.started = true ∧ Ev.submit 2 sub t ∈ exH ∧ Passes exI t.f l.before f ns1 ∧
    doApply exI.toInterp ns1 (toString 2) f t.args t.kwargs = (l.after, .ok (.val 5)) := result_right exI exCfg exH exH_distinct 2 _ exH_client
example : calls 2 (run exI exCfg exH) = 1 := by decide +kernel

theorem addOne_civil : Civil exI t2 := by
  intro ns f ns1 hp n a k
  cases hp with
  | dep hp hd hf =>
    cases hp
    show (addOne n a k).2 ≠ _
    unfold addOne
    dsimp only
    split <;> simp

example : calls 2 (run exI exCfg exH) ≤ 0 + 1 := called_at_most_partial exI exCfg exH exH_distinct exH_usual exH_settled 2 {} t2 (by simp [exH]) addOne_civil
theorem addOne_unaware (ks : List String) : Unaware ks addOne := fun a b as kw h => ⟨rfl, h⟩
example : ∃ l ∈ (run exI exCfg exH).log, ∃ f ns1, Passes exI t2.f l.before f ns1 ∧ l.out = sent exI.toInterp (f ns1 [4] []).2 := by
  obtain ⟨l, hl, _, _, _, _, h1, h2, _⟩ := result_right exI exCfg exH exH_distinct 2 _ exH_client
  refine ⟨l, hl, ?_⟩
  obtain ⟨f, ns1, h3, h4, _⟩ := call_right exI exCfg exH exH_distinct 2 {} t2.f [4] [] (by simp [exH, t2]) l hl h1 h2 (by
    intro f ns ns' hp
    cases hp with
    | dep hp hd hf => cases hp; exact addOne_unaware _)
  exact ⟨f, ns1, h3, h4⟩

/-! ## An engine dies: the task (with one retry) is run again on the other -/

def exD : List (Ev Nat) := [.register 7, .register 8, .submit 1 { retries := 1 } ⟨.plain addOne, [.val 4], []⟩, .work 8, .crash 8 0, .unregister 8, .strandTimer 8, .work 7, .deliver 7]
theorem exD_distinct : Distinct exD := ⟨by decide, by decide⟩
theorem exD_settled : Settled exI exCfg exD := settled_of (by decide +kernel)
example : (run exI exCfg exD).log.map (fun l => (l.engine, l.msg, l.started)) = [(8, 1, true), (7, 1, true)] := by decide +kernel
example : answers 1 (run exI exCfg exD) = 1 ∧ calls 1 (run exI exCfg exD) = 2 := by decide +kernel
example : calls 1 (run exI exCfg exD) ≤ 1 + 1 := called_at_most_partial exI exCfg exD exD_distinct (.inl rfl) exD_settled 1 { retries := 1 } ⟨.plain addOne, [.val 4], []⟩ (by simp [exD]) (by
  intro ns f ns1 hp n a k
  cases hp
  unfold addOne
  dsimp only
  split <;> simp)

/-- without retries the client gets an `EngineError` -/
def exE : List (Ev Nat) := [.register 8, .submit 1 {} ⟨.plain addOne, [.val 4], []⟩, .work 8, .crash 8 0, .unregister 8, .strandTimer 8]
example : (run exI exCfg exE).client.map (fun x => (x.1, match x.2 with | .engineError => true | _ => false)) = [(1, true)] := by decide +kernel

/-! ## All engines idle -/

theorem exCfg_inRange : Sched.InRange exCfg := fun _ l hl => by obtain ⟨_, h, _⟩ := Sched.leastload_minimal l hl; exact (List.getElem?_eq_some_iff.1 h).1
example : answers 1 (run exI exCfg exH) = 1 ∨
    ((∀ e, Ev.register e ∈ exH → (([] : List Sched.Engine) ≠ [] ∧ e ∉ ([] : List Sched.Engine)) ∨ ∃ l ∈ (run exI exCfg exH).log, l.engine = e ∧ l.msg = 1) ∧
      ∀ l ∈ (run exI exCfg exH).log, l.msg = 1 → ∃ err, l.out = .raised err ∧ (err = .user "UnmetDependency" ∨ 0 < 0)) := answered_or_tried_partial exI exCfg exH exH_distinct exCfg_inRange (by
    intro m sub t hm
    simp [exH] at hm
    rcases hm with ⟨_, rfl, _⟩ | ⟨_, rfl, _⟩ <;> exact ⟨by simp, rfl, rfl⟩)
  (by intro e k hm; simp [exH] at hm) (by intro e hm; simp [exH] at hm) (by
    intro e
    by_cases h7 : e = 7
    · subst h7; decide +kernel
    · by_cases h8 : e = 8
      · subst h8; decide +kernel
      · have h7' : ¬ 7 = e := fun h => h7 h.symm
        have h8' : ¬ 8 = e := fun h => h8 h.symm
        have hi := inv exI exCfg exH exH_distinct.1 exH_distinct.2
        have : ∀ m, (Sched.outstanding e (run exI exCfg exH).sched.trace).count m = 0 := by
          intro m
          refine List.count_eq_zero.2 fun hm => ?_
          have hs := Sched.outstanding_sent hm
          have : ∀ o ∈ (run exI exCfg exH).sched.trace, (match o with | .send e' _ => decide (e' = 7 ∨ e' = 8) | _ => true) = true := by decide +kernel
          have := this _ hs
          simp [h7, h8] at this
        constructor
        · rw [← List.length_eq_zero_iff]
          refine Nat.le_zero.1 (length_le_of_count _ [] fun x => ?_)
          have h1 := hi.box e x
          have h2 := this x
          simp only [List.count_nil]
          omega
        · rw [← List.map_eq_nil_iff (f := (·.1)), ← List.length_eq_zero_iff]
          refine Nat.le_zero.1 (length_le_of_count _ [] fun x => ?_)
          have h1 := hi.box e x
          have h2 := this x
          simp only [List.count_nil]
          omega) 1 {} t1 (by simp [exH])

/-! ## `@require` -/

/-- only `numpy` is installed -/
def exImp : Importer Nat := fun n ns => if n = "numpy" then (set n (.user 100) ns, .ok) else (ns, .importError)
def exReq : Option (Callable Nat) := require exImp 1 [.str "numpy", .named "foo" 3] [("foo", 2), ("bar", 9)] (.plain addOne)
example : exReq.isSome = true := rfl
example : ∃ c g ns', exReq = some c ∧ Passes exI c [] g ns' ∧ get "foo" ns' = some (.user 3) ∧ get "numpy" ns' = some (.user 100) := by
  refine ⟨_, addOne, _, rfl, (require_right exI exImp 1 (by decide) [.str "numpy", .named "foo" 3] [("foo", 2), ("bar", 9)] (by decide) (.plain addOne) _ rfl [] addOne _).2
    ⟨[], [("numpy", .user 100)], .plain _ _, .cons rfl (.nil _), _, rfl, fun k => ?_, rfl⟩, by decide, by decide⟩
  rw [get_assignAll k _ _ (by decide), (require_args [Obj.str "numpy", .named "foo" 3] [("foo", 2), ("bar", 9)] (by decide)).2.2.2 k]
example : ∃ c, require exImp 1 [.str "numpy", .str "cupy"] [("x", 2)] (.plain addOne) = some c ∧ Fails exI c [] (.user "UnmetDependency") [("numpy", .user 100)] :=
  ⟨_, rfl, require_missing exI exImp 1 [.str "numpy", .str "cupy"] [("x", 2)] (by decide) (.plain addOne) _ rfl [] [] _ _ addOne (.plain _ _) ["numpy"] [] "cupy" rfl (.cons rfl (.nil _)) rfl⟩
example : require exImp 1 [.other] [] (.plain addOne) = none := rfl

/-! ## What does not hold -/

/-- the task's own function raises `UnmetDependency` -/
def rude : Fn Nat := fun ns _ _ => (ns, .raised (.user "UnmetDependency"))
def exR : List (Ev Nat) := [.register 7, .register 8, .submit 1 {} ⟨.plain rude, [], []⟩, .work 8, .deliver 8, .work 7, .deliver 7]

/-- The engine tells a refusal from a failure by the name of the exception (kernel.py:89): a task without retries whose own function raises `UnmetDependency` is run once on every engine,
and its client is never told. -/
theorem unmet_from_body_violated : Distinct exR ∧ Usual exCfg exR ∧ Settled exI exCfg exR ∧ calls 1 (run exI exCfg exR) = 2 ∧ answers 1 (run exI exCfg exR) = 0 ∧
    ∀ e ∈ [7, 8], (run exI exCfg exR).inbox e = [] ∧ (run exI exCfg exR).outbox e = [] := by
  refine ⟨⟨by decide, by decide⟩, .inl rfl, settled_of (by decide +kernel), by decide +kernel, by decide +kernel, by decide +kernel⟩

end IPP.LB
