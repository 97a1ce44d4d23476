import Verif.LB.Deaths
import Verif.LB.Examples
/-!
# Tasks and engines that die: examples
-/
namespace IPP.LB
open IPP.Namespace

theorem idle_unsent {V : Type} (i : Interp V) (cfg : Sched.Config) (h : List (Ev V)) (hd : Distinct h) (e : Sched.Engine) (hs : ∀ m, Sched.Obs.send e m ∉ (run i cfg h).sched.trace) :
    (run i cfg h).outbox e = [] ∧ (run i cfg h).inbox e = [] := by
  have hi := inv i cfg h hd.1 hd.2
  have : ∀ m, (Sched.outstanding e (run i cfg h).sched.trace).count m = 0 := fun m => List.count_eq_zero.2 fun hm => hs m (Sched.outstanding_sent hm)
  constructor
  · rw [← List.map_eq_nil_iff (f := (·.1)), ← List.length_eq_zero_iff]
    refine Nat.le_zero.1 (length_le_of_count _ [] fun x => ?_)
    have h1 := hi.box e x
    have h2 := this x
    simp only [List.count_nil]
    omega
  · rw [← List.length_eq_zero_iff]
    refine Nat.le_zero.1 (length_le_of_count _ [] fun x => ?_)
    have h1 := hi.box e x
    have h2 := this x
    simp only [List.count_nil]
    omega

/-- engine 8 dies with the task and the other engine runs it: each executes it once -/
example : (run exI exCfg exD).log.countP (fun l => l.engine = 8 ∧ l.msg = 1) = 1 ∧ (run exI exCfg exD).log.countP (fun l => l.engine = 7 ∧ l.msg = 1) = 1 := by decide +kernel
example : (run exI exCfg exD).log.countP (fun l => l.engine = 8 ∧ l.msg = 1) ≤ 1 := executed_once_partial exI exCfg exD exD_distinct (.inl rfl) exD_settled 8 1

theorem exD_buried : Buried 8 exD := ⟨[.register 7, .register 8, .submit 1 { retries := 1 } ⟨.plain addOne, [.val 4], []⟩, .work 8, .crash 8 0], [], [.work 7, .deliver 7], rfl, by simp⟩

/-- the hypotheses of `answered_or_tried_deaths_partial` in a history with a dead engine -/
example : answers 1 (run exI exCfg exD) = 1 ∨
    ((∀ e, Ev.register e ∈ exD → Ev.unregister e ∉ exD → (([] : List Sched.Engine) ≠ [] ∧ e ∉ ([] : List Sched.Engine)) ∨ ∃ l ∈ (run exI exCfg exD).log, l.engine = e ∧ l.msg = 1) ∧
      ∀ l ∈ (run exI exCfg exD).log, l.msg = 1 → (∃ err, l.out = .raised err ∧ (err = .user "UnmetDependency" ∨ 0 < 1)) ∨ ((run exI exCfg exD).dead l.engine = true ∧ 0 < 1)) := by
  refine answered_or_tried_deaths_partial exI exCfg exD exD_distinct exCfg_inRange ?_ exD_settled ?_ ?_ 1 { retries := 1 } ⟨.plain addOne, [.val 4], []⟩ (by simp [exD])
  · intro m sub t hm
    simp [exD] at hm
    rcases hm with ⟨_, rfl, _⟩; exact ⟨by simp, rfl, rfl⟩
  · intro e hde hre
    simp [exD] at hre
    rcases hre with rfl | rfl
    · have : (run exI exCfg exD).dead 7 = false := by decide +kernel
      rw [this] at hde; cases hde
    · exact exD_buried
  · intro e
    by_cases h7 : e = 7
    · subst h7; decide +kernel
    · by_cases h8 : e = 8
      · subst h8; decide +kernel
      · have := idle_unsent exI exCfg exD exD_distinct e (by
          intro m hs
          have : ∀ o ∈ (run exI exCfg exD).sched.trace, (match o with | .send e' _ => decide (e' = 7 ∨ e' = 8) | _ => true) = true := by decide +kernel
          have := this _ hs
          simp [h7, h8] at this)
        exact ⟨this.1, .inr this.2⟩

/-- a task with a retry left whose only engine died: it waits, tried there once -/
def exF : List (Ev Nat) := [.register 8, .submit 1 { retries := 1 } ⟨.plain addOne, [.val 4], []⟩, .work 8, .crash 8 0, .unregister 8, .strandTimer 8]
example : answers 1 (run exI exCfg exF) = 0 ∧ (run exI exCfg exF).log.map (fun l => (l.engine, l.msg)) = [(8, 1)] ∧ (run exI exCfg exF).dead 8 = true := by decide +kernel

end IPP.LB
