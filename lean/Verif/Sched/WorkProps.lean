import Verif.Sched.Work2

/-!
# C56: no engine idles while a task could run on it
-/
namespace IPP.Sched

theorem Fresh.submit_unique {evs : List Event} (hf : Fresh evs) {m : MsgId} {sub sub' : Submission} (h : Event.submit m sub ∈ evs) (h' : Event.submit m sub' ∈ evs) : sub = sub' := by
  have h1 := hf.1
  clear hf
  induction evs with
  | nil => cases h
  | cons ev evs ih =>
    rw [List.filterMap_cons] at h1
    have key : ∀ s, Event.submit m s ∈ evs → m ∈ evs.filterMap Event.subId := fun s hs => List.mem_filterMap.mpr ⟨_, hs, rfl⟩
    rcases List.mem_cons.mp h with a | a <;> rcases List.mem_cons.mp h' with b | b
    · rw [← a] at b; cases b; rfl
    · subst a
      exact absurd (key _ b) (List.nodup_cons.mp h1).1
    · subst b
      exact absurd (key _ a) (List.nodup_cons.mp h1).1
    · refine ih a b ?_
      split at h1
      · exact h1
      · exact (List.nodup_cons.mp h1).2

/-- C56 (tasks without dependencies): after every event, a task that has neither been answered nor is on an engine cannot run anywhere now: every registered
engine is full (has `hwm` tasks), or has already failed or refused the task, or is not among the task's targets. -/
theorem no_engine_idles_partial (cfg : Config) (evs : List Event) (hf : Fresh evs) (hi : Independent evs) (hr : InRange cfg) (hp : Prompt cfg evs)
    (m : MsgId) (sub : Submission) (hm : Event.submit m sub ∈ evs) (h0 : replies m (run cfg evs).trace = 0) (hna : ∀ e, m ∉ assigned e (run cfg evs).trace)
    (e : Engine) (hreg : Registered e (run cfg evs).trace) :
    (cfg.hwm ≠ 0 ∧ cfg.hwm ≤ (assigned e (run cfg evs).trace).length) ∨ (∃ c, Obs.retry e m c ∈ (run cfg evs).trace) ∨ (sub.targets ≠ [] ∧ e ∉ sub.targets) := by
  have h := run_inv_of_orderly hf (Or.inr ⟨hi, hr⟩) hp
  have hq := run_work (D := Independent evs ∧ InRange cfg) ⟨hi, hr⟩ hr evs hf hi hp
  have hb := run_base cfg evs hf
  have hmq : m ∈ (run cfg evs).queue := by
    rcases task_not_lost_independent cfg evs hf hi hr hp m sub hm with a | ⟨e', a⟩ | a
    · omega
    · exact absurd a (hna e')
    · exact a
  obtain ⟨_, j, hj, _⟩ := h.qin m (by simpa [top] using hmq)
  have hjr : j.removed = false := by
    cases hjr : j.removed with
    | false => rfl
    | true =>
      rcases h.rem ⟨hi, hr⟩ m j hj hjr with a | a
      · cases a
      · exact absurd h0 a
  obtain ⟨sub', hs', _, htg, _⟩ := h.sub m j hj
  have hse : sub' = sub := by
    have h1 := hb.2 _ hs'
    exact Fresh.submit_unique hf h1 hm
  subst hse
  by_cases hfull : cfg.hwm ≠ 0 ∧ cfg.hwm ≤ (assigned e (run cfg evs).trace).length
  · exact Or.inl hfull
  right
  have het : e ∈ (run cfg evs).targets := (registered_iff hb.1 e).mp hreg
  have hroom : Room cfg (run cfg evs) e := by
    refine ⟨((assigned e (run cfg evs).trace).length : Int), ?_, ?_⟩
    · unfold HasLoad
      obtain ⟨i, hi⟩ := List.getElem?_of_mem het
      refine List.mem_of_getElem? (i := i) ?_
      rw [List.getElem?_zip_eq_some]
      refine ⟨hi, ?_⟩
      rw [h.load, List.getElem?_map, hi]
      rfl
    · omega
  obtain ⟨hbl, htl⟩ := (run_pickInv cfg evs hf).job m j sub' hj hs'
  rcases hq m hmq j hj hjr e trivial hroom with a | ⟨a, b⟩
  · exact Or.inl (hbl e a)
  · by_cases hes : e ∈ sub'.targets
    · rcases htl e hes with c | c
      · exact absurd c b
      · exact Or.inl (hbl e c)
    · refine Or.inr ⟨fun hh => ?_, hes⟩
      obtain ⟨t, ht⟩ := List.exists_mem_of_ne_nil _ a
      have := htg t ht
      rw [hh] at this
      cases this

/-- At the end of the second example task 1 waits although engine 8 has a free place: 8 has failed it. -/
example : replies 1 (run exCfg2 exHistory2).trace = 0 ∧ assigned 8 (run exCfg2 exHistory2).trace = [4] ∧ (1 : MsgId) ∈ (run exCfg2 exHistory2).queue ∧
    Obs.retry 8 1 .failure ∈ (run exCfg2 exHistory2).trace := by decide

/-- In the middle of it task 5 … waits because both engines are full, task 6 because its target is. -/
example : (run exCfg2 (exHistory2.take 8)).queue = [5, 6] ∧ (assigned 7 (run exCfg2 (exHistory2.take 8)).trace).length = 2 ∧
    (assigned 8 (run exCfg2 (exHistory2.take 8)).trace).length = 2 := by decide

end IPP.Sched
