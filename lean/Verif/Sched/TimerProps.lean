import Verif.Sched.Timer2

/-!
# C57: task timeouts

`(run cfg evs).jobTimers` are the timeout callbacks scheduled with the event loop; `Event.jobTimer m t` is the expiry of one of them.
-/
namespace IPP.Sched

variable {cfg : Config} {n : Nat} {T : List MsgId} {s₀ s s' : State} {J : State → Prop}

structure TInv (s : State) : Prop where
  own : ∀ p ∈ s.jobTimers, ∃ j, s.jobs p.1 = some j ∧ p.2 ≤ j.timeoutId ∧ j.hasTimeout = true
  arm : ∀ m ∈ s.queueMap, ∀ j, s.jobs m = some j → j.hasTimeout = true → (m, j.timeoutId) ∈ s.jobTimers
  qj : ∀ m ∈ s.queueMap, s.jobs m ≠ none

theorem Fr.job (h : Fr T [] s₀ s) {x : MsgId} {j₀ : Job} (hj : s₀.jobs x = some j₀) : ∃ j, s.jobs x = some j ∧ j.timeoutId = j₀.timeoutId ∧ j.hasTimeout = j₀.hasTimeout := by
  cases hx : s.jobs x with
  | none => exact absurd hx (h.ex x (by rw [hj]; simp))
  | some j =>
    obtain ⟨j', a, b, c⟩ := h.jobs x j hx
    rw [hj] at a; cases a
    exact ⟨j, rfl, b, c⟩

theorem tinv_closed (T : List MsgId) : TClosed T TInv where
  frame := fun s s' h f => by
    refine ⟨fun p hp => ?_, fun m hm j hj ht => ?_, fun m hm => ?_⟩
    · rw [f.timers] at hp
      obtain ⟨j, a, b, c⟩ := h.own p hp
      obtain ⟨j', a', b', c'⟩ := f.job a
      exact ⟨j', a', by omega, c'.trans c⟩
    · obtain ⟨j₀, a, b, c⟩ := f.jobs m j hj
      rw [f.timers, b]
      exact h.arm m ((f.qm m hm).resolve_right (by simp)) j₀ a (c ▸ ht)
    · exact f.ex m (h.qj m ((f.qm m hm).resolve_right (by simp)))
  save := fun s m j qu gr h hj ht => by
    refine ⟨fun p hp => ?_, fun x hx jx hjx htx => ?_, fun x hx => ?_⟩
    · rcases List.mem_append.mp hp with hp | hp
      · obtain ⟨jp, a, b, c⟩ := h.own p hp
        by_cases hpm : p.1 = m
        · rw [hpm, hj] at a; cases a
          exact ⟨{ j with timeoutId := j.timeoutId + 1 }, by rw [hpm]; simp [upd], by dsimp only; omega, ht⟩
        · exact ⟨jp, by simp [upd, hpm, a], b, c⟩
      · rw [List.mem_singleton.mp hp]
        exact ⟨{ j with timeoutId := j.timeoutId + 1 }, by simp [upd], Nat.le_refl _, ht⟩
    · dsimp only at hx hjx ⊢
      by_cases hxm : x = m
      · subst hxm
        simp only [upd, if_true, Option.some.injEq] at hjx
        subst hjx
        simp
      · simp only [upd, hxm, if_false] at hjx
        exact List.mem_append_left _ (h.arm x (((mem_insertSet _ _ _).mp hx).resolve_left hxm) jx hjx htx)
    · by_cases hxm : x = m
      · subst hxm; simp [upd]
      · simp only [upd, hxm, if_false]
        exact h.qj x (((mem_insertSet _ _ _).mp hx).resolve_left hxm)
  keep := fun s m j qu gr h hj ht => by
    refine ⟨h.own, fun x hx jx hjx htx => ?_, fun x hx => ?_⟩
    · rcases (mem_insertSet _ _ _).mp hx with rfl | hx
      · rw [show s.jobs x = some jx from hjx] at hj; cases hj
        rw [ht] at htx; cases htx
      · exact h.arm x hx jx hjx htx
    · rcases (mem_insertSet _ _ _).mp hx with rfl | hx
      · dsimp only; rw [hj]; simp
      · exact h.qj x hx
  new := fun s m j h hj => by
    refine ⟨fun p hp => ?_, fun x hx jx hjx htx => ?_, fun x hx => ?_⟩
    · obtain ⟨jp, a, b, c⟩ := h.own p hp
      have hpm : p.1 ≠ m := fun hh => by rw [hh, hj] at a; cases a
      exact ⟨jp, by simp [upd, hpm, a], b, c⟩
    · have hxm : x ≠ m := fun hh => h.qj x hx (hh ▸ hj)
      simp only [upd, hxm, if_false] at hjx
      exact h.arm x hx jx hjx htx
    · have hxm : x ≠ m := fun hh => h.qj x hx (hh ▸ hj)
      simp only [upd, hxm, if_false]
      exact h.qj x hx

theorem bind_ok {x : M α} {f : α → M β} {a : α} (h : x s = (.ok a, s')) : (x >>= f) s = f a s' := by
  show (match x s with
    | (.ok a, s') => f a s'
    | (.error e, s') => (.error e, s')) = _
  rw [h]

theorem getJob_eq (m : MsgId) (s : State) : getJob m s = match s.jobs m with
    | none => (.error .keyError, s)
    | some j => (.ok j, s) := by
  show lookupE (s.jobs m) s = _
  cases s.jobs m <;> rfl

theorem jobTimeout_eq (n : Nat) (m : MsgId) (t : Nat) (s : State) (j : Job) (hj : s.jobs m = some j) : jobTimeout cfg n m t s =
    if j.timeoutId ≠ t then (.ok (), s) else if m ∈ s.queueMap then failUnreachable cfg n m .timeout s else (.ok (), s) := by
  unfold jobTimeout
  rw [bind_ok (s' := s) (a := j) (by rw [getJob_eq, hj])]
  split
  · rfl
  · show (if m ∈ s.queueMap then failUnreachable cfg n m .timeout else (pure () : M Unit)) s = _
    split <;> rfl

/-- What a timeout does: the state is as before except for the timer, or the task is taken from the queue map and answered. -/
theorem step_timer (s : State) (m : MsgId) (t : Nat) (hok : FOk s) (hT : TInv s) :
    (((m, t) ∉ s.jobTimers ∨ (∀ j, s.jobs m = some j → j.timeoutId ≠ t) ∨ m ∉ s.queueMap) ∧ step cfg s (.jobTimer m t) = { s with jobTimers := s.jobTimers.erase (m, t) }) ∨
    (∃ j, (m, t) ∈ s.jobTimers ∧ s.jobs m = some j ∧ j.timeoutId = t ∧ m ∈ s.queueMap ∧
      step cfg s (.jobTimer m t) = (failUnreachable cfg (fuelFor s) m .timeout { s with jobTimers := s.jobTimers.erase (m, t) }).2 ∧
      Fr [m] [] { s with jobTimers := s.jobTimers.erase (m, t), queueMap := s.queueMap.filter (· ≠ m) } (step cfg s (.jobTimer m t))) := by
  have h2 := handle_fuel (cfg := cfg) (n := fuelFor s) s (.jobTimer m t) hok (Nat.le_refl _) s rfl
  rcases Decidable.em ((m, t) ∈ s.jobTimers) with hin | hin
  · have hstep : handle cfg (fuelFor s) (.jobTimer m t) s = jobTimeout cfg (fuelFor s) m t { s with jobTimers := s.jobTimers.erase (m, t) } := by
      show (if (m, t) ∈ s.jobTimers then (do modS fun s => { s with jobTimers := s.jobTimers.erase (m, t) }; jobTimeout cfg (fuelFor s) m t : M Unit) else (Pure.pure () : M Unit)) s = _
      rw [if_pos hin]
      rfl
    have hs' : step cfg s (.jobTimer m t) = (jobTimeout cfg (fuelFor s) m t { s with jobTimers := s.jobTimers.erase (m, t) }).2 := by unfold step; rw [hstep]
    obtain ⟨j, hj, hle, htm⟩ := hT.own _ hin
    rw [hs']
    rw [hstep] at h2
    rw [jobTimeout_eq _ m t { s with jobTimers := s.jobTimers.erase (m, t) } j hj] at h2 ⊢
    by_cases h3 : j.timeoutId ≠ t
    · rw [if_pos h3]
      exact Or.inl ⟨Or.inr (Or.inl fun j' h' => by rw [hj] at h'; cases h'; exact h3), rfl⟩
    · rw [if_neg h3] at h2 ⊢
      by_cases h4 : m ∈ s.queueMap
      · rw [if_pos h4] at h2 ⊢
        refine Or.inr ⟨j, hin, hj, by omega, h4, rfl, ?_⟩
        have h5 := (frameAt (cfg := cfg) (fuelFor s)).fail m .timeout [m] { s with jobTimers := s.jobTimers.erase (m, t), queueMap := s.queueMap.filter (· ≠ m) } (by simp)
          { s with jobTimers := s.jobTimers.erase (m, t) } ⟨rfl, fun _ j h => ⟨j, h, rfl, rfl⟩, fun _ h => h, fun x hx => by
            by_cases hxm : x = m
            · exact Or.inr (by simp [hxm])
            · exact Or.inl (List.mem_filter.mpr ⟨hx, by simpa using hxm⟩), fun _ h => Or.inl h, fun _ h => h⟩
        generalize failUnreachable cfg (fuelFor s) m .timeout { s with jobTimers := s.jobTimers.erase (m, t) } = r at h2 h5 ⊢
        rcases r with ⟨a | a, s'⟩
        · exact h5 h2.1
        · exact h5
      · rw [if_neg h4]
        exact Or.inl ⟨Or.inr (Or.inr h4), rfl⟩
  · refine Or.inl ⟨Or.inl hin, ?_⟩
    have : step cfg s (.jobTimer m t) = s := by
      unfold step
      show ((if (m, t) ∈ s.jobTimers then _ else (Pure.pure () : M Unit)) s).2 = s
      rw [if_neg hin]
      rfl
    rw [this, List.erase_of_not_mem hin]

theorem run_tinv (cfg : Config) (evs : List Event) (hf : Fresh evs) : TInv (run cfg evs) := by
  induction evs using snoc_induction with
  | nil => exact ⟨fun _ h => (by cases h), fun _ h => (by cases h), fun _ h => (by cases h)⟩
  | snoc evs ev ih =>
    have h := ih hf.snoc
    have hb := run_base cfg evs hf.snoc
    have hfr := hf.freshIn hb.1 hb.2
    have hji := run_jobInv cfg evs hf.snoc
    rw [run_snoc]
    have hok := run_ok (cfg := cfg) evs
    by_cases hev : ∃ m t, ev = .jobTimer m t
    · obtain ⟨m, t, rfl⟩ := hev
      rcases step_timer (cfg := cfg) (run cfg evs) m t hok h with ⟨a, b⟩ | ⟨j, a, b, c, d, _, e⟩
      · rw [b]
        refine ⟨fun p hp => h.own p (List.mem_of_mem_erase hp), fun x hx jx hjx htx => ?_, h.qj⟩
        have h1 := h.arm x hx jx hjx htx
        refine (List.mem_erase_of_ne fun hh => ?_).mpr h1
        injection hh with h2 h3
        subst h2 h3
        rcases a with a | a | a
        · exact a h1
        · exact a jx hjx rfl
        · exact a hx
      · refine (tinv_closed [m]).frame _ _ ?_ e
        refine ⟨fun p hp => h.own p (List.mem_of_mem_erase hp), fun x hx jx hjx htx => ?_, fun x hx => h.qj x (List.mem_filter.mp hx).1⟩
        obtain ⟨hx, hxm⟩ := List.mem_filter.mp hx
        refine (List.mem_erase_of_ne fun hh => ?_).mpr (h.arm x hx jx hjx htx)
        injection hh with h2 h3
        simp [h2] at hxm
    · refine step_kj (tinv_closed []) _ ev hok h (fun m sub hm => ?_) fun m t hm => hev ⟨m, t, hm⟩
      subst hm
      cases hj : (run cfg evs).jobs m with
      | none => rfl
      | some j =>
        obtain ⟨sub', a, _⟩ := hji.job m j hj
        exact absurd a (hfr sub')

/-- The timer `(m, t)` is not younger than the task's last one; and if the task waits, it is an old one, or not (`W`). -/
def Old (m : MsgId) (t : Nat) (W : Bool) (s : State) : Prop :=
  ∃ j, s.jobs m = some j ∧ j.hasTimeout = true ∧ t ≤ j.timeoutId ∧ (m ∈ s.queueMap → W = true ∨ t < j.timeoutId)

theorem old_closed (m : MsgId) (t : Nat) (W : Bool) (T : List MsgId) : TClosed T (Old m t W) where
  frame := fun s s' ⟨j, h1, h2, h3, h4⟩ f => by
    obtain ⟨j', a, b, c⟩ := f.job h1
    exact ⟨j', a, c.trans h2, by omega, fun hm => (h4 ((f.qm m hm).resolve_right (by simp))).imp id (fun h => by omega)⟩
  save := fun s x j qu gr ⟨j', h1, h2, h3, h4⟩ hj ht => by
    by_cases hxm : m = x
    · subst hxm
      rw [hj] at h1; cases h1
      exact ⟨{ j with timeoutId := j.timeoutId + 1 }, by simp [upd], ht, by dsimp only; omega, fun _ => Or.inr (by dsimp only; omega)⟩
    · refine ⟨j', by simp [upd, hxm, h1], h2, h3, fun hm => h4 ?_⟩
      exact ((mem_insertSet _ _ _).mp hm).resolve_left hxm
  keep := fun s x j qu gr ⟨j', h1, h2, h3, h4⟩ hj ht => by
    refine ⟨j', h1, h2, h3, fun hm => h4 (((mem_insertSet _ _ _).mp hm).resolve_left fun hh => ?_)⟩
    rw [← hh, h1] at hj; cases hj
    rw [h2] at ht; cases ht
  new := fun s x j ⟨j', h1, h2, h3, h4⟩ hj => by
    have hxm : m ≠ x := fun hh => by rw [← hh, h1] at hj; cases hj
    exact ⟨j', by simp [upd, hxm, h1], h2, h3, h4⟩

theorem old_run (cfg : Config) (p q : List Event) (hf : Fresh (p ++ q)) (m : MsgId) (t : Nat) (W : Bool) (h : Old m t W (run cfg p)) : Old m t W (run cfg (p ++ q)) := by
  induction q using snoc_induction with
  | nil => simpa using h
  | snoc q ev ih =>
    rw [← List.append_assoc] at hf ⊢
    have h := ih hf.snoc
    have hb := run_base cfg (p ++ q) hf.snoc
    have hfr := hf.freshIn hb.1 hb.2
    have hji := run_jobInv cfg (p ++ q) hf.snoc
    have hT := run_tinv cfg (p ++ q) hf.snoc
    rw [run_snoc]
    have hok := run_ok (cfg := cfg) (p ++ q)
    by_cases hev : ∃ m t, ev = .jobTimer m t
    · obtain ⟨m', t', rfl⟩ := hev
      obtain ⟨j', h1, h2, h3, h4⟩ := h
      rcases step_timer (cfg := cfg) (run cfg (p ++ q)) m' t' hok hT with ⟨a, b⟩ | ⟨j, a, b, c, d, _, e⟩
      · rw [b]
        exact ⟨j', h1, h2, h3, h4⟩
      · refine (old_closed m t W [m']).frame _ _ ?_ e
        exact ⟨j', h1, h2, h3, fun hm => h4 (List.mem_filter.mp hm).1⟩
    · refine step_kj (old_closed m t W []) _ ev hok h (fun m sub hm => ?_) fun m t hm => hev ⟨m, t, hm⟩
      subst hm
      cases hj : (run cfg (p ++ q)).jobs m with
      | none => rfl
      | some j =>
        obtain ⟨sub', a, _⟩ := hji.job m j hj
        exact absurd a (hfr sub')

theorem Orderly.prefix {p q : List Event} (h : Orderly cfg (p ++ q)) : Orderly cfg p :=
  h.imp id fun h => ⟨fun m sub hm => h.1 m sub (List.mem_append_left _ hm), h.2⟩

theorem Prompt.prefix {p q : List Event} (h : Prompt cfg (p ++ q)) : Prompt cfg p := by
  induction q using snoc_induction with
  | nil => simpa using h
  | snoc q x ih => exact ih (Prompt.snoc (by rw [List.append_assoc]; exact h))

/-- C57: a timer set before the task was (last) on an engine does nothing any more: neither to the task running there, nor to the task waiting again. -/
theorem stale_timer_harmless_partial (cfg : Config) (p q r : List Event) (hf : Fresh (p ++ q ++ r)) (ho : Orderly cfg (p ++ q)) (hp : Prompt cfg (p ++ q))
    (m : MsgId) (t : Nat) (e : Engine) (ht : (m, t) ∈ (run cfg p).jobTimers) (he : m ∈ assigned e (run cfg (p ++ q)).trace) :
    (run cfg (p ++ q ++ r ++ [.jobTimer m t])).trace = (run cfg (p ++ q ++ r)).trace := by
  obtain ⟨j, h1, h2, h3⟩ := (run_tinv cfg p hf.prefix.prefix).own _ ht
  obtain ⟨j', a1, a2, a3, _⟩ := old_run cfg p q hf.prefix m t true ⟨j, h1, h3, h2, fun _ => Or.inl rfl⟩
  have hI := run_inv_of_orderly hf.prefix ho hp
  have hold : Old m t false (run cfg (p ++ q)) := ⟨j', a1, a2, a3, fun hm => absurd hm (hI.asg m e he).1⟩
  obtain ⟨j'', b1, b2, b3, b4⟩ := old_run cfg (p ++ q) r hf m t false hold
  rw [run_snoc]
  rcases step_timer (cfg := cfg) (run cfg (p ++ q ++ r)) m t (run_ok _) (run_tinv cfg _ hf) with ⟨_, b⟩ | ⟨j₃, c1, c2, c3, c4, _⟩
  · rw [b]
  · rw [b1] at c2; cases c2
    rcases b4 c4 with h | h
    · cases h
    · omega

/-! ### Answers -/

theorem removeFromGraph_gok (m : MsgId) (ms : List MsgId) (hms : ms.Nodup) (s₀ : State) (hg : ∀ d ∈ ms, s₀.graph d = none ∨ ∃ l, s₀.graph d = some l ∧ m ∈ l) :
    Hoare (fun s => s = s₀) (removeFromGraph m ms) (fun _ s => s.trace = s₀.trace) (fun _ => False) := by
  induction ms generalizing s₀ with
  | nil => exact Hoare.pure fun _ h => by rw [h]
  | cons d ds ih =>
    obtain ⟨hnd, hds⟩ := List.nodup_cons.mp hms
    unfold removeFromGraph
    refine Hoare.getS fun s hs => ?_
    subst hs
    cases hgd : s.graph d with
    | none => exact ih hds s fun x hx => hg x (by simp [hx])
    | some l =>
      have hm : m ∈ l := by
        rcases hg d (by simp) with a | ⟨l', a, b⟩
        · rw [hgd] at a; cases a
        · rw [hgd] at a; cases a; exact b
      refine Hoare.ite (fun _ => ?_) fun hn => absurd hm hn
      refine Hoare.modS fun s' hs' => ?_
      subst hs'
      refine (ih hds _ fun x hx => ?_).conseq (fun _ h => h) (fun _ _ h => h) (fun _ h => h)
      have hxd : x ≠ d := by rintro rfl; exact hnd hx
      dsimp only
      rw [upd_ne _ _ hxd]
      exact hg x (by simp [hx])

theorem failUnreachable_emits' (cfg : Config) (n : Nat) (m : MsgId) (why : Why) (s₀ : State) (j : Job) (hq : m ∈ s₀.queueMap) (hj : s₀.jobs m = some j)
    (hnd : j.dependents.Nodup) (hg : ∀ d ∈ j.dependents, s₀.graph d = none ∨ ∃ l, s₀.graph d = some l ∧ m ∈ l) :
    Hoare (fun s => s = s₀) (failUnreachable cfg (n + 1) m why) (fun _ s => Obs.fail m why ∈ s.trace) (fun s => Obs.fail m why ∈ s.trace) := by
  unfold failUnreachable
  refine Hoare.getS fun s₁ h₁ => ?_
  subst h₁
  refine Hoare.ite (fun hn => absurd hq hn) (fun _ => ?_)
  refine Hoare.modS fun s₂ h₂ => ?_
  subst h₂
  refine Hoare.getJob (fun s h hn => ?_) fun s₃ j' h₃ hj' => ?_
  · subst h; rw [show _ = s₂.jobs m from rfl, hj] at hn; cases hn
  · subst h₃
    rw [show _ = s₂.jobs m from rfl, hj] at hj'
    cases hj'
    refine Hoare.modS fun s₄ h₄ => ?_
    subst h₄
    refine Hoare.bind (R := fun _ s => s.trace = s₂.trace) (((removeFromGraph_gok m _ hnd _ ?_).exc fun s h => h.elim).conseq (fun s h => h) (fun _ s h => by rw [h]) (fun s h => h)) fun _ => ?_
    · exact hg
    · refine Hoare.bind (R := fun _ s => Obs.fail m why ∈ s.trace) ?_ fun _ => updateGraph_pres (mem_closed cfg (.jobTimer 0 0) _) _ _
      unfold failReply emit
      exact Hoare.modS fun s h => Hoare.modS_last fun s' h' => by subst h'; simp

theorem fuelFor_pos (s : State) : 0 < fuelFor s := by
  unfold fuelFor
  exact Nat.mul_pos (Nat.mul_pos (by omega) (by omega)) (by omega)

/-- A waiting task waits in the scheduler's books, which can be updated if it is answered. -/
theorem waits_inQ {cfg : Config} {evs : List Event} (hf : Fresh evs) (ht : Tracked cfg evs) (hp : Prompt cfg evs) {m : MsgId} (hw : Waits m (run cfg evs).trace) :
    ∃ j, m ∈ (run cfg evs).queueMap ∧ (run cfg evs).jobs m = some j ∧ j.dependents.Nodup ∧
      ∀ d ∈ j.dependents, (run cfg evs).graph d = none ∨ ∃ l, (run cfg evs).graph d = some l ∧ m ∈ l := by
  have hb := run_base cfg evs hf
  obtain ⟨⟨sub, hs⟩, h0, hna⟩ := hw
  have hev := hb.2 _ hs
  obtain ⟨hr, hi | ⟨hC, htame, hc⟩⟩ := ht
  · have h := run_loc (cfg := cfg) (D := Independent evs ∧ InRange cfg) (Or.inl ⟨hi, hr⟩) (fun h => h.2) evs hf (fun h => h.1) hp
    have hD := h.dep ⟨hi, hr⟩
    have hj := job_exists cfg evs hf m sub (hi m sub hev).wellFormed hev
    cases hj' : (run cfg evs).jobs m with
    | none => exact absurd hj' hj
    | some j =>
      have hdep : j.dependents = [] := by
        cases hd : j.dependents with
        | nil => rfl
        | cons d l =>
          have := hD.2 m j hj'
          rcases mem_dependents (j := j) (d := d) (by rw [hd]; simp) with a | a
          · rw [this.1] at a; cases a
          · rw [this.2] at a; cases a
      refine ⟨j, ?_, rfl, by simp [hdep], by simp [hdep]⟩
      rcases h.lost (by simp [top, hi, hr]) m j hj' h0 with a | ⟨e', a⟩ | a
      · exact a
      · exact absurd a (hna e')
      · cases a
  · have hL := run_linv hC hr hf hp htame hc
    have hj := job_exists cfg evs hf m sub (htame m sub hev).constructible.wellFormed hev
    cases hj' : (run cfg evs).jobs m with
    | none => exact absurd hj' hj
    | some j =>
      rcases hL.1.lost trivial m j hj' h0 with a | ⟨e', a⟩ | a
      · exact ⟨j, a, rfl, (hL.2.shape m j hj').nd, hL.2.gok a j hj'⟩
      · exact absurd a (hna e')
      · cases a

/-- C57: a task with a timeout that waits has a timer, and if that expires the task is answered with a `TaskTimeout` error.  (No other timer of the
task does anything.) -/
theorem timeout_answers_partial (cfg : Config) (evs : List Event) (hf : Fresh evs) (ht : Tracked cfg evs) (hp : Prompt cfg evs) (m : MsgId) (sub : Submission)
    (hm : Event.submit m sub ∈ evs) (hs : sub.hasTimeout = true) (hw : Waits m (run cfg evs).trace) :
    ∃ t, (m, t) ∈ (run cfg evs).jobTimers ∧ Obs.fail m .timeout ∈ (run cfg (evs ++ [.jobTimer m t])).trace ∧
      ∀ t', t' ≠ t → (run cfg (evs ++ [.jobTimer m t'])).trace = (run cfg evs).trace := by
  obtain ⟨j, hq, hj, hnd, hg⟩ := waits_inQ hf ht hp hw
  have hT := run_tinv cfg evs hf
  obtain ⟨⟨_, hfi⟩, _⟩ := run_subInv cfg evs hf
  obtain ⟨sub', hs'⟩ := hw.1
  have hb := run_base cfg evs hf
  have : sub' = sub := hf.submit_unique (hb.2 _ hs') hm
  subst this
  have hjt : j.hasTimeout = true := (hfi.job m j sub' hj hs').2.trans hs
  have hin := hT.arm m hq j hj hjt
  refine ⟨j.timeoutId, hin, ?_, fun t' ht' => ?_⟩
  · rw [run_snoc]
    rcases step_timer (cfg := cfg) (run cfg evs) m j.timeoutId (run_ok _) hT with ⟨a, _⟩ | ⟨j', _, hj', _, _, he, _⟩
    · rcases a with a | a | a
      · exact absurd hin a
      · exact absurd rfl (a j hj)
      · exact absurd hq a
    · rw [he]
      have h1 := failUnreachable_emits' cfg (fuelFor (run cfg evs) - 1) m .timeout { run cfg evs with jobTimers := (run cfg evs).jobTimers.erase (m, j.timeoutId) } j hq hj hnd hg
      rw [show fuelFor (run cfg evs) - 1 + 1 = fuelFor (run cfg evs) by have := fuelFor_pos (run cfg evs); omega] at h1
      exact h1.final rfl
  · rw [run_snoc]
    rcases step_timer (cfg := cfg) (run cfg evs) m t' (run_ok _) hT with ⟨_, b⟩ | ⟨j', _, hj', h3, _⟩
    · rw [b]
    · rw [hj] at hj'; cases hj'
      exact absurd h3.symm ht'

/-- C57: the expiry of a timer changes something only if its task waits and has a timeout. -/
theorem timeout_only_waiting_partial (cfg : Config) (evs : List Event) (hf : Fresh evs) (ho : Orderly cfg evs) (hp : Prompt cfg evs) (m : MsgId) (t : Nat)
    (hc : (run cfg (evs ++ [.jobTimer m t])).trace ≠ (run cfg evs).trace) :
    Waits m (run cfg evs).trace ∧ ∃ sub, Event.submit m sub ∈ evs ∧ sub.hasTimeout = true := by
  have hT := run_tinv cfg evs hf
  have hI := run_inv_of_orderly hf ho hp
  obtain ⟨⟨_, hfi⟩, _⟩ := run_subInv cfg evs hf
  have hb := run_base cfg evs hf
  rw [run_snoc] at hc
  rcases step_timer (cfg := cfg) (run cfg evs) m t (run_ok _) hT with ⟨_, b⟩ | ⟨j', hin, hj', h3, hq, _⟩
  · rw [b] at hc; exact absurd rfl hc
  · obtain ⟨sub, h1, h2⟩ := hfi.timer _ hin
    exact ⟨⟨⟨sub, h1⟩, (hI.qm m hq).1, fun e he => (hI.asg m e he).1 hq⟩, sub, hb.2 _ h1, h2⟩

theorem untimed_closed (m : MsgId) (T : List MsgId) (hT : m ∉ T) : TClosed T (fun s => Obs.fail m .timeout ∉ s.trace) where
  frame := fun _ _ h f hm => (f.tmo m hm).elim h hT
  save := fun _ _ _ _ _ h _ _ => h
  keep := fun _ _ _ _ _ h _ _ => h
  new := fun _ _ _ h _ => h

/-- C57: a task is answered with a `TaskTimeout` error only by the expiry of a timer of that task, which has a timeout; at that moment it is waiting. -/
theorem timeout_only_from_timer_partial (cfg : Config) (evs : List Event) (hf : Fresh evs) (ho : Orderly cfg evs) (hp : Prompt cfg evs) (m : MsgId)
    (h : Obs.fail m .timeout ∈ (run cfg evs).trace) :
    ∃ p t q, evs = p ++ .jobTimer m t :: q ∧ (m, t) ∈ (run cfg p).jobTimers ∧ Waits m (run cfg p).trace ∧ ∃ sub, Event.submit m sub ∈ p ∧ sub.hasTimeout = true := by
  induction evs using snoc_induction with
  | nil => cases h
  | snoc evs ev ih =>
    by_cases h0 : Obs.fail m .timeout ∈ (run cfg evs).trace
    · obtain ⟨p, t, q, rfl, h1⟩ := ih hf.snoc ho.prefix hp.snoc h0
      exact ⟨p, t, q ++ [ev], by simp, h1⟩
    · have hT := run_tinv cfg evs hf.snoc
      by_cases hev : ∃ m t, ev = .jobTimer m t
      · obtain ⟨m', t, rfl⟩ := hev
        have hst := run_snoc cfg evs (.jobTimer m' t)
        rcases step_timer (cfg := cfg) (run cfg evs) m' t (run_ok _) hT with ⟨_, b⟩ | ⟨j', hin, hj', h3, hq, _, hfr⟩
        · rw [hst, b] at h; exact absurd h h0
        · by_cases hmm : m = m'
          · subst hmm
            exact ⟨evs, t, [], rfl, hin, timeout_only_waiting_partial cfg evs hf.snoc ho.prefix hp.snoc m t fun hh => h0 (hh ▸ h)⟩
          · rw [hst] at h
            refine absurd h ((untimed_closed m [m'] (by simpa using hmm)).frame _ _ ?_ hfr)
            exact h0
      · rw [run_snoc] at h
        have hb := run_base cfg evs hf.snoc
        have hfr := hf.freshIn hb.1 hb.2
        have hji := run_jobInv cfg evs hf.snoc
        refine absurd h (step_kj (untimed_closed m [] (by simp)) _ ev (run_ok _) h0 (fun m' sub hm => ?_) fun m t hm => hev ⟨m, t, hm⟩)
        subst hm
        cases hj : (run cfg evs).jobs m' with
        | none => rfl
        | some j =>
          obtain ⟨sub', a, _⟩ := hji.job m' j hj
          exact absurd a (hfr sub')

/-! ### Examples that meet the hypotheses -/

/-- Tasks 1 and 3 have timeouts.  3 waits for 2 and its timer is set; then 2 is done and 3 is on engine 7. -/
def exTimeout : List Event :=
  [.register 7, .submit 1 { hasTimeout := true, retries := 2 }, .submit 2 {}, .submit 3 { after := some { ids := [2] }, hasTimeout := true, retries := 1 }, .submit 4 { targets := [9], hasTimeout := true }]

theorem exTimeout_fresh : Fresh (exTimeout ++ [.result 7 1 true true] ++ [.result 7 2 true true] ++ [.result 7 3 false true]) := by unfold Fresh; decide
theorem exTimeout_prompt : Prompt (Violations.cfg 1) (exTimeout ++ [.result 7 1 true true] ++ [.result 7 2 true true] ++ [.result 7 3 false true]) := prompt_of_check (by decide)
theorem exTimeout_tracked : Tracked (Violations.cfg 1) exTimeout := by
  refine ⟨fun _ l h => (schemes_valid l h 0 0).1, Or.inr ⟨rfl, fun m sub h => ?_, clean_of_check (by decide)⟩⟩
  simp only [exTimeout, List.mem_cons, Event.submit.injEq, reduceCtorEq, false_or, or_false, List.not_mem_nil] at h
  rcases h with ⟨rfl, rfl⟩ | ⟨rfl, rfl⟩ | ⟨rfl, rfl⟩ | ⟨rfl, rfl⟩
  all_goals exact ⟨by simp [Submission.Constructible], by simp, Or.inl (by simp), Or.inl rfl⟩

theorem exTimeout_waits : Waits 3 (run (Violations.cfg 1) exTimeout).trace := by
  refine ⟨⟨{ after := some { ids := [2] }, hasTimeout := true, retries := 1 }, by decide⟩, by decide, fun e he => ?_⟩
  have hr := (run_inv_of_orderly (cfg := Violations.cfg 1) exTimeout_fresh.snoc.snoc.snoc (Or.inl rfl) exTimeout_prompt.snoc.snoc.snoc).asg 3 e he
  exact absurd (show 3 ∈ (run (Violations.cfg 1) exTimeout).queueMap by decide) hr.1

/-- Task 3 waits for task 2 and has a timeout: `timeout_answers_partial` applies. -/
example : ∃ t, (3, t) ∈ (run (Violations.cfg 1) exTimeout).jobTimers ∧ Obs.fail 3 .timeout ∈ (run (Violations.cfg 1) (exTimeout ++ [.jobTimer 3 t])).trace ∧
    ∀ t', t' ≠ t → (run (Violations.cfg 1) (exTimeout ++ [.jobTimer 3 t'])).trace = (run (Violations.cfg 1) exTimeout).trace :=
  timeout_answers_partial _ _ exTimeout_fresh.snoc.snoc.snoc exTimeout_tracked exTimeout_prompt.snoc.snoc.snoc 3 { after := some { ids := [2] }, hasTimeout := true, retries := 1 } (by simp [exTimeout]) rfl exTimeout_waits

/-- Task 3's timer is stale when it is on engine 7 and when, having failed there, it waits again with a new timer. -/
example : (run (Violations.cfg 1) (exTimeout ++ [.result 7 1 true true] ++ [.result 7 2 true true] ++ [.result 7 3 false true] ++ [.jobTimer 3 1])).trace =
    (run (Violations.cfg 1) (exTimeout ++ [.result 7 1 true true] ++ [.result 7 2 true true] ++ [.result 7 3 false true])).trace :=
  stale_timer_harmless_partial _ exTimeout [.result 7 1 true true, .result 7 2 true true] [.result 7 3 false true] exTimeout_fresh (Or.inl rfl)
    exTimeout_prompt.snoc 3 1 7 (by decide) (by decide)

example : (3, 2) ∈ (run (Violations.cfg 1) (exTimeout ++ [.result 7 1 true true] ++ [.result 7 2 true true] ++ [.result 7 3 false true])).jobTimers := by decide

/-- Without the timer nobody is timed out; the timer of task 4 is the reason for its answer. -/
example : ∃ p t q, exTimeout ++ [.jobTimer 4 1] = p ++ .jobTimer 4 t :: q ∧ (4, t) ∈ (run (Violations.cfg 1) p).jobTimers ∧ Waits 4 (run (Violations.cfg 1) p).trace ∧
    ∃ sub, Event.submit 4 sub ∈ p ∧ sub.hasTimeout = true :=
  timeout_only_from_timer_partial _ _ (by unfold Fresh; decide) (Or.inl rfl) (prompt_of_check (by decide)) 4 (by decide)

example : Waits 4 (run (Violations.cfg 1) exTimeout).trace ∧ ∃ sub, Event.submit 4 sub ∈ exTimeout ∧ sub.hasTimeout = true :=
  timeout_only_waiting_partial _ _ exTimeout_fresh.snoc.snoc.snoc (Or.inl rfl) exTimeout_prompt.snoc.snoc.snoc 4 1 (by decide)

end IPP.Sched
