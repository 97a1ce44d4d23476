import Verif.Cluster.AppEnd
/-!
# `--daemonize`, and `ipcluster engines` (property C86)
-/
namespace IPP.Ipcluster

/-! ### what is watched -/

theorem phase_callback (cf : Conf) (a : App) (c : Cb) (h : ∀ ok x y, c ≠ .startDone ok x y) : (callback cf a c).phase = a.phase ∨ c = .start := by
  cases c with
  | startDone ok x y => exact absurd rfl (h ok x y)
  | start => exact .inr rfl
  | callStart => exact .inl rfl
  | callStop => exact .inl rfl
  | loopStop => exact .inl rfl
  | relay => exact .inl rfl
  | stop => left; simp only [callback]; split <;> rfl
  | stopDone ok => left; simp only [callback]; split <;> (try split) <;> rfl
  | timer => left; simp only [callback]; split <;> rfl
  | enginesStop =>
    left
    simp only [callback]
    split
    · rfl
    · exact (after_onEnginesStop cf _).2.2.2.1
  | controllerStop =>
    left
    simp only [callback]
    split
    · rfl
    · split
      · exact (after_controllerStopped _).2.2.2.1
      · rfl

theorem watch_callback (cf : Conf) (a : App) (c : Cb) (h : ∀ ok x y, c ≠ .startDone ok x y) : (callback cf a c).watch = a.watch ∧ (callback cf a c).ctlWatch = a.ctlWatch ∧ ((callback cf a c).early = true → a.early = true) := by
  cases c with
  | startDone ok x y => exact absurd rfl (h ok x y)
  | start => exact ⟨rfl, rfl, id⟩
  | callStart => exact ⟨rfl, rfl, id⟩
  | callStop => exact ⟨rfl, rfl, id⟩
  | loopStop => exact ⟨rfl, rfl, id⟩
  | relay => exact ⟨rfl, rfl, id⟩
  | stop => simp only [callback]; split <;> exact ⟨rfl, rfl, id⟩
  | stopDone ok => simp only [callback]; split <;> (try split) <;> exact ⟨rfl, rfl, id⟩
  | timer =>
    simp only [callback]
    split
    · exact ⟨rfl, rfl, fun h => by cases h⟩
    · exact ⟨rfl, rfl, id⟩
  | enginesStop =>
    simp only [callback]
    split
    · exact ⟨rfl, rfl, id⟩
    · have := after_onEnginesStop cf { a with enginesAfter := true }
      exact ⟨this.2.2.2.2.1, this.2.2.1, fun hx => by rw [(mild_onEnginesStop cf { a with enginesAfter := true } rfl).early] at hx; exact hx⟩
  | controllerStop =>
    simp only [callback]
    split
    · exact ⟨rfl, rfl, id⟩
    · split
      · have := after_controllerStopped { a with ctlAfter := true }
        refine ⟨this.2.2.2.2.1, this.2.2.1, fun hx => ?_⟩
        unfold controllerStopped App.push at hx
        split at hx <;> exact hx
      · exact ⟨rfl, rfl, id⟩

theorem afterStart_ok (cf : Conf) (x y : Bool) (a : App) : ((afterStart cf x y a).phase = .ok → (afterStart cf x y a).ctlWatch = true ∧ (afterStart cf x y a).watch = (if a.early then .early else .plain)) ∧
    ((afterStart cf x y a).phase = .ok ∨ (afterStart cf x y a).phase = .failed) ∧ ((afterStart cf x y a).watch = a.watch ∨ (afterStart cf x y a).watch = (if a.early then .early else .plain)) := by
  have hp : (if cf.daemonize then a.push .loopStop else a).early = a.early ∧ (if cf.daemonize then a.push .loopStop else a).watch = a.watch := by split <;> exact ⟨rfl, rfl⟩
  unfold afterStart
  generalize (if cf.daemonize then a.push .loopStop else a) = b at hp
  simp only
  cases x with
  | false => simp [hp.2]
  | true =>
    have hq : (if b.ctlAfter = true then controllerStopped { b with ctlWatch := true } else { b with ctlWatch := true }).ctlWatch = true ∧
        (if b.ctlAfter = true then controllerStopped { b with ctlWatch := true } else { b with ctlWatch := true }).early = a.early ∧
        (if b.ctlAfter = true then controllerStopped { b with ctlWatch := true } else { b with ctlWatch := true }).watch = a.watch := by
      split
      · have := after_controllerStopped { b with ctlWatch := true }
        refine ⟨this.2.2.1, ?_, this.2.2.2.2.1.trans hp.2⟩
        unfold controllerStopped App.push
        split <;> exact hp.1
      · exact ⟨rfl, hp⟩
    simp only [if_true]
    generalize (if b.ctlAfter = true then controllerStopped { b with ctlWatch := true } else { b with ctlWatch := true }) = d at hq
    cases y with
    | false => simp [hq.2.2]
    | true =>
      have ha := after_watchEngines cf { d with phase := .ok }
      simp only [if_true]
      refine ⟨fun _ => ⟨ha.2.2.1.trans hq.1, ha.2.2.2.2.1.trans ?_⟩, .inl ha.2.2.2.1, .inr (ha.2.2.2.2.1.trans ?_)⟩
      · show (if d.early then _ else _) = _
        rw [hq.2.1]
      · show (if d.early then _ else _) = _
        rw [hq.2.1]

/-- when `start_cluster` has completed, `ipcluster start` watches the controller and, while `early_shutdown` is on, the engines -/
theorem started_watches (cf : Conf) (hk : cf.kind = .start) (h : List Ev) (hp : (run cf h).phase = .ok) : (run cf h).ctlWatch = true ∧ ((run cf h).early = true → (run cf h).watch = .early) := by
  have := (run_ind cf (fun a => (a.phase = .ok → a.ctlWatch = true ∧ a.watch ≠ .no) ∧ (a.early = true → a.watch ≠ .plain)) (fun _ _ => True) ?_ ?_ ?_ ?_ ?_ ?_ trivial h (fun _ _ _ _ _ => trivial)).1
  · refine ⟨(this.1 hp).1, fun he => ?_⟩
    have h1 := (this.1 hp).2
    have h2 := this.2 he
    cases hw : (run cf h).watch with
    | no => exact absurd hw h1
    | plain => exact absurd hw h2
    | early => rfl
  · intro a c _ ha _
    refine ⟨?_, fun _ _ => trivial, fun _ _ => .inr trivial⟩
    by_cases hc : ∃ ok x y, c = .startDone ok x y
    · rcases hc with ⟨ok, x, y, rfl⟩
      by_cases hr : a.phase = .running
      · cases ok with
        | false =>
          have e : callback cf a (.startDone false x y) = { a with phase := .failed } := by simp [callback, hr, hk]
          rw [e]
          exact ⟨fun h => (by cases h), ha.2⟩
        | true =>
          have e : callback cf a (.startDone true x y) = afterStart cf x y a := by simp [callback, hr, hk]
          rw [e]
          have ho := afterStart_ok cf x y a
          refine ⟨fun h => ⟨(ho.1 h).1, ?_⟩, fun h => ?_⟩
          · rw [(ho.1 h).2]; split <;> simp
          · rw [(mild_afterStart cf x y a hk).1.early] at h
            rcases ho.2.2 with h' | h' <;> rw [h']
            · exact ha.2 h
            · rw [if_pos h]; simp
      · have e : callback cf a (.startDone ok x y) = a := by simp [callback, hr]
        rw [e]; exact ha
    · have hc' : ∀ ok x y, c ≠ .startDone ok x y := fun ok x y he => hc ⟨ok, x, y, he⟩
      have hw := watch_callback cf a c hc'
      rw [hw.1, hw.2.1]
      refine ⟨fun h => ?_, fun h => ha.2 (hw.2.2 h)⟩
      rcases phase_callback cf a c hc' with h' | rfl
      · exact ha.1 (h' ▸ h)
      · cases h
  · exact fun _ _ h => h
  · exact fun _ h _ _ => h
  · exact fun _ _ _ _ => trivial
  · exact fun _ _ _ => trivial
  · exact ⟨fun h => (by simp [init] at h), fun _ => by simp [init]⟩

/-- **C86 (the controller stops)** When `start_cluster` has completed and the controller has stopped — before or after that —, `ipcluster start` stops the engines, too, and ends (unless the stop fails). -/
theorem controller_stop_ends (cf : Conf) (hk : cf.kind = .start) (g l : List Ev) (hp : (run cf g).phase = .ok) (hc : (run cf g).ctlAfter = true) (hl : Ending l) (hf : .stopDone false ∉ g ++ l) :
    (run cf (g ++ l)).ended.isSome := controller_stop_ends_partial cf hk g l (started_watches cf hk g hp).1 hc hl hf

/-- **C86 (the engines stop early)** When `start_cluster` has completed and the engines have stopped — before or after that — while `early_shutdown` is on, `ipcluster start` stops the controller, too, and ends (unless the stop fails). -/
theorem early_stop_ends (cf : Conf) (hk : cf.kind = .start) (g l : List Ev) (hp : (run cf g).phase = .ok) (hc : (run cf g).enginesAfter = true) (he : (run cf g).early = true) (hl : Ending l)
    (hf : .stopDone false ∉ g ++ l) : (run cf (g ++ l)).ended.isSome := early_stop_ends_partial cf hk g l ((started_watches cf hk g hp).2 he) hc he hl hf

end IPP.Ipcluster
