import Verif.Cluster.App
/-!
# The process of `ipcluster start`/`engines`: lemmas on one callback and one iteration
-/
namespace IPP.Ipcluster

/-- an invariant of callbacks and of what is posted is an invariant of the process -/
theorem run_inv (cf : Conf) (I : App → Prop) (ok : Ev → Prop) (h0 : I (init cf)) (hp : ∀ a e, ok e → I a → I (step cf a e)) :
    ∀ h : List Ev, (∀ e ∈ h, ok e) → I (run cf h) := by
  have gen : ∀ (h : List Ev) a, (∀ e ∈ h, ok e) → I a → I (h.foldl (step cf) a) := by
    intro h
    induction h with
    | nil => intro a _ ha; exact ha
    | cons e t ih => intro a he ha; exact ih _ (fun x hx => he x (List.mem_cons_of_mem _ hx)) (hp _ _ (he e (List.mem_cons_self ..)) ha)
  exact fun h hh => gen h _ hh h0

/-- an invariant `I` of the state with an invariant `J` of the queue's entries -/
theorem iter_inv (cf : Conf) (I : App → Prop) (J : Cb → Prop)
    (hh : ∀ a c, I a → J c → (∀ x ∈ a.queue, J x) → I (handle cf a c) ∧ ∀ x ∈ (handle cf a c).queue, J x)
    (hq : ∀ a q, I a → I { a with queue := q }) (he : ∀ a, I a → a.flag = true → I { a with ended := some 0 }) (a : App) (ha : I a) (hj : ∀ x ∈ a.queue, J x) :
    I (iter cf a) ∧ ∀ x ∈ (iter cf a).queue, J x := by
  have gen : ∀ (l : List Cb) (b : App), (∀ c ∈ l, J c) → I b → (∀ x ∈ b.queue, J x) → I (l.foldl (handle cf) b) ∧ ∀ x ∈ (l.foldl (handle cf) b).queue, J x := by
    intro l
    induction l with
    | nil => intro b _ hb hx; exact ⟨hb, hx⟩
    | cons c t ih =>
      intro b hc hb hx
      have := hh b c hb (hc c (List.mem_cons_self ..)) hx
      exact ih _ (fun d hd => hc d (List.mem_cons_of_mem _ hd)) this.1 this.2
  unfold iter
  split
  · exact ⟨ha, hj⟩
  · have := gen a.queue { a with queue := [] } hj (hq a [] ha) (fun _ h => by cases h)
    simp only
    split
    · exact this
    · split
      · rename_i hf
        exact ⟨he _ this.1 hf, this.2⟩
      · exact this

/-- the fields that the watching functions leave alone, and what they may add to the queue -/
structure Mild (cf : Conf) (a b : App) : Prop where
  stopping : b.stopping = a.stopping
  inStop : b.inStop = a.inStop
  begun : b.begun = a.begun
  finished : b.finished = a.finished
  relayed : b.relayed = a.relayed
  ended : b.ended = a.ended
  early : b.early = a.early
  flag : a.flag = true → b.flag = true
  flag' : b.flag = true → a.flag = true ∨ cf.kind = .engines ∧ b.enginesAfter = true
  queue : ∃ l, b.queue = a.queue ++ l ∧ (.loopStop ∈ l → cf.daemonize = true) ∧
    ∀ x ∈ l, x = .loopStop ∨ x = .callStop ∧ a.stopping = false ∧ (b.ctlAfter = true ∧ b.ctlWatch = true ∨ b.enginesAfter = true ∧ a.early = true)
  stop_flag : cf.kind = .engines → a.ctlWatch = false → .callStop ∈ b.queue → .callStop ∈ a.queue ∨ b.flag = true
  ctlw : cf.kind = .engines → a.ctlWatch = false → b.ctlWatch = false

theorem mild_onEnginesStop (cf : Conf) (a : App) (h : a.enginesAfter = true) : Mild cf a (onEnginesStop cf a) := by
  cases hw : a.watch with
  | no => simp only [onEnginesStop, hw]; exact ⟨rfl, rfl, rfl, rfl, rfl, rfl, rfl, id, .inl, ⟨[], by simp⟩, fun _ _ => .inl, fun _ => id⟩
  | plain =>
    cases hk : cf.kind <;> simp only [onEnginesStop, hw, enginesStopped, hk]
    · exact ⟨rfl, rfl, rfl, rfl, rfl, rfl, rfl, id, .inl, ⟨[], by simp⟩, fun _ _ => .inl, fun _ => id⟩
    · exact ⟨rfl, rfl, rfl, rfl, rfl, rfl, rfl, fun _ => rfl, fun _ => .inr ⟨hk, h⟩, ⟨[], by simp⟩, fun _ _ _ => .inr rfl, fun _ => id⟩
  | early =>
    by_cases hc : a.early = true ∧ ¬ a.stopping = true
    · cases hk : cf.kind <;> simp only [onEnginesStop, hw, enginesStoppedEarly, enginesStopped, hk, if_pos hc, App.push]
      · exact ⟨rfl, rfl, rfl, rfl, rfl, rfl, rfl, id, .inl, ⟨[.callStop], rfl, by simp, by simp_all [App.push]⟩, by simp [hk], by simp [hk]⟩
      · exact ⟨rfl, rfl, rfl, rfl, rfl, rfl, rfl, fun _ => rfl, fun _ => .inr ⟨hk, h⟩, ⟨[.callStop], rfl, by simp, by simp_all⟩, fun _ _ _ => .inr rfl, fun _ => id⟩
    · cases hk : cf.kind <;> simp only [onEnginesStop, hw, enginesStoppedEarly, enginesStopped, hk, if_neg hc]
      · exact ⟨rfl, rfl, rfl, rfl, rfl, rfl, rfl, id, .inl, ⟨[], by simp⟩, fun _ _ => .inl, fun _ => id⟩
      · exact ⟨rfl, rfl, rfl, rfl, rfl, rfl, rfl, fun _ => rfl, fun _ => .inr ⟨hk, h⟩, ⟨[], by simp⟩, fun _ _ _ => .inr rfl, fun _ => id⟩

theorem after_onEnginesStop (cf : Conf) (a : App) : (onEnginesStop cf a).enginesAfter = a.enginesAfter ∧ (onEnginesStop cf a).ctlAfter = a.ctlAfter ∧ (onEnginesStop cf a).ctlWatch = a.ctlWatch ∧
    (onEnginesStop cf a).phase = a.phase ∧ (onEnginesStop cf a).watch = a.watch ∧ (onEnginesStop cf a).timer = a.timer := by
  unfold onEnginesStop enginesStoppedEarly enginesStopped App.push
  rcases a with ⟨q, f, p, e, t, st, i, w, cw, ea, ca, b, fi, r, en⟩
  cases w <;> cases cf.kind <;> cases e <;> cases st <;> simp

theorem Mild.set (cf : Conf) {a b c : App} (h : Mild cf a b) (h1 : c.stopping = b.stopping) (h2 : c.inStop = b.inStop) (h3 : c.begun = b.begun) (h4 : c.finished = b.finished) (h5 : c.relayed = b.relayed)
    (h6 : c.ended = b.ended) (h7 : c.early = b.early) (h8 : c.flag = b.flag) (h9 : c.queue = b.queue) (h10 : c.enginesAfter = b.enginesAfter) (h11 : c.ctlAfter = b.ctlAfter) (h12 : c.ctlWatch = b.ctlWatch) : Mild cf a c where
  stopping := h1.trans h.stopping
  inStop := h2.trans h.inStop
  begun := h3.trans h.begun
  finished := h4.trans h.finished
  relayed := h5.trans h.relayed
  ended := h6.trans h.ended
  early := h7.trans h.early
  flag := by rw [h8]; exact h.flag
  flag' := by rw [h8, h10]; exact h.flag'
  queue := by rw [h9, h10, h11, h12]; exact h.queue
  stop_flag := by rw [h9, h8]; exact h.stop_flag
  ctlw := by rw [h12]; exact h.ctlw

theorem Mild.refl (cf : Conf) (a : App) : Mild cf a a := ⟨rfl, rfl, rfl, rfl, rfl, rfl, rfl, id, .inl, ⟨[], by simp⟩, fun _ _ => .inl, fun _ => id⟩

theorem mild_watchEngines (cf : Conf) (a : App) : Mild cf a (watchEngines cf a) := by
  unfold watchEngines
  simp only
  split
  · split
    · rename_i h
      have hm := mild_onEnginesStop cf { a with watch := .early } h
      have : Mild cf a (onEnginesStop cf { a with watch := .early }) := ⟨hm.1, hm.2, hm.3, hm.4, hm.5, hm.6, hm.7, hm.8, hm.9, hm.10, hm.11, hm.12⟩
      exact Mild.set cf this rfl rfl rfl rfl rfl rfl rfl rfl rfl rfl rfl rfl
    · exact Mild.set cf (Mild.refl cf a) rfl rfl rfl rfl rfl rfl rfl rfl rfl rfl rfl rfl
  · split
    · rename_i h
      have hm := mild_onEnginesStop cf { a with watch := .plain } h
      exact ⟨hm.1, hm.2, hm.3, hm.4, hm.5, hm.6, hm.7, hm.8, hm.9, hm.10, hm.11, hm.12⟩
    · exact Mild.set cf (Mild.refl cf a) rfl rfl rfl rfl rfl rfl rfl rfl rfl rfl rfl rfl

theorem after_watchEngines (cf : Conf) (a : App) : (watchEngines cf a).enginesAfter = a.enginesAfter ∧ (watchEngines cf a).ctlAfter = a.ctlAfter ∧ (watchEngines cf a).ctlWatch = a.ctlWatch ∧
    (watchEngines cf a).phase = a.phase ∧ (watchEngines cf a).watch = (if a.early then .early else .plain) ∧ (watchEngines cf a).timer = (a.timer || a.early) := by
  unfold watchEngines
  simp only
  split
  · rename_i h
    split
    · have := after_onEnginesStop cf { a with watch := .early }
      simp_all
    · simp_all
  · rename_i h
    split
    · have := after_onEnginesStop cf { a with watch := .plain }
      simp_all
    · simp_all

theorem Mild.trans {cf : Conf} {a b c : App} (h : Mild cf a b) (h' : Mild cf b c) (h1 : b.enginesAfter = true → c.enginesAfter = true) (h2 : b.ctlAfter = true → c.ctlAfter = true)
    (h3 : b.ctlWatch = true → c.ctlWatch = true) : Mild cf a c where
  stopping := h'.stopping.trans h.stopping
  inStop := h'.inStop.trans h.inStop
  begun := h'.begun.trans h.begun
  finished := h'.finished.trans h.finished
  relayed := h'.relayed.trans h.relayed
  ended := h'.ended.trans h.ended
  early := h'.early.trans h.early
  flag := h'.flag ∘ h.flag
  flag' := fun hx => (h'.flag' hx).elim (fun hy => (h.flag' hy).imp_right (fun ⟨x, y⟩ => ⟨x, h1 y⟩)) .inr
  queue := by
    rcases h.queue with ⟨l, hl, hd, hx⟩
    rcases h'.queue with ⟨l', hl', hd', hx'⟩
    refine ⟨l ++ l', by rw [hl', hl, List.append_assoc], fun hm => (List.mem_append.1 hm).elim hd hd', fun x hm => ?_⟩
    rcases List.mem_append.1 hm with hm | hm
    · exact (hx x hm).imp_right (fun ⟨p, q, r⟩ => ⟨p, q, r.imp (fun ⟨u, v⟩ => ⟨h2 u, h3 v⟩) (fun ⟨u, v⟩ => ⟨h1 u, v⟩)⟩)
    · exact (hx' x hm).imp_right (fun ⟨p, q, r⟩ => ⟨p, h.stopping ▸ q, r.imp_right (fun ⟨u, v⟩ => ⟨u, h.early ▸ v⟩)⟩)
  stop_flag := fun hk hw hm => (h'.stop_flag hk (h.ctlw hk hw) hm).elim (fun hy => (h.stop_flag hk hw hy).imp_right h'.flag) .inr
  ctlw := fun hk hw => h'.ctlw hk (h.ctlw hk hw)

theorem mild_loopStop (cf : Conf) (a : App) (h : cf.daemonize = true) : Mild cf a (a.push .loopStop) :=
  ⟨rfl, rfl, rfl, rfl, rfl, rfl, rfl, id, .inl, ⟨[.loopStop], rfl, fun _ => h, by simp⟩, fun _ _ hm => by simp [App.push] at hm; exact .inl hm, fun _ => id⟩

theorem mild_controllerStopped (cf : Conf) (a : App) (h : a.ctlAfter = true) (h' : a.ctlWatch = true) (hk : cf.kind = .start) : Mild cf a (controllerStopped a) := by
  unfold controllerStopped
  split
  · exact Mild.refl cf a
  · rename_i hs
    exact ⟨rfl, rfl, rfl, rfl, rfl, rfl, rfl, id, .inl, ⟨[.callStop], rfl, by simp, by simp_all [App.push]⟩, by simp [hk], by simp [hk]⟩

theorem after_controllerStopped (a : App) : (controllerStopped a).enginesAfter = a.enginesAfter ∧ (controllerStopped a).ctlAfter = a.ctlAfter ∧ (controllerStopped a).ctlWatch = a.ctlWatch ∧
    (controllerStopped a).phase = a.phase ∧ (controllerStopped a).watch = a.watch ∧ (controllerStopped a).timer = a.timer := by
  unfold controllerStopped App.push
  split <;> simp

theorem mild_afterStart (cf : Conf) (ctl set : Bool) (a : App) (hk : cf.kind = .start) : Mild cf a (afterStart cf ctl set a) ∧
    (afterStart cf ctl set a).enginesAfter = a.enginesAfter ∧ (afterStart cf ctl set a).ctlAfter = a.ctlAfter := by
  have h1 : Mild cf a (if cf.daemonize then a.push .loopStop else a) ∧ (if cf.daemonize then a.push .loopStop else a).enginesAfter = a.enginesAfter ∧
      (if cf.daemonize then a.push .loopStop else a).ctlAfter = a.ctlAfter := by
    split
    · exact ⟨mild_loopStop cf a (by assumption), rfl, rfl⟩
    · exact ⟨Mild.refl cf a, rfl, rfl⟩
  unfold afterStart
  generalize hb : (if cf.daemonize then a.push .loopStop else a) = b at h1
  simp only [hb]
  have e0 : Mild cf b { b with ctlWatch := true } := ⟨rfl, rfl, rfl, rfl, rfl, rfl, rfl, id, .inl, ⟨[], by simp⟩, fun _ _ => .inl, by simp [hk]⟩
  have h2 : Mild cf a { b with ctlWatch := true } := h1.1.trans e0 id id (fun _ => rfl)
  cases ctl with
  | false => exact ⟨Mild.set cf h1.1 rfl rfl rfl rfl rfl rfl rfl rfl rfl rfl rfl rfl, h1.2.1, h1.2.2⟩
  | true =>
    simp only [if_true]
    have h3 : Mild cf a (if b.ctlAfter = true then controllerStopped { b with ctlWatch := true } else { b with ctlWatch := true }) ∧
        (if b.ctlAfter = true then controllerStopped { b with ctlWatch := true } else { b with ctlWatch := true }).enginesAfter = a.enginesAfter ∧
        (if b.ctlAfter = true then controllerStopped { b with ctlWatch := true } else { b with ctlWatch := true }).ctlAfter = a.ctlAfter := by
      split
      · rename_i hc
        have ha := after_controllerStopped { b with ctlWatch := true }
        exact ⟨h2.trans (mild_controllerStopped cf { b with ctlWatch := true } hc rfl hk) (by rw [ha.1]; exact id) (by rw [ha.2.1]; exact id) (by rw [ha.2.2.1]; exact id), ha.1.trans h1.2.1, ha.2.1.trans h1.2.2⟩
      · exact ⟨h2, h1.2.1, h1.2.2⟩
    generalize (if b.ctlAfter = true then controllerStopped { b with ctlWatch := true } else { b with ctlWatch := true }) = d at h3
    split
    · have hw := after_watchEngines cf { d with phase := .ok }
      have hm : Mild cf a { d with phase := .ok } := Mild.set cf h3.1 rfl rfl rfl rfl rfl rfl rfl rfl rfl rfl rfl rfl
      exact ⟨hm.trans (mild_watchEngines cf _) (by rw [hw.1]; exact id) (by rw [hw.2.1]; exact id) (by rw [hw.2.2.1]; exact id), hw.1.trans h3.2.1, hw.2.1.trans h3.2.2⟩
    · exact ⟨Mild.set cf h3.1 rfl rfl rfl rfl rfl rfl rfl rfl rfl rfl rfl rfl, h3.2.1, h3.2.2⟩

theorem mild_afterStartEngines (cf : Conf) (set : Bool) (a : App) : Mild cf a (afterStartEngines cf set a) ∧
    (afterStartEngines cf set a).enginesAfter = a.enginesAfter ∧ (afterStartEngines cf set a).ctlAfter = a.ctlAfter := by
  unfold afterStartEngines
  split
  · rename_i h
    exact ⟨Mild.set cf (mild_loopStop cf a h) rfl rfl rfl rfl rfl rfl rfl rfl rfl rfl rfl rfl, rfl, rfl⟩
  · split
    · have hw := after_watchEngines cf { a with phase := .ok }
      have hm : Mild cf a { a with phase := .ok } := Mild.set cf (Mild.refl cf a) rfl rfl rfl rfl rfl rfl rfl rfl rfl rfl rfl rfl
      exact ⟨hm.trans (mild_watchEngines cf _) (by rw [hw.1]; exact id) (by rw [hw.2.1]; exact id) (by rw [hw.2.2.1]; exact id), hw.1, hw.2.1⟩
    · exact ⟨Mild.set cf (Mild.refl cf a) rfl rfl rfl rfl rfl rfl rfl rfl rfl rfl rfl rfl, rfl, rfl⟩

/-- **one callback**, in terms of the fields that matter: every callback is mild or one of seven others -/
theorem callback_cases (cf : Conf) (a : App) (c : Cb) :
    (c = .callStart ∧ callback cf a c = a.push .start) ∨ (c = .callStop ∧ callback cf a c = a.push .stop) ∨
    (c = .stop ∧ a.stopping = false ∧ callback cf a c = { a with stopping := true, inStop := true, begun := a.begun + 1 }) ∨
    (∃ ok, c = .stopDone ok ∧ a.inStop = true ∧ callback cf a c = if ok then ({ a with inStop := false, finished := a.finished + 1 } : App).push .loopStop else { a with inStop := false }) ∨
    (c = .loopStop ∧ callback cf a c = { a with flag := true }) ∨ (c = .timer ∧ a.timer = true ∧ callback cf a c = { a with early := false }) ∨
    (c = .relay ∧ callback cf a c = { a with relayed := a.relayed + 1 }) ∨
    (∃ x y, c = .startDone false x y ∧ cf.kind = .engines ∧ callback cf a c = { a with phase := .failed, ended := some 1 }) ∨
    (Mild cf a (callback cf a c) ∧ c ≠ .callStop ∧ c ≠ .loopStop ∧ (c = .stop → a.stopping = true) ∧ (∀ ok, c = .stopDone ok → a.inStop = false) ∧
      ((callback cf a c).ctlAfter = true → a.ctlAfter = true ∨ c = .controllerStop) ∧ ((callback cf a c).enginesAfter = true → a.enginesAfter = true ∨ c = .enginesStop)) := by
  have hr : Mild cf a a := Mild.refl cf a
  have hM : ∀ b, Mild cf a b → b.ctlAfter = a.ctlAfter → b.enginesAfter = a.enginesAfter → c ≠ .callStop → c ≠ .loopStop → (c = .stop → a.stopping = true) →
      (∀ ok, c = .stopDone ok → a.inStop = false) → (Mild cf a b ∧ c ≠ .callStop ∧ c ≠ .loopStop ∧ (c = .stop → a.stopping = true) ∧ (∀ ok, c = .stopDone ok → a.inStop = false) ∧
      (b.ctlAfter = true → a.ctlAfter = true ∨ c = .controllerStop) ∧ (b.enginesAfter = true → a.enginesAfter = true ∨ c = .enginesStop)) := by
    intro b hb h1 h2 h3 h4 h5 h6
    exact ⟨hb, h3, h4, h5, h6, fun h => .inl (h1 ▸ h), fun h => .inl (h2 ▸ h)⟩
  cases c with
  | callStart => exact .inl ⟨rfl, rfl⟩
  | callStop => exact .inr (.inl ⟨rfl, rfl⟩)
  | start =>
    refine .inr (.inr (.inr (.inr (.inr (.inr (.inr (.inr (hM _ ?_ ?_ ?_ (by simp) (by simp) (by simp) (by simp)))))))))
    all_goals simp only [callback]
    exact Mild.set cf hr rfl rfl rfl rfl rfl rfl rfl rfl rfl rfl rfl rfl
  | stop =>
    by_cases hs : a.stopping = true
    · refine .inr (.inr (.inr (.inr (.inr (.inr (.inr (.inr (hM _ ?_ ?_ ?_ (by simp) (by simp) (fun _ => hs) (by simp)))))))))
      all_goals simp only [callback, Bool.false_eq_true, if_false, hs, if_true]
      exact hr
    · exact .inr (.inr (.inl ⟨rfl, by simpa using hs, by simp [callback, hs]⟩))
  | stopDone ok =>
    by_cases hs : a.inStop = true
    · exact .inr (.inr (.inr (.inl ⟨ok, rfl, hs, by simp [callback, hs]⟩)))
    · refine .inr (.inr (.inr (.inr (.inr (.inr (.inr (.inr (hM _ ?_ ?_ ?_ (by simp) (by simp) (by simp) (fun _ _ => by simpa using hs)))))))))
      all_goals simp only [callback, Bool.false_eq_true, if_false, hs]
      exact hr
  | loopStop => exact .inr (.inr (.inr (.inr (.inl ⟨rfl, rfl⟩))))
  | timer =>
    by_cases ht : a.timer = true
    · exact .inr (.inr (.inr (.inr (.inr (.inl ⟨rfl, ht, by simp [callback, ht]⟩)))))
    · refine .inr (.inr (.inr (.inr (.inr (.inr (.inr (.inr (hM _ ?_ ?_ ?_ (by simp) (by simp) (by simp) (by simp)))))))))
      all_goals simp only [callback, Bool.false_eq_true, if_false, ht]
      exact hr
  | relay => exact .inr (.inr (.inr (.inr (.inr (.inr (.inl ⟨rfl, rfl⟩))))))
  | startDone ok x y =>
    by_cases hp : a.phase = .running
    · cases hk : cf.kind with
      | start =>
        refine .inr (.inr (.inr (.inr (.inr (.inr (.inr (.inr (hM _ ?_ ?_ ?_ (by simp) (by simp) (by simp) (by simp)))))))))
        all_goals simp only [callback, Bool.false_eq_true, if_false, hp, if_true, hk]
        all_goals cases ok
        · exact Mild.set cf hr rfl rfl rfl rfl rfl rfl rfl rfl rfl rfl rfl rfl
        · exact (mild_afterStart cf x y a hk).1
        · rfl
        · exact (mild_afterStart cf x y a hk).2.2
        · rfl
        · exact (mild_afterStart cf x y a hk).2.1
      | engines =>
        cases ok with
        | false => exact .inr (.inr (.inr (.inr (.inr (.inr (.inr (.inl ⟨x, y, rfl, rfl, by simp [callback, hp, hk]⟩)))))))
        | true =>
          refine .inr (.inr (.inr (.inr (.inr (.inr (.inr (.inr (hM _ ?_ ?_ ?_ (by simp) (by simp) (by simp) (by simp)))))))))
          all_goals simp only [callback, Bool.false_eq_true, if_false, hp, if_true, hk]
          · exact (mild_afterStartEngines cf y a).1
          · exact (mild_afterStartEngines cf y a).2.2
          · exact (mild_afterStartEngines cf y a).2.1
    · refine .inr (.inr (.inr (.inr (.inr (.inr (.inr (.inr (hM _ ?_ ?_ ?_ (by simp) (by simp) (by simp) (by simp)))))))))
      all_goals simp only [callback, Bool.false_eq_true, if_false, hp]
      exact hr
  | enginesStop =>
    refine .inr (.inr (.inr (.inr (.inr (.inr (.inr (.inr ⟨?_, by simp, by simp, by simp, by simp, ?_, fun _ => .inr rfl⟩)))))))
    all_goals simp only [callback]
    · split
      · exact hr
      · have hm := mild_onEnginesStop cf { a with enginesAfter := true } rfl
        have ha := after_onEnginesStop cf { a with enginesAfter := true }
        exact Mild.trans (b := { a with enginesAfter := true }) ⟨rfl, rfl, rfl, rfl, rfl, rfl, rfl, id, .inl, ⟨[], by simp⟩, fun _ _ => .inl, fun _ => id⟩ hm (by rw [ha.1]; exact id) (by rw [ha.2.1]; exact id) (by rw [ha.2.2.1]; exact id)
    · split
      · exact .inl
      · rw [(after_onEnginesStop cf _).2.1]; exact .inl
  | controllerStop =>
    refine .inr (.inr (.inr (.inr (.inr (.inr (.inr (.inr ⟨?_, by simp, by simp, by simp, by simp, fun _ => .inr rfl, ?_⟩)))))))
    all_goals simp only [callback]
    · split
      · exact hr
      · have e0 : Mild cf a { a with ctlAfter := true } := ⟨rfl, rfl, rfl, rfl, rfl, rfl, rfl, id, .inl, ⟨[], by simp⟩, fun _ _ => .inl, fun _ => id⟩
        split
        · rename_i hw
          unfold controllerStopped
          split
          · exact e0
          · rename_i hs
            exact ⟨rfl, rfl, rfl, rfl, rfl, rfl, rfl, id, .inl, ⟨[.callStop], rfl, by simp, by simp_all [App.push]⟩, by simp [hw], by simp [hw]⟩
        · exact e0
    · split
      · exact .inl
      · split
        · rw [(after_controllerStopped _).1]; exact .inl
        · exact .inl

end IPP.Ipcluster
