import Verif.Cluster.AppLive
/-!
# `ipcluster start` and `ipcluster engines`: the process does end (property C86): theorems
-/
namespace IPP.Ipcluster

theorem run_append (cf : Conf) (g h : List Ev) : run cf (g ++ h) = h.foldl (step cf) (run cf g) := by simp [run]

theorem sane_run (cf : Conf) (h : List Ev) (hf : .stopDone false ∉ h) : Sane (run cf h) (run cf h).queue := by
  have gen : ∀ (h : List Ev) (a : App), .stopDone false ∉ h → Sane a a.queue → Sane (h.foldl (step cf) a) (h.foldl (step cf) a).queue := by
    intro h
    induction h with
    | nil => intro a _ ha; exact ha
    | cons e t ih => intro a hf ha; exact ih _ (fun hx => hf (by simp [hx])) (step_stages cf a e ha (fun hx => hf (by simp [hx]))).1
  exact gen h _ hf ⟨fun hx => by simp [init] at hx, by simp [init]⟩

/-- a stage is kept along a history -/
theorem stage_run (cf : Conf) (S : App → Prop) (hS : ∀ a e, Sane a a.queue → e ≠ .stopDone false → S a → S (step cf a e)) (g : List Ev) : ∀ h : List Ev, .stopDone false ∉ g ++ h → S (run cf g) → S (run cf (g ++ h)) := by
  intro h
  induction h generalizing g with
  | nil => intro _ hs; simpa using hs
  | cons e t ih =>
    intro hf hs
    have : g ++ e :: t = (g ++ [e]) ++ t := by simp
    rw [this] at hf ⊢
    refine ih _ hf ?_
    rw [run_snoc]
    exact hS _ _ (sane_run cf g (fun hx => hf (by simp [hx]))) (fun hx => hf (by simp [hx])) hs

/-- an iteration takes the process on -/
theorem advance (cf : Conf) (S T : App → Prop) (hS : ∀ a e, Sane a a.queue → e ≠ .stopDone false → S a → S (step cf a e)) (hT : ∀ a : App, Sane a a.queue → (a.ended = none → a.flag = false) → S a → T (iter cf a))
    (g h : List Ev) (hf : .stopDone false ∉ g ++ h) (hs : S (run cf g)) : T (run cf (g ++ h ++ [.iter])) := by
  rw [run_snoc]
  exact hT _ (sane_run cf _ hf) (flag_off cf _) (stage_run cf S hS g h hf hs)

/-- the time from the request to stop to the end of the process: two iterations until the cluster is being stopped, the end of that, two iterations more, and other events in between -/
def Ending (l : List Ev) : Prop := ∃ h1 h2 h3 h4 h5 h6, l = h1 ++ [.iter] ++ h2 ++ [.iter] ++ h3 ++ [.stopDone true] ++ h4 ++ [.iter] ++ h5 ++ [.iter] ++ h6

/-- If a stop has been asked for, it happens and the process ends, whatever else happens in the meantime. -/
theorem ends_when_asked (cf : Conf) (g l : List Ev) (ha : Asked (run cf g) (run cf g).queue) (hl : Ending l) (hf : .stopDone false ∉ g ++ l) : (run cf (g ++ l)).ended.isSome := by
  rcases hl with ⟨h1, h2, h3, h4, h5, h6, rfl⟩
  simp only [← List.append_assoc] at hf ⊢
  have sub : ∀ l m : List Ev, .stopDone false ∉ l ++ m → .stopDone false ∉ l := fun l m h hx => h (List.mem_append_left _ hx)
  have f1 := sub _ _ hf
  have f2 := sub _ _ (sub _ _ hf)
  have f3 := sub _ _ (sub _ _ f2)
  have f4 := sub _ _ f3
  have f5 := sub _ _ f4
  have f6 := sub _ _ f5
  have f7 := sub _ _ f6
  have f8 := sub _ _ f7
  have f9 := sub _ _ f8
  have f10 := sub _ _ f9
  have k := fun a e hs he => step_stages cf a e hs he
  have t := fun a hs hfl => iter_stage cf a hs hfl
  have s1 := advance cf (fun a => Asked a a.queue) (fun a => Soon a a.queue) (fun a e hs he => (k a e hs he).2.2.2.2) (fun a hs hfl => (t a hs hfl).2.2.2) g h1 (by assumption) ha
  have s2 := advance cf (fun a => Soon a a.queue) (fun a => InStop a a.queue) (fun a e hs he => (k a e hs he).2.2.2.1) (fun a hs hfl => (t a hs hfl).2.2.1) _ h2 (by assumption) s1
  have s3 := stage_run cf (fun a => InStop a a.queue) (fun a e hs he => (k a e hs he).2.2.1) _ h3 (by assumption) s2
  -- the end of the stop arrives
  have s4 : InStop (run cf (g ++ h1 ++ [.iter] ++ h2 ++ [.iter] ++ h3 ++ [.stopDone true])) (run cf (g ++ h1 ++ [.iter] ++ h2 ++ [.iter] ++ h3 ++ [.stopDone true])).queue ∧
      (Cb.stopDone true ∈ (run cf (g ++ h1 ++ [.iter] ++ h2 ++ [.iter] ++ h3 ++ [.stopDone true])).queue ∨
       Over (run cf (g ++ h1 ++ [.iter] ++ h2 ++ [.iter] ++ h3 ++ [.stopDone true])) (run cf (g ++ h1 ++ [.iter] ++ h2 ++ [.iter] ++ h3 ++ [.stopDone true])).queue) := by
    rw [run_snoc]
    exact ⟨(k _ _ (sane_run cf _ (by assumption)) (by simp)).2.2.1 s3, .inl (by simp [step, App.push])⟩
  have stay : ∀ a e, Sane a a.queue ∧ (a.ended = none → a.flag = false) → e ≠ .stopDone false → InStop a a.queue ∧ (Cb.stopDone true ∈ a.queue ∨ Over a a.queue) →
      InStop (step cf a e) (step cf a e).queue ∧ (Cb.stopDone true ∈ (step cf a e).queue ∨ Over (step cf a e) (step cf a e).queue) := by
    rintro a e ⟨hs, hfl⟩ he ⟨hi, hd⟩
    refine ⟨(k a e hs he).2.2.1 hi, ?_⟩
    rcases hd with hd | hd
    · rw [step_post]
      cases hp : e.post cf with
      | some c => exact .inl (List.mem_append_left _ hd)
      | none => exact .inr ((t a hs hfl).2.1 hi hd)
    · exact .inr ((k a e hs he).2.1 hd)
  have s5 : ∀ h4, .stopDone false ∉ g ++ h1 ++ [.iter] ++ h2 ++ [.iter] ++ h3 ++ [.stopDone true] ++ h4 →
      (fun a : App => InStop a a.queue ∧ (Cb.stopDone true ∈ a.queue ∨ Over a a.queue)) (run cf (g ++ h1 ++ [.iter] ++ h2 ++ [.iter] ++ h3 ++ [.stopDone true] ++ h4)) := by
    intro h4
    generalize hG : g ++ h1 ++ [.iter] ++ h2 ++ [.iter] ++ h3 ++ [.stopDone true] = G at s4
    clear hG
    induction h4 generalizing G with
    | nil => intro _; simpa using s4
    | cons e tl ih =>
      intro hx
      have : G ++ e :: tl = (G ++ [e]) ++ tl := by simp
      rw [this] at hx ⊢
      refine ih (G ++ [e]) ?_ hx
      rw [run_snoc]
      exact stay _ _ ⟨sane_run cf G (fun hy => hx (by simp [hy])), flag_off cf G⟩ (fun hy => hx (by simp [hy])) s4
  have s6 := s5 h4 (by assumption)
  have s7 : Over (run cf (g ++ h1 ++ [.iter] ++ h2 ++ [.iter] ++ h3 ++ [.stopDone true] ++ h4 ++ [.iter])) (run cf (g ++ h1 ++ [.iter] ++ h2 ++ [.iter] ++ h3 ++ [.stopDone true] ++ h4 ++ [.iter])).queue := by
    rw [run_snoc]
    rcases s6.2 with hd | hd
    · exact (t _ (sane_run cf _ (by assumption)) (flag_off cf _)).2.1 s6.1 hd
    · exact (k _ .iter (sane_run cf _ (by assumption)) (by simp)).2.1 hd
  have s8 := advance cf (fun a => Over a a.queue) (fun a => a.ended.isSome) (fun a e hs he => (k a e hs he).2.1) (fun a hs hfl => (t a hs hfl).1) _ h5 (by assumption) s7
  exact stage_run cf (fun a => a.ended.isSome) (fun a e _ _ => ended_stays cf a e) _ h6 hf s8

/-- **C86 (signals)** SIGINT and SIGTERM end `ipcluster start`: the cluster is stopped and, if that succeeds, the process is over, at whatever time the signal arrives and whatever else happens (unless a stop fails:
`failed_stop_never_ends_violated`). -/
theorem signal_ends_partial (cf : Conf) (hk : cf.kind = .start) (g l : List Ev) (hl : Ending l) (hf : .stopDone false ∉ g ++ .signal :: l) : (run cf (g ++ .signal :: l)).ended.isSome := by
  have : g ++ .signal :: l = g ++ [.signal] ++ l := by simp
  rw [this] at hf ⊢
  apply ends_when_asked cf _ l _ hl hf
  rw [run_snoc]
  simp only [step, hk]
  exact .inr (by simp [App.push])

/-! ### a component stops -/

/-- `ipcluster start` has been told that its controller has stopped, or its engines too early: a stop has been asked for -/
def Told (a : App) (q : List Cb) : Prop := (a.ctlWatch = true → a.ctlAfter = true → Asked a q) ∧ (a.watch = .early → a.enginesAfter = true → a.early = true → Asked a q)

theorem Mild.stages {cf : Conf} {a b : App} (hm : Mild cf a b) {q q' : List Cb} (hq : ∀ x ∈ q, x ∈ q') : (InStop a q → InStop b q') ∧ (Asked a q → Asked b q') := by
  have h1 : Over a q → Over b q' := by
    rintro (h | h | h)
    · exact .inl (hm.ended ▸ h)
    · exact .inr (.inl (hm.flag h))
    · exact .inr (.inr (hq _ h))
  have h2 : InStop a q → InStop b q' := Or.imp h1 (fun h => hm.inStop.trans h)
  exact ⟨h2, Or.imp (Or.imp h2 (hq _)) (hq _)⟩

theorem onEnginesStop_asks (cf : Conf) (a : App) (q q' : List Cb) (hw : a.watch = .early) (he : a.early = true) (hs : a.stopping = true → InStop a q) (hq : ∀ x ∈ q, x ∈ q') (hr : ∀ x ∈ (onEnginesStop cf a).queue, x ∈ q')
    (hk : cf.kind = .start) : Asked (onEnginesStop cf a) q' := by
  simp only [onEnginesStop, hw, enginesStoppedEarly, enginesStopped, hk] at hr ⊢
  by_cases hst : a.stopping = true
  · simp only [he, hst, not_true, and_false, if_false] at hr ⊢
    exact .inl (.inl (InStop.mono hq (hs hst)))
  · simp only [he, hst, App.push] at hr ⊢
    exact .inr (hr _ (by simp))

theorem controllerStopped_asks (a : App) (q q' : List Cb) (hs : a.stopping = true → InStop a q) (hq : ∀ x ∈ q, x ∈ q') (hr : ∀ x ∈ (controllerStopped a).queue, x ∈ q') : Asked (controllerStopped a) q' := by
  unfold controllerStopped at hr ⊢
  split
  · rename_i hst
    exact .inl (.inl (InStop.mono hq (hs hst)))
  · rename_i hst
    rw [if_neg hst] at hr
    exact .inr (hr _ (by simp [App.push]))

theorem watchEngines_told (cf : Conf) (a : App) (q q' : List Cb) (hs : a.stopping = true → InStop a q) (hq : ∀ x ∈ q, x ∈ q') (hr : ∀ x ∈ (watchEngines cf a).queue, x ∈ q') (hk : cf.kind = .start) :
    (watchEngines cf a).watch = .early → (watchEngines cf a).enginesAfter = true → (watchEngines cf a).early = true → Asked (watchEngines cf a) q' := by
  intro h1 h2 h3
  have ha := after_watchEngines cf a
  have hm := mild_watchEngines cf a
  rw [ha.1] at h2
  rw [hm.early] at h3
  have e : watchEngines cf a = { onEnginesStop cf { a with watch := .early } with timer := true } := by
    unfold watchEngines
    rw [if_pos h3]
    simp only
    rw [if_pos h2]
  rw [e] at hr ⊢
  exact onEnginesStop_asks cf { a with watch := .early } q q' rfl h3 hs hq hr hk

theorem afterStart_told (cf : Conf) (ctl set : Bool) (a : App) (q q' : List Cb) (hk : cf.kind = .start) (hs : a.stopping = true → InStop a q) (hq : ∀ x ∈ q, x ∈ q')
    (hr : ∀ x ∈ (afterStart cf ctl set a).queue, x ∈ q') (ht : Told a q) : Told (afterStart cf ctl set a) q' := by
  have h1 : Mild cf a (if cf.daemonize then a.push .loopStop else a) ∧ (if cf.daemonize then a.push .loopStop else a).watch = a.watch ∧ (if cf.daemonize then a.push .loopStop else a).enginesAfter = a.enginesAfter ∧
      (if cf.daemonize then a.push .loopStop else a).ctlWatch = a.ctlWatch ∧ (if cf.daemonize then a.push .loopStop else a).ctlAfter = a.ctlAfter := by
    split
    · exact ⟨mild_loopStop cf a (by assumption), rfl, rfl, rfl, rfl⟩
    · exact ⟨Mild.refl cf a, rfl, rfl, rfl, rfl⟩
  unfold afterStart at hr ⊢
  generalize hb : (if cf.daemonize then a.push .loopStop else a) = b at h1
  simp only [hb] at hr ⊢
  rcases h1 with ⟨hm, w1, w2, w3, w4⟩
  cases ctl with
  | false =>
    simp only [Bool.false_eq_true, if_false] at hr ⊢
    refine ⟨fun x y => ?_, fun x y z => ?_⟩
    · exact (Mild.stages (b := { b with phase := .failed }) (Mild.set cf hm rfl rfl rfl rfl rfl rfl rfl rfl rfl rfl rfl rfl) hq).2 (ht.1 (w3 ▸ x) (w4 ▸ y))
    · exact (Mild.stages (b := { b with phase := .failed }) (Mild.set cf hm rfl rfl rfl rfl rfl rfl rfl rfl rfl rfl rfl rfl) hq).2 (ht.2 (w1 ▸ x) (w2 ▸ y) (hm.early ▸ z))
  | true =>
    simp only [if_true] at hr ⊢
    have e0 : Mild cf b { b with ctlWatch := true } := ⟨rfl, rfl, rfl, rfl, rfl, rfl, rfl, id, .inl, ⟨[], by simp⟩, fun _ _ => .inl, by simp [hk]⟩
    have h2 : Mild cf a { b with ctlWatch := true } := hm.trans e0 id id (fun _ => rfl)
    have h3 : Mild cf a (if b.ctlAfter = true then controllerStopped { b with ctlWatch := true } else { b with ctlWatch := true }) ∧
        (if b.ctlAfter = true then controllerStopped { b with ctlWatch := true } else { b with ctlWatch := true }).enginesAfter = a.enginesAfter ∧
        (if b.ctlAfter = true then controllerStopped { b with ctlWatch := true } else { b with ctlWatch := true }).ctlAfter = a.ctlAfter ∧
        (if b.ctlAfter = true then controllerStopped { b with ctlWatch := true } else { b with ctlWatch := true }).watch = a.watch ∧
        (∀ q'', (∀ x ∈ q, x ∈ q'') → (∀ x ∈ (if b.ctlAfter = true then controllerStopped { b with ctlWatch := true } else { b with ctlWatch := true }).queue, x ∈ q'') → b.ctlAfter = true →
          Asked (if b.ctlAfter = true then controllerStopped { b with ctlWatch := true } else { b with ctlWatch := true }) q'') := by
      split
      · rename_i hc
        have ha := after_controllerStopped { b with ctlWatch := true }
        refine ⟨h2.trans (mild_controllerStopped cf { b with ctlWatch := true } hc rfl hk) (by rw [ha.1]; exact id) (by rw [ha.2.1]; exact id) (by rw [ha.2.2.1]; exact id), ha.1.trans w2, ha.2.1.trans w4, ha.2.2.2.2.1.trans w1, ?_⟩
        intro q'' k1 k2 _
        refine controllerStopped_asks { b with ctlWatch := true } q q'' (fun hst => ?_) k1 k2
        exact (h2.stages (fun _ h => h)).1 (hs (by rw [← h2.stopping]; exact hst))
      · rename_i hc
        exact ⟨h2, w2, w4, w1, fun _ _ _ hx => absurd hx hc⟩
    generalize (if b.ctlAfter = true then controllerStopped { b with ctlWatch := true } else { b with ctlWatch := true }) = d at h3 hr
    rcases h3 with ⟨m3, x1, x2, x3, x4⟩
    have m3' : ∀ ph, Mild cf a { d with phase := ph } := fun ph => Mild.set cf m3 rfl rfl rfl rfl rfl rfl rfl rfl rfl rfl rfl rfl
    cases set with
    | false =>
      simp only [Bool.false_eq_true, if_false] at hr ⊢
      refine ⟨fun _ y => ?_, fun x y z => ?_⟩
      · have hy : b.ctlAfter = true := by rw [w4, ← x2]; exact y
        exact x4 q' hq hr hy
      · exact (Mild.stages (m3' .failed) hq).2 (ht.2 (x3 ▸ x) (x1 ▸ y) (m3.early ▸ z))
    | true =>
      simp only [if_true] at hr ⊢
      have hw := mild_watchEngines cf { d with phase := .ok }
      have ha := after_watchEngines cf { d with phase := .ok }
      rcases hw.queue with ⟨l, hl, -⟩
      have hdq : ∀ x ∈ d.queue, x ∈ q' := fun x hx => hr x (by rw [hl]; exact List.mem_append_left _ hx)
      refine ⟨fun _ y => ?_, ?_⟩
      · rw [ha.2.1] at y
        have hy : b.ctlAfter = true := by rw [w4, ← x2]; exact y
        exact (hw.stages (q := q') (fun _ h => h)).2 (x4 q' hq hdq hy)
      · refine watchEngines_told cf { d with phase := .ok } q q' (fun hst => ?_) hq hr hk
        exact ((m3' .ok).stages (fun _ h => h)).1 (hs (by rw [← m3.stopping]; exact hst))

/-- one entry is run -/
theorem callback_told (cf : Conf) (hk : cf.kind = .start) (b : App) (d : Cb) (rest : List Cb) (hn : b.ended = none) (hs : Sane b (d :: rest ++ b.queue)) (ht : Told b (d :: rest ++ b.queue)) :
    Told (callback cf b d) (rest ++ (callback cf b d).queue) := by
  have hst := callback_stages cf b d rest hn hs
  have hsame : (callback cf b d).ctlWatch = b.ctlWatch → (callback cf b d).ctlAfter = b.ctlAfter → (callback cf b d).watch = b.watch → (callback cf b d).enginesAfter = b.enginesAfter →
      ((callback cf b d).early = true → b.early = true) → Told (callback cf b d) (rest ++ (callback cf b d).queue) := by
    intro e1 e2 e3 e4 e5
    exact ⟨fun x y => hst.2.2.2.1 (ht.1 (e1 ▸ x) (e2 ▸ y)), fun x y z => hst.2.2.2.1 (ht.2 (e3 ▸ x) (e4 ▸ y) (e5 z))⟩
  rcases (callback_keeps cf b d).1 with ⟨l, hl⟩
  have hr : ∀ x ∈ (callback cf b d).queue, x ∈ rest ++ (callback cf b d).queue := fun x hx => List.mem_append_right _ hx
  have hq : ∀ x ∈ rest ++ b.queue, x ∈ rest ++ (callback cf b d).queue := by
    intro x hx
    rw [hl]
    rcases List.mem_append.1 hx with h | h
    · exact List.mem_append_left _ h
    · exact List.mem_append_right _ (List.mem_append_left _ h)
  have hdrop : d ≠ .loopStop → InStop b (d :: rest ++ b.queue) → InStop b (rest ++ b.queue) := by
    intro hd
    rintro ((h | h | h) | h)
    · exact .inl (.inl h)
    · exact .inl (.inr (.inl h))
    · exact .inl (.inr (.inr ((List.mem_cons.1 h).resolve_left (fun hx => hd hx.symm))))
    · exact .inr h
  have hdropA : d ≠ .loopStop → d ≠ .stop → d ≠ .callStop → Asked b (d :: rest ++ b.queue) → Asked b (rest ++ b.queue) := by
    intro h1 h2 h3
    rintro ((h | h) | h)
    · exact .inl (.inl (hdrop h1 h))
    · exact .inl (.inr ((List.mem_cons.1 h).resolve_left (fun hx => h2 hx.symm)))
    · exact .inr ((List.mem_cons.1 h).resolve_left (fun hx => h3 hx.symm))
  cases d with
  | callStart => exact hsame rfl rfl rfl rfl id
  | start => exact hsame rfl rfl rfl rfl id
  | callStop => exact hsame rfl rfl rfl rfl id
  | loopStop => exact hsame rfl rfl rfl rfl id
  | relay => exact hsame rfl rfl rfl rfl id
  | stop => apply hsame <;> (simp only [callback]; split <;> first | rfl | exact id)
  | stopDone ok => apply hsame <;> (simp only [callback]; split <;> first | rfl | exact id | (split <;> first | rfl | exact id))
  | timer =>
    by_cases h : b.timer = true
    · have e : callback cf b .timer = { b with early := false } := by simp [callback, h]
      rw [e] at hsame ⊢
      exact hsame rfl rfl rfl rfl (fun hx => by cases hx)
    · have e : callback cf b .timer = b := by simp [callback, h]
      rw [e] at hsame ⊢
      exact hsame rfl rfl rfl rfl id
  | startDone ok x y =>
    by_cases hp : b.phase = .running
    · cases ok with
      | false =>
        have e : callback cf b (.startDone false x y) = { b with phase := .failed } := by simp [callback, hp, hk]
        rw [e] at hsame ⊢
        exact hsame rfl rfl rfl rfl id
      | true =>
        have e : callback cf b (.startDone true x y) = afterStart cf x y b := by simp [callback, hp, hk]
        rw [e] at hr hq ⊢
        exact afterStart_told cf x y b (rest ++ b.queue) _ hk (fun h => hdrop (by simp) (hs.1 h)) hq hr
          ⟨fun p q => hdropA (by simp) (by simp) (by simp) (ht.1 p q), fun p q r => hdropA (by simp) (by simp) (by simp) (ht.2 p q r)⟩
    · have e : callback cf b (.startDone ok x y) = b := by simp [callback, hp]
      rw [e] at hsame ⊢
      exact hsame rfl rfl rfl rfl id
  | enginesStop =>
    by_cases he : b.enginesAfter = true
    · have e : callback cf b .enginesStop = b := by simp [callback, he]
      rw [e] at hsame ⊢
      exact hsame rfl rfl rfl rfl id
    · have e : callback cf b .enginesStop = onEnginesStop cf { b with enginesAfter := true } := by simp [callback, he]
      have ha := after_onEnginesStop cf { b with enginesAfter := true }
      have hm := mild_onEnginesStop cf { b with enginesAfter := true } rfl
      rw [e] at hr hq hst ⊢
      refine ⟨fun p q => ?_, fun p q r => ?_⟩
      · rw [ha.2.2.1] at p
        rw [ha.2.1] at q
        exact hst.2.2.2.1 (ht.1 p q)
      · rw [ha.2.2.2.2.1] at p
        rw [hm.early] at r
        exact onEnginesStop_asks cf { b with enginesAfter := true } (rest ++ b.queue) _ p r (fun h => hdrop (by simp) (hs.1 h)) hq hr hk
  | controllerStop =>
    by_cases hc : b.ctlAfter = true
    · have e : callback cf b .controllerStop = b := by simp [callback, hc]
      rw [e] at hsame ⊢
      exact hsame rfl rfl rfl rfl id
    · by_cases hw : b.ctlWatch = true
      · have e : callback cf b .controllerStop = controllerStopped { b with ctlAfter := true } := by simp [callback, hc, hw]
        have ha := after_controllerStopped { b with ctlAfter := true }
        rw [e] at hr hq hst ⊢
        refine ⟨fun p q => ?_, fun p q r => ?_⟩
        · exact controllerStopped_asks { b with ctlAfter := true } (rest ++ b.queue) _ (fun h => hdrop (by simp) (hs.1 h)) hq hr
        · rw [ha.2.2.2.2.1] at p
          rw [ha.1] at q
          refine hst.2.2.2.1 (ht.2 p q ?_)
          unfold controllerStopped App.push at r
          split at r <;> exact r
      · have e : callback cf b .controllerStop = { b with ctlAfter := true } := by simp [callback, hc, hw]
        rw [e] at hst ⊢
        exact ⟨fun p _ => absurd p hw, fun p q r => hst.2.2.2.1 (ht.2 p q r)⟩

theorem told_run (cf : Conf) (hk : cf.kind = .start) (h : List Ev) (hf : .stopDone false ∉ h) : (run cf h).ended = none → Told (run cf h) (run cf h).queue := by
  have gen : ∀ n (h : List Ev), h.length = n → .stopDone false ∉ h → (run cf h).ended = none → Told (run cf h) (run cf h).queue := by
    intro n
    induction n with
    | zero =>
      intro h hl _ _
      have : h = [] := List.eq_nil_of_length_eq_zero hl
      subst this
      exact ⟨fun hx => by simp [run, init] at hx, fun hx => by simp [run, init] at hx⟩
    | succ n ih =>
      intro h hl hf he
      have hne : h ≠ [] := by intro hx; subst hx; simp at hl
      have hd := List.dropLast_concat_getLast hne
      generalize h.dropLast = g at hd
      generalize h.getLast hne = e at hd
      subst hd
      have hg : .stopDone false ∉ g := fun hx => hf (by simp [hx])
      rw [run_snoc] at he ⊢
      have hge : (run cf g).ended = none := by
        cases hx : (run cf g).ended with
        | none => rfl
        | some m =>
          have := ended_stays cf (run cf g) e (by simp [hx])
          rw [he] at this
          cases this
      have ht := ih g (by simp at hl; omega) hg hge
      have hs := sane_run cf g hg
      rw [step_post] at he ⊢
      cases hp : e.post cf with
      | some c =>
        have hm : ∀ x ∈ (run cf g).queue, x ∈ ((run cf g).push c).queue := fun x hx => List.mem_append_left _ hx
        exact ⟨fun p q => Asked.mono hm (ht.1 p q), fun p q r => Asked.mono hm (ht.2 p q r)⟩
      | none =>
        rw [hp] at he
        simp only at he ⊢
        rcases iter_ind cf (fun b rest => Sane b (rest ++ b.queue) ∧ Told b (rest ++ b.queue)) (fun b d rest hb hkk => ⟨(callback_stages cf b d rest hb hkk.1).2.2.2.2, callback_told cf hk b d rest hb hkk.1 hkk.2⟩)
          (run cf g) ⟨by show Sane _ ((run cf g).queue ++ []); rw [List.append_nil]; exact hs, by show Told _ ((run cf g).queue ++ []); rw [List.append_nil]; exact ht⟩ hge with h | h
        · rw [he] at h; cases h
        · simpa using h.2.2.2
  exact gen h.length h rfl hf

/-- **C86 (the controller stops)** When `start_cluster` has completed and the controller has stopped — before or after that —, `ipcluster start` stops the engines, too, and ends (unless the stop fails). -/
theorem controller_stop_ends_partial (cf : Conf) (hk : cf.kind = .start) (g l : List Ev) (hw : (run cf g).ctlWatch = true) (hc : (run cf g).ctlAfter = true) (hl : Ending l) (hf : .stopDone false ∉ g ++ l) :
    (run cf (g ++ l)).ended.isSome := by
  cases he : (run cf g).ended with
  | some n => exact stage_run cf (fun a => a.ended.isSome) (fun a e _ _ => ended_stays cf a e) g l hf (by simp [he])
  | none => exact ends_when_asked cf g l ((told_run cf hk g (fun hx => hf (by simp [hx])) he).1 hw hc) hl hf

/-- **C86 (the engines stop early)** When the engines have stopped before the `early_shutdown` time has passed — even before `start_cluster` has completed —, `ipcluster start` stops the controller, too, and ends (unless the stop fails). -/
theorem early_stop_ends_partial (cf : Conf) (hk : cf.kind = .start) (g l : List Ev) (hw : (run cf g).watch = .early) (hc : (run cf g).enginesAfter = true) (he : (run cf g).early = true) (hl : Ending l)
    (hf : .stopDone false ∉ g ++ l) : (run cf (g ++ l)).ended.isSome := by
  cases hen : (run cf g).ended with
  | some n => exact stage_run cf (fun a => a.ended.isSome) (fun a e _ _ => ended_stays cf a e) g l hf (by simp [hen])
  | none => exact ends_when_asked cf g l ((told_run cf hk g (fun hx => hf (by simp [hx])) hen).2 hw hc he) hl hf

end IPP.Ipcluster
