import Verif.Sched.Timer

/-!
# Task timeouts: the handlers (lemmas)
-/
namespace IPP.Sched

variable {cfg : Config} {n : Nat} {T X : List MsgId} {s₀ s s' : State} {J : State → Prop} {L u q : Nat}

/-- A property of states that the handlers keep, if they neither time out a task (outside `T`) nor touch timers in other ways than `save_unmet` does. -/
structure TClosed (T : List MsgId) (J : State → Prop) : Prop where
  frame : ∀ s s', J s → Fr T [] s s' → J s'
  save : ∀ s m j qu gr, J s → s.jobs m = some j → j.hasTimeout = true → J { s with
    queueMap := insertSet m s.queueMap
    queue := qu
    graph := gr
    jobs := upd s.jobs m (some { j with timeoutId := j.timeoutId + 1 })
    jobTimers := s.jobTimers ++ [(m, j.timeoutId + 1)] }
  keep : ∀ s m j qu gr, J s → s.jobs m = some j → j.hasTimeout = false → J { s with
    queueMap := insertSet m s.queueMap
    queue := qu
    graph := gr }
  new : ∀ s m j, J s → s.jobs m = none → J { s with jobs := upd s.jobs m (some j) }

/-- `x` keeps `J`. -/
def KJ (J : State → Prop) (x : M α) : Prop := HoareE J x (fun _ => J) (fun e s => e ≠ .fuel → J s)

theorem Keeps.kj (hJ : TClosed T J) {x : M α} (h : ∀ s₀, Keeps T s₀ x) : KJ J x := fun s hs => by
  have := h s s (Fr.refl s)
  rcases hx : x s with ⟨r, s'⟩
  rw [hx] at this
  cases r with
  | ok a => exact hJ.frame s s' hs this
  | error e => exact fun hne => hJ.frame s s' hs (this hne)

/-- a task is put in the queue map and failed at once -/
theorem addFail_keeps (m : MsgId) (why : Why) (hw : why = .timeout → m ∈ T) : Keeps T s₀ (do addQueueMap m; failUnreachable cfg n m why) :=
  HoareE.bind (R := fun _ => Fr T [m] s₀) (HoareE.modS_last fun _ h => h.add) fun _ => (frameAt n).fail m why T s₀ hw

theorem addToGraph_eq (m : MsgId) (ds : List MsgId) (s₀ : State) {E : Err → State → Prop} :
    HoareE (fun s => s = s₀) (addToGraph m ds) (fun _ s => ∃ gr, s = { s₀ with graph := gr }) E := by
  induction ds generalizing s₀ with
  | nil => exact HoareE.pure fun s h => ⟨s₀.graph, h⟩
  | cons d ds ih =>
    unfold addToGraph
    refine HoareE.modS fun s h => ?_
    subst h
    refine (ih _).conseq (fun _ h => h) (fun _ s' h => ?_) (fun _ _ h => h)
    obtain ⟨gr, h⟩ := h
    exact ⟨gr, h⟩

theorem saveUnmet_kj (hJ : TClosed T J) (m : MsgId) : KJ J (saveUnmet m) := by
  unfold saveUnmet
  refine HoareE.getJob (fun _ h _ _ => h) fun s j hs hj => ?_
  refine HoareE.addQueueMap fun s₁ h => ?_
  subst h
  refine HoareE.modS fun s₂ h => ?_
  subst h
  refine HoareE.getS fun s₃ h => ?_
  subst h
  refine HoareE.bind (addToGraph_eq m _ _) fun _ s₄ h₄ => ?_
  obtain ⟨gr, rfl⟩ := h₄
  by_cases ht : j.hasTimeout = true
  · rw [if_pos ht]
    exact hJ.save _ m j _ gr hs hj ht
  · rw [if_neg ht]
    exact hJ.keep _ m j _ gr hs hj (by simpa using ht)

theorem KJ.bind {x : M α} {f : α → M β} (hx : KJ J x) (hf : ∀ a, KJ J (f a)) : KJ J (x >>= f) := HoareE.bind hx hf
theorem KJ.assoc {x : M α} {f : α → M β} {g : β → M γ} (h : KJ J ((x >>= f) >>= g)) : KJ J (x >>= fun a => f a >>= g) := by
  intro s hs
  have := h s hs
  show match (match x s with | (.ok a, s') => (match f a s' with | (.ok a, s') => g a s' | (.error e, s') => (.error e, s')) | (.error e, s') => (.error e, s')) with
    | (.ok _, s') => J s' | (.error e, s') => e ≠ .fuel → J s'
  have h1 : ((x >>= f) >>= g) s = match (match x s with | (.ok a, s') => f a s' | (.error e, s') => (.error e, s')) with
    | (.ok a, s') => g a s' | (.error e, s') => (.error e, s') := rfl
  rw [h1] at this
  generalize x s = r at this ⊢
  rcases r with ⟨a | a, s'⟩ <;> exact this
theorem KJ.pure (a : α) : KJ J (Pure.pure a : M α) := HoareE.pure fun _ h => h
theorem KJ.throwE (e : Err) : KJ J (throwE e : M α) := HoareE.throwE fun _ h _ => h
theorem KJ.ite {c : Prop} [Decidable c] {x y : M α} (hx : c → KJ J x) (hy : ¬ c → KJ J y) : KJ J (if c then x else y) := HoareE.ite hx hy
theorem KJ.getS {f : State → M β} (h : ∀ s, KJ J (f s)) : KJ J (Sched.getS >>= f) := HoareE.getS fun s hs => (h s).at hs
theorem KJ.lookupE {o : Option α} {f : α → M β} (h : ∀ a, o = some a → KJ J (f a)) : KJ J (Sched.lookupE o >>= f) := HoareE.lookupE (fun _ _ h _ => h) h
theorem KJ.modS {g : State → State} {f : Unit → M β} (hg : ∀ s, J s → J (g s)) (h : KJ J (f ())) : KJ J (Sched.modS g >>= f) := HoareE.modS fun s hs => h.at (hg s hs)

theorem KJ.same (hJ : TClosed T J) {g : State → State} {f : Unit → M β} (hg : ∀ s, (g s).jobTimers = s.jobTimers ∧ (g s).jobs = s.jobs ∧ (g s).queueMap = s.queueMap ∧ (g s).trace = s.trace)
    (h : KJ J (f ())) : KJ J (Sched.modS g >>= f) :=
  KJ.modS (fun s hs => hJ.frame s _ hs ((Fr.refl s).same (hg s).1 (hg s).2.1 (hg s).2.2.1 (hg s).2.2.2)) h

theorem KJ.same_last (hJ : TClosed T J) {g : State → State} (hg : ∀ s, (g s).jobTimers = s.jobTimers ∧ (g s).jobs = s.jobs ∧ (g s).queueMap = s.queueMap ∧ (g s).trace = s.trace) :
    KJ J (Sched.modS g) :=
  HoareE.modS_last fun s hs => hJ.frame s _ hs ((Fr.refl s).same (hg s).1 (hg s).2.1 (hg s).2.2.1 (hg s).2.2.2)

theorem KJ.emit (hJ : TClosed T J) {o : Obs} {f : Unit → M β} (ho : ∀ x, o ≠ .fail x .timeout) (h : KJ J (f ())) : KJ J (Sched.emit o >>= f) :=
  KJ.bind (Keeps.kj hJ fun _ => Keeps.emit_last ho) fun _ => h

theorem may_kj (hJ : TClosed T J) (m : MsgId) : KJ J (maybeRun cfg n m) := Keeps.kj hJ fun s₀ => (frameAt n).may m T s₀
theorem upd_kj (hJ : TClosed T J) (d : Option MsgId) : KJ J (updateGraph cfg n d) := Keeps.kj hJ fun s₀ => (frameAt n).upd d T s₀

theorem registerEngine_kj (hJ : TClosed T J) (e : Engine) : KJ J (registerEngine cfg n e) := by
  unfold registerEngine
  exact KJ.emit hJ (by simp) (KJ.same hJ (fun _ => ⟨rfl, rfl, rfl, rfl⟩) (upd_kj hJ none))

theorem unregisterEngine_kj (hJ : TClosed T J) (e : Engine) : KJ J (unregisterEngine e) := by
  unfold unregisterEngine
  refine KJ.getS fun s => ?_
  split
  · exact KJ.throwE _
  · refine KJ.emit hJ (by simp) (KJ.same hJ (fun _ => ⟨rfl, rfl, rfl, rfl⟩) ?_)
    refine KJ.lookupE fun p _ => ?_
    refine KJ.ite (fun _ => KJ.same_last hJ fun _ => ⟨rfl, rfl, rfl, rfl⟩) fun _ => ?_
    refine KJ.lookupE fun _ _ => KJ.same hJ (fun _ => ⟨rfl, rfl, rfl, rfl⟩) ?_
    exact KJ.lookupE fun _ _ => KJ.same_last hJ fun _ => ⟨rfl, rfl, rfl, rfl⟩

theorem handleUnmet_kj (hJ : TClosed T J) (e : Engine) (m : MsgId) (c : Cause) : KJ J (handleUnmet cfg n e m c) := by
  unfold handleUnmet
  refine KJ.getS fun s => KJ.lookupE fun p _ => ?_
  have tail : KJ J (if cfg.hwm ≠ 0 then do
      let s ← getS
      match s.targets.idxOf? e with
      | none => pure ()
      | some idx => if s.loads.getD idx 0 = (cfg.hwm : Int) - 1 then updateGraph cfg n none
      else pure ()) := by
    refine KJ.ite (fun _ => KJ.getS fun s => ?_) fun _ => KJ.pure _
    split
    · exact KJ.pure _
    · exact KJ.ite (fun _ => upd_kj hJ none) fun _ => KJ.pure _
  have main : KJ J (do
      modS fun s => { s with pending := upd s.pending e (some (p.filter (· ≠ m))) }
      let j ← getJob m
      emit (.retry e m c)
      let bl := insertSet e j.blacklist
      setJob m { j with blacklist := bl }
      if setEq bl j.targets then
        addQueueMap m
        failUnreachable cfg n m .impossible
      else
        if ← maybeRun cfg n m then pure ()
        else
          let s ← getS
          if m ∉ s.allFailed then saveUnmet m
      if cfg.hwm ≠ 0 then
        let s ← getS
        match s.targets.idxOf? e with
        | none => pure ()
        | some idx =>
          if s.loads.getD idx 0 = (cfg.hwm : Int) - 1 then updateGraph cfg n none) := by
    refine KJ.same hJ (fun _ => ⟨rfl, rfl, rfl, rfl⟩) ?_
    refine HoareE.getJob (fun _ h _ _ => h) fun s₁ j hs hj => ?_
    refine HoareE.emit fun s₂ h₂ => ?_
    subst h₂
    refine HoareE.setJob fun s₃ h₃ => ?_
    subst h₃
    have h3 : J { s₂ with trace := s₂.trace ++ [.retry e m c], jobs := upd s₂.jobs m (some { j with blacklist := insertSet e j.blacklist }) } := by
      refine hJ.frame _ _ hs (((Fr.refl s₂).setJob (j' := { j with blacklist := insertSet e j.blacklist }) hj rfl rfl).congr (s' := { s₂ with
        trace := s₂.trace ++ [.retry e m c]
        jobs := upd s₂.jobs m (some { j with blacklist := insertSet e j.blacklist }) }) rfl rfl (fun _ h => h) ⟨[.retry e m c], rfl, by simp⟩)
    refine HoareE.at (P := J) ?_ h3
    have hf : KJ J (do addQueueMap m; failUnreachable cfg n m .impossible) := Keeps.kj hJ fun s₀ => addFail_keeps m .impossible (by simp)
    refine KJ.ite (fun _ => ?_) fun _ => ?_
    · exact KJ.assoc (KJ.bind hf fun _ => tail)
    · refine KJ.bind (may_kj hJ m) fun b => ?_
      refine KJ.ite (fun _ => tail) fun _ => ?_
      exact KJ.getS fun s => KJ.ite (fun _ => KJ.bind (saveUnmet_kj hJ m) fun _ => tail) fun _ => tail
  exact KJ.ite (fun _ => KJ.bind (KJ.throwE _) fun _ => main) fun _ => main

theorem handleResult_kj (hJ : TClosed T J) (e : Engine) (m : MsgId) (ok : Bool) : KJ J (handleResult cfg n e m ok) := by
  unfold handleResult
  refine KJ.emit hJ (by simp) (KJ.getS fun s => KJ.lookupE fun p _ => ?_)
  have rest : KJ J (do
      modS fun s => { s with allDone := insertSet m s.allDone, destinations := upd s.destinations m (some e) }
      updateGraph cfg n (some m)) := KJ.same hJ (fun _ => ⟨rfl, rfl, rfl, rfl⟩) (upd_kj hJ _)
  refine KJ.ite (fun _ => KJ.bind (KJ.throwE _) fun _ => ?_) fun _ => ?_ <;>
  · refine KJ.same hJ (fun _ => ⟨rfl, rfl, rfl, rfl⟩) ?_
    refine KJ.ite (fun _ => ?_) fun _ => ?_ <;>
    · refine KJ.lookupE fun c _ => ?_
      exact KJ.same hJ (fun _ => ⟨rfl, rfl, rfl, rfl⟩) rest

theorem dispatchResult_kj (hJ : TClosed T J) (e : Engine) (m : MsgId) (ok dm : Bool) : KJ J (dispatchResult cfg n e m ok dm) := by
  unfold dispatchResult
  refine KJ.getS fun s => ?_
  have rest : KJ J (if dm = true then do
      let r ← lookupE (s.retries m)
      if !ok ∧ r > 0 then
        modS fun s => { s with retries := upd s.retries m (some (r - 1)) }
        handleUnmet cfg n e m .failure
      else
        modS fun s => { s with retries := upd s.retries m none }
        handleResult cfg n e m ok
    else handleUnmet cfg n e m .unmet) := by
    refine KJ.ite (fun _ => KJ.lookupE fun r _ => ?_) fun _ => handleUnmet_kj hJ e m _
    exact KJ.ite (fun _ => KJ.same hJ (fun _ => ⟨rfl, rfl, rfl, rfl⟩) (handleUnmet_kj hJ e m _)) fun _ => KJ.same hJ (fun _ => ⟨rfl, rfl, rfl, rfl⟩) (handleResult_kj hJ e m _)
  dsimp only
  split
  · exact rest
  · exact KJ.same hJ (fun _ => ⟨rfl, rfl, rfl, rfl⟩) rest

theorem dispatchSubmission_kj (hJ : TClosed T J) (m : MsgId) (sub : Submission) (hs : J s₀) (hj : s₀.jobs m = none) :
    HoareE (fun s => s = s₀) (dispatchSubmission cfg n m sub) (fun _ => J) (fun e s => e ≠ .fuel → J s) := by
  unfold dispatchSubmission
  refine HoareE.emit fun s h => ?_
  subst h
  refine HoareE.modS fun s₁ hs₁ => ?_
  subst hs₁
  have h1 : J { s with trace := s.trace ++ [.submitted m sub], allIds := insertSet m s.allIds, retries := upd s.retries m (some sub.retries) } :=
    hJ.frame s _ hs ((Fr.refl s).congr rfl rfl (fun _ h => h) ⟨[.submitted m sub], rfl, by simp⟩)
  refine HoareE.ite (fun hc => HoareE.bind (R := fun _ _ => False) (HoareE.throwE fun s' h' _ => h' ▸ h1) fun _ _ h => h.elim) fun _ => ?_
  refine HoareE.getS fun s₂ hs₂ => ?_
  refine HoareE.ite (fun hc => HoareE.bind (R := fun _ _ => False) (HoareE.throwE fun s' h' _ => by rw [h', hs₂]; exact h1) fun _ _ h => h.elim) fun _ => ?_
  generalize reduceAfter s₂ sub.after = aft at *
  refine HoareE.setJob fun s₃ hs₃ => ?_
  rw [hs₂] at hs₃
  subst hs₃
  refine HoareE.at (P := J) ?_ (hJ.new _ m _ h1 hj)
  split
  · rename_i why hwhy
    have hw : why = .timeout → m ∈ T := fun h => by
      subst h
      exfalso
      have : ∀ (d : Dep), validateDep s₂ m d ≠ some .timeout := by
        intro d
        unfold validateDep
        split
        · simp
        · split
          · simp
          · split <;> simp
      cases hv : validateDep s₂ m aft with
      | none => rw [hv] at hwhy; exact this _ hwhy
      | some w => rw [hv] at hwhy; cases hwhy; exact this _ hv
    exact Keeps.kj hJ fun s₀ => addFail_keeps m why hw
  · refine KJ.ite (fun _ => ?_) fun _ => saveUnmet_kj hJ m
    refine KJ.bind (may_kj hJ m) fun b => ?_
    refine KJ.ite (fun _ => KJ.pure _) fun _ => ?_
    exact KJ.getS fun s => KJ.ite (fun _ => saveUnmet_kj hJ m) fun _ => KJ.pure _

theorem strandedLoop_kj (hJ : TClosed T J) (e : Engine) (ms : List MsgId) : ∀ q, Enough L u (q + ms.length) n →
    HoareE (fun s => J s ∧ FInv L u q s) (strandedLoop cfg n e ms) (fun _ => J) (fun e s => e ≠ .fuel → J s) := by
  induction ms with
  | nil => intro q _; exact HoareE.pure fun _ h => h.1
  | cons m ms ih =>
    intro q hn
    simp only [List.length_cons] at hn
    have ih' := ih (q + 1) (by rw [Nat.add_right_comm, Nat.add_assoc]; exact hn)
    unfold strandedLoop
    refine HoareE.getS fun s h => ?_
    refine HoareE.lookupE (fun _ s hs _ => hs ▸ h.1) fun p hp => ?_
    refine HoareE.ite (fun _ => ?_) fun _ => ih'.at ⟨h.1, h.2.up⟩
    refine HoareE.emit fun s₁ hs₁ => ?_
    subst hs₁
    refine HoareE.bind (R := fun _ s => J s ∧ FInv L u (q + 1) s) ?_ fun _ => ih'
    have hF := h.2
    have hs1 : J { s₁ with trace := s₁.trace ++ [.stranded e m] } := hJ.frame s₁ _ h.1 ((Fr.refl s₁).congr rfl rfl (fun _ h => h) ⟨[.stranded e m], rfl, by simp⟩)
    exact logErrorsE_pres (((dispatchResult_kj (cfg := cfg) (n := n) hJ e m false true).at hs1 |>.and
      ((dispatchResult_fuel (hn.mono (Nat.le_refl _) (by omega)) e m false true).at (s₀ := { s₁ with trace := s₁.trace ++ [.stranded e m] }) ⟨hF.ids, hF.grn, hF.pen, hF.len, hF.un, hF.ql⟩)).conseq
        (fun _ h => ⟨h, h⟩) (fun _ _ h => h) (fun _ _ h => ⟨h.1 h.2.1, h.2.2⟩))

theorem handleStranded_kj (hJ : TClosed T J) (e : Engine) (hn : Enough L u (q + L) n) (hs : J s₀) (hF : FInv L u q s₀) :
    HoareE (fun s => s = s₀) (handleStranded cfg n e) (fun _ => J) (fun e s => e ≠ .fuel → J s) := by
  unfold handleStranded
  refine HoareE.getS fun s h => ?_
  subst h
  refine HoareE.lookupE (fun _ s h _ => h ▸ hs) fun p hp => ?_
  obtain ⟨a, b⟩ := hF.pen e p hp
  have hl : p.length ≤ L := Nat.le_trans (nodup_length_le a b) hF.len
  refine HoareE.bind ((strandedLoop_kj hJ e p q (hn.mono (Nat.le_refl _) (by omega))).at ⟨hs, hF⟩) fun _ => ?_
  refine KJ.getS fun s₁ => KJ.lookupE fun _ _ => KJ.same hJ (fun _ => ⟨rfl, rfl, rfl, rfl⟩) ?_
  exact KJ.lookupE fun _ _ => KJ.same_last hJ fun _ => ⟨rfl, rfl, rfl, rfl⟩

/-- Every event other than a timeout. -/
theorem step_kj (hJ : TClosed T J) (s : State) (ev : Event) (hok : FOk s) (hs : J s) (hfr : ∀ m sub, ev = .submit m sub → s.jobs m = none)
    (hev : ∀ m t, ev ≠ .jobTimer m t) : J (step cfg s ev) := by
  have h2 := handle_fuel (cfg := cfg) (n := fuelFor s) s ev hok (Nat.le_refl _)
  have hE := enough_fuelFor s (Nat.le_refl _)
  have hE0 : ∀ q, q ≤ s.queue.length + s.allIds.length → Enough s.allIds.length s.allIds.length q (fuelFor s) := fun q hq =>
    (hE.mono (by omega) (by omega)).monoL (by omega)
  unfold step
  suffices h : HoareE (fun s' => s' = s) (handle cfg (fuelFor s) ev) (fun _ => J) (fun e s => e ≠ .fuel → J s) from
    (h.and h2).final (fun _ _ h => h.1) (fun _ _ h => h.1 h.2.1) ⟨rfl, rfl⟩
  cases ev with
  | submit m sub => exact dispatchSubmission_kj hJ m sub hs (hfr m sub rfl)
  | register e => exact (registerEngine_kj hJ e).at hs
  | unregister e => exact (unregisterEngine_kj hJ e).at hs
  | result e m ok dm => exact (KJ.emit hJ (by simp) (dispatchResult_kj hJ e m ok dm)).at hs
  | strandTimer e =>
    refine HoareE.getS fun s₁ hs₁ => ?_
    subst hs₁
    refine HoareE.ite (fun he => ?_) fun _ => HoareE.pure fun s hs' => hs' ▸ hs
    refine HoareE.modS fun s₂ hs₂ => ?_
    subst hs₂
    refine handleStranded_kj hJ e (hE0 _ (Nat.le_refl _)) (hJ.frame _ _ hs ((Fr.refl _).same rfl rfl rfl rfl)) ?_
    exact ⟨hok.ids, hok.grn, hok.pen, hok.len, hok.un, hok.ql⟩
  | jobTimer m t => exact absurd rfl (hev m t)

end IPP.Sched
