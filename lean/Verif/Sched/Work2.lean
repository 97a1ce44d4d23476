import Verif.Sched.Work

/-!
# No engine idles while a task could run on it: the handlers (lemmas)
-/
namespace IPP.Sched

variable {cfg : Config} {s s' : State} {n : Nat}

theorem hasLoad_unique (hw : WF s) {e : Engine} {l l' : Int} (h : HasLoad s e l) (h' : HasLoad s e l') : l = l' := by
  obtain ⟨i, hi⟩ := List.getElem?_of_mem h
  obtain ⟨k, hk⟩ := List.getElem?_of_mem h'
  rw [List.getElem?_zip_eq_some] at hi hk
  have hlt : i < s.targets.length := (List.getElem?_eq_some_iff.mp hi.1).1
  have : i = k := (List.getElem?_inj hlt hw.1.2).mp (hi.1.trans hk.1.symm)
  subst this
  have := hi.2.symm.trans hk.2
  cases this
  rfl

/-- every waiting task has been tried, except perhaps on `e`, which then has at most one free place -/
def Nearly (cfg : Config) (e : Engine) (s : State) : Prop :=
  QDone cfg All s ∨ (QDone cfg (· ≠ e) s ∧ cfg.hwm ≠ 0 ∧ ∀ l, HasLoad s e l → (cfg.hwm : Int) - 1 ≤ l)

theorem Nearly.step {e : Engine} (h : Nearly cfg e s) (hle : Le s s') (hq : ∀ P, QDone cfg P s → QDone cfg P s') : Nearly cfg e s' := by
  rcases h with h | ⟨h, h0, hl⟩
  · exact Or.inl (hq _ h)
  · refine Or.inr ⟨hq _ h, h0, fun l' hl' => ?_⟩
    obtain ⟨l, h1, h2⟩ := hle.loads e l' hl'
    have := hl l h1
    omega

theorem Nearly.congr {e : Engine} (h : Nearly cfg e s) (hle : Le s s') (hq : s'.queue = s.queue) : Nearly cfg e s' :=
  h.step hle fun _ hP => hP.le hle hq

theorem Nearly.full {e : Engine} (h : Nearly cfg e s) (hl : cfg.hwm ≠ 0 → ∀ l, HasLoad s e l → l ≠ (cfg.hwm : Int) - 1) : QDone cfg All s := by
  rcases h with h | ⟨h, h0, h1⟩
  · exact h
  · intro x hx j hj hr e' _ hroom
    by_cases he : e' = e
    · subst he
      obtain ⟨l, h2, h3⟩ := hroom
      have := h1 l h2
      have := hl h0 l h2
      rcases h3 with h3 | h3
      · exact absurd h3 h0
      · omega
    · exact h x hx j hj hr e' he hroom

/-- One task less on the engine. -/
theorem QDone.finish (hd : QDone cfg All s) (hw : WF s) {e : Engine} {idx : Nat} (hi : s.targets[idx]? = some e) :
    Nearly cfg e { s with loads := s.loads.modify idx (· - 1) } ∧ WF { s with loads := s.loads.modify idx (· - 1) } := by
  have hlt : idx < s.targets.length := (List.getElem?_eq_some_iff.mp hi).1
  obtain ⟨l, hl⟩ : ∃ l, s.loads[idx]? = some l := ⟨_, List.getElem?_eq_getElem (by rw [hw.1.1]; exact hlt)⟩
  have hel : HasLoad s e l := List.mem_of_getElem? (i := idx) (by rw [List.getElem?_zip_eq_some]; exact ⟨hi, hl⟩)
  have key : ∀ e' l', HasLoad { s with loads := s.loads.modify idx (· - 1) } e' l' → (e' = e ∧ l' = l - 1) ∨ HasLoad s e' l' := by
    intro e' l' h
    obtain ⟨k, hk⟩ := List.getElem?_of_mem h
    rw [List.getElem?_zip_eq_some] at hk
    simp only [List.getElem?_modify] at hk
    obtain ⟨h1, h2⟩ := hk
    by_cases hik : idx = k
    · subst hik
      rw [hi] at h1
      rw [hl] at h2
      simp at h1 h2
      exact Or.inl ⟨h1.symm, h2.symm⟩
    · refine Or.inr (List.mem_of_getElem? (i := k) ?_)
      rw [List.getElem?_zip_eq_some]
      refine ⟨h1, ?_⟩
      simpa [hik] using h2
  refine ⟨?_, ⟨by simpa using hw.1.1, hw.1.2⟩, hw.2⟩
  by_cases hroom : cfg.hwm = 0 ∨ l < (cfg.hwm : Int)
  · refine Or.inl fun x hx j hj hr e' _ ⟨l', h1, h2⟩ => hd x hx j hj hr e' trivial ?_
    rcases key e' l' h1 with ⟨rfl, _⟩ | h1
    · exact ⟨l, hel, hroom⟩
    · exact ⟨l', h1, h2⟩
  · refine Or.inr ⟨fun x hx j hj hr e' he' ⟨l', h1, h2⟩ => hd x hx j hj hr e' trivial ?_, fun h => hroom (Or.inl h), fun l' h => ?_⟩
    · rcases key e' l' h1 with ⟨rfl, _⟩ | h1
      · exact absurd rfl he'
      · exact ⟨l', h1, h2⟩
    · rcases key e l' h with ⟨_, rfl⟩ | h1
      · omega
      · rw [hasLoad_unique hw h1 hel]
        omega

theorem addToGraph_work (m : MsgId) (ds : List MsgId) : ∀ s₀ : State,
    HoareE (fun s => s = s₀) (addToGraph m ds) (fun _ s => ∃ gr, s = { s₀ with graph := gr }) AnyErr := by
  induction ds with
  | nil => exact fun s₀ => HoareE.pure fun s h => ⟨s₀.graph, h⟩
  | cons d ds ih =>
    intro s₀
    unfold addToGraph
    refine HoareE.modS fun s h => ?_
    subst h
    refine (ih _).conseq (fun _ h => h) (fun _ s' h => ?_) (fun _ _ h => h)
    obtain ⟨gr, h⟩ := h
    exact ⟨gr, h⟩

theorem saveUnmet_work (m : MsgId) (s₀ : State) :
    HoareE (fun s => s = s₀) (saveUnmet m) (fun _ s' => Le s₀ s' ∧ ∀ P, QDone cfg P s₀ → Done cfg P s₀ m → QDone cfg P s') AnyErr := by
  unfold saveUnmet
  refine HoareE.getJob (fun _ _ _ => trivial) fun s j hs hj => ?_
  subst hs
  refine HoareE.addQueueMap fun s₁ h => ?_
  subst h
  refine HoareE.modS fun s₂ h => ?_
  subst h
  refine HoareE.getS fun s₃ h => ?_
  subst h
  refine HoareE.bind (addToGraph_work m _ _) fun _ s₄ h₄ => ?_
  obtain ⟨gr, rfl⟩ := h₄
  have fin : ∀ s' : State, Le s₁ s' → s'.queue = s₁.queue ++ [m] → Le s₁ s' ∧ ∀ P, QDone cfg P s₁ → Done cfg P s₁ m → QDone cfg P s' := by
    intro s' hle hq
    refine ⟨hle, fun P hP hm x hx => ?_⟩
    rw [hq] at hx
    rcases List.mem_append.mp hx with hx | hx
    · exact (hP x hx).le hle
    · rw [List.mem_singleton.mp hx]; exact hm.le hle
  by_cases ht : j.hasTimeout = true
  · rw [if_pos ht]
    refine fin _ ⟨(Le.refl s₁).loads, fun x j' hx => ?_, id⟩ rfl
    by_cases hxm : x = m
    · subst hxm
      have : j' = { j with timeoutId := j.timeoutId + 1 } := by
        have : upd s₁.jobs x (some { j with timeoutId := j.timeoutId + 1 }) x = some j' := hx
        simp only [upd, if_true, Option.some.injEq] at this
        exact this.symm
      subst this
      refine ⟨j, hj, rfl, rfl, ?_⟩
      cases hr : j.removed with
      | true => exact Or.inl rfl
      | false => exact Or.inr ⟨rfl, fun _ h => h⟩
    · have : upd s₁.jobs m (some { j with timeoutId := j.timeoutId + 1 }) x = some j' := hx
      simp only [upd, hxm, if_false] at this
      exact (Le.refl s₁).jobs x j' this
  · rw [if_neg ht]
    exact fin _ (Le.congr rfl rfl rfl) rfl

theorem registerEngine_work (e : Engine) {s₀ : State} (hw : WF s₀) (he : e ∉ s₀.targets) :
    HoareE (fun s => s = s₀) (registerEngine cfg n e) (fun _ => QDone cfg All) AnyErr := by
  unfold registerEngine
  refine HoareE.emit fun s h => ?_
  subst h
  refine HoareE.modS fun s₁ h => ?_
  subst h
  have hw1 : WF { s with
      trace := s.trace ++ [.registered e]
      targets := e :: s.targets
      loads := 0 :: s.loads
      completed := upd s.completed e (some [])
      failed := upd s.failed e (some [])
      pending := upd s.pending e (some []) } := by
    refine ⟨⟨?_, List.nodup_cons.mpr ⟨he, hw.1.2⟩⟩, hw.2⟩
    simp [hw.1.1]
  exact ((workAt n).upd none _ hw1).conseq (fun _ h => h) (fun _ _ h => h.2.2 (Or.inl rfl)) (fun _ _ h => h)

theorem unregisterEngine_work (e : Engine) {s₀ : State} (hd : QDone cfg All s₀) :
    HoareE (fun s => s = s₀) (unregisterEngine e) (fun _ => QDone cfg All) (fun _ => QDone cfg All) := by
  unfold unregisterEngine
  refine HoareE.getS fun s h => ?_
  subst h
  cases hi : s.targets.idxOf? e with
  | none => exact HoareE.throwE fun _ h => h ▸ hd
  | some idx =>
    have key : ∀ s' : State, s'.targets = s.targets.eraseIdx idx → s'.loads = s.loads.eraseIdx idx → s'.jobs = s.jobs → s'.queue = s.queue → QDone cfg All s' := by
      intro s' h1 h2 h3 h4 x hx j hj hr e' _ ⟨l, h5, h6⟩
      refine hd x (h4 ▸ hx) j (h3 ▸ hj) hr e' trivial ⟨l, ?_, h6⟩
      unfold HasLoad at h5
      rw [h1, h2] at h5
      exact mem_eraseIdx_zip _ _ _ _ h5
    refine HoareE.emit fun s₁ h => ?_
    subst h
    refine HoareE.modS fun s₂ h => ?_
    subst h
    refine HoareE.lookupE (fun _ s h => by subst h; exact key _ rfl rfl rfl rfl) fun p _ => ?_
    refine HoareE.ite (fun _ => HoareE.modS_last fun s h => by subst h; exact key _ rfl rfl rfl rfl) fun _ => ?_
    refine HoareE.lookupE (fun _ s h => by subst h; exact key _ rfl rfl rfl rfl) fun c _ => ?_
    refine HoareE.modS fun s₃ h => ?_
    subst h
    refine HoareE.lookupE (fun _ s h => by subst h; exact key _ rfl rfl rfl rfl) fun f _ => ?_
    exact HoareE.modS_last fun s h => by subst h; exact key _ rfl rfl rfl rfl

theorem LeX.same (m : MsgId) (s : State) : LeX m s s := ⟨rfl, rfl, rfl, fun _ _ => rfl, fun j' hj' => ⟨j', hj', rfl, rfl⟩⟩

theorem jobTimeout_work (m : MsgId) (tid : Nat) {s₀ : State} (hw : WF s₀) (hd : QDone cfg All s₀) :
    HoareE (fun s => s = s₀) (jobTimeout cfg n m tid) (fun _ => QDone cfg All) AnyErr := by
  unfold jobTimeout
  refine HoareE.getJob (fun _ _ _ => trivial) fun s j hs hj => ?_
  subst hs
  refine HoareE.ite (fun _ => HoareE.pure fun _ h => h ▸ hd) fun _ => ?_
  refine HoareE.getS fun s₁ h => ?_
  subst h
  refine HoareE.ite (fun hm => ?_) fun _ => HoareE.pure fun _ h => h ▸ hd
  exact ((workAt n).fail m .timeout s₁ s₁ hw (LeX.same m s₁) hm).conseq (fun _ h => h) (fun _ _ h => h.2.1 _ hd) (fun _ _ h => h)

/-- `maybe_run` and `save_unmet` -/
theorem tryOrKeep_work (m : MsgId) {s₀ : State} (hw : WF s₀) {x : M Unit} {Q : Unit → State → Prop}
    (hx : ∀ s₁, Le s₀ s₁ → (∀ P, QDone cfg P s₀ → QDone cfg P s₁) → HoareE (fun s => s = s₁) x Q AnyErr) :
    HoareE (fun s => s = s₀) (do
      if ← maybeRun cfg n m then x
      else do
        let s ← getS
        if m ∉ s.allFailed then
          saveUnmet m
          x
        else x) Q AnyErr := by
  refine HoareE.bind ((workAt n).may m s₀ hw) fun b s₁ h => ?_
  obtain ⟨h1, h2, h3⟩ := h
  cases b with
  | true => exact hx s₁ h1 h2 s₁ rfl
  | false =>
    refine (HoareE.getS fun s₂ h => ?_ : HoareE (fun s => s = s₁) (do
        let s ← getS
        if m ∉ s.allFailed then
          saveUnmet m
          x
        else x) Q AnyErr) s₁ rfl
    subst h
    refine HoareE.ite (fun _ => ?_) fun _ => hx s₂ h1 h2
    refine HoareE.bind (saveUnmet_work (cfg := cfg) m s₂) fun _ s₃ h => ?_
    exact hx s₃ (h1.trans h.1) (fun P hP => h.2 P (h2 P hP) (h3 rfl).any) s₃ rfl

theorem handleUnmet_work (e : Engine) (m : MsgId) (c : Cause) {s₀ : State} (hw : WF s₀) (hn : Nearly cfg e s₀) :
    HoareE (fun s => s = s₀) (handleUnmet cfg n e m c) (fun _ => QDone cfg All) AnyErr := by
  unfold handleUnmet
  refine HoareE.getS fun s hs => ?_
  subst hs
  refine HoareE.lookupE (fun _ _ _ => trivial) fun p _ => ?_
  refine HoareE.ite (fun _ => HoareE.bind (R := fun _ _ => False) (HoareE.throwE fun _ _ => trivial) fun _ _ h => h.elim) fun _ => ?_
  refine HoareE.modS fun s₂ hs₂ => ?_
  subst hs₂
  refine HoareE.getJob (fun _ _ _ => trivial) fun s₃ j hs₃ hj => ?_
  subst hs₃
  refine HoareE.emit fun s₄ hs₄ => ?_
  subst hs₄
  refine HoareE.setJob fun s₅ hs₅ => ?_
  subst hs₅
  have hj : s₂.jobs m = some j := hj
  have tail : ∀ s₁, Le s₂ s₁ → Nearly cfg e s₁ → HoareE (fun s => s = s₁) (do
      if cfg.hwm ≠ 0 then
        let s ← getS
        match s.targets.idxOf? e with
        | none => pure ()
        | some idx =>
          if s.loads.getD idx 0 = (cfg.hwm : Int) - 1 then updateGraph cfg n none) (fun _ => QDone cfg All) AnyErr := by
    intro s₁ hle h
    refine HoareE.ite (fun h0 => ?_) fun h0 => HoareE.pure fun s hs => ?_
    · refine HoareE.getS fun s hs => ?_
      subst hs
      cases hi : s.targets.idxOf? e with
      | none =>
        refine HoareE.pure fun s' hs => ?_
        subst hs
        refine h.full fun _ l hl => ?_
        have : e ∈ s'.targets := (List.of_mem_zip hl).1
        rw [List.idxOf?_eq_none_iff] at hi
        exact absurd this hi
      | some idx =>
        have hget := idxOf?_get hi
        have hw1 := hle.wf hw
        refine HoareE.ite (fun _ => ?_) fun hne => HoareE.pure fun s' hs => ?_
        · exact ((workAt n).upd none s hw1).conseq (fun _ h => h) (fun _ _ h => h.2.2 (Or.inl rfl)) (fun _ _ h => h)
        · subst hs
          refine h.full fun _ l hl hh => hne ?_
          have hlt : idx < s'.targets.length := (List.getElem?_eq_some_iff.mp hget).1
          obtain ⟨l', hl'⟩ : ∃ l, s'.loads[idx]? = some l := ⟨_, List.getElem?_eq_getElem (by rw [hw1.1.1]; exact hlt)⟩
          have h2 : HasLoad s' e l' := List.mem_of_getElem? (i := idx) (by rw [List.getElem?_zip_eq_some]; exact ⟨hget, hl'⟩)
          rw [List.getD_eq_getElem?_getD, hl', ← hh, hasLoad_unique hw1 hl h2]
          rfl
    · subst hs
      exact h.full fun hh => absurd hh h0
  have hle : Le s₂ { s₂ with
      pending := upd s₂.pending e (some (p.filter (· ≠ m)))
      trace := s₂.trace ++ [.retry e m c]
      jobs := upd s₂.jobs m (some { j with blacklist := insertSet e j.blacklist }) } := by
    refine ⟨(Le.refl s₂).loads, fun x j' hx => ?_, id⟩
    by_cases hxm : x = m
    · subst hxm
      simp only [upd, if_true, Option.some.injEq] at hx
      subst hx
      refine ⟨j, hj, rfl, rfl, ?_⟩
      cases hr : j.removed with
      | true => exact Or.inl rfl
      | false =>
        refine Or.inr ⟨rfl, fun e' h => ?_⟩
        rcases h with h | h
        · exact Or.inl ((mem_insertSet _ _ _).mpr (Or.inr h))
        · exact Or.inr h
    · simp only [upd, hxm, if_false] at hx
      exact (Le.refl s₂).jobs x j' hx
  have hn' := hn.congr hle rfl
  refine HoareE.ite (fun _ => ?_) fun _ => ?_
  · refine HoareE.addQueueMap fun s₆ hs₆ => ?_
    subst hs₆
    refine HoareE.bind ((workAt n).fail m .impossible _ _ (hle.wf hw) (by exact ⟨rfl, rfl, rfl, fun _ _ => rfl, fun j' hj' => ⟨j', hj', rfl, rfl⟩⟩) (by simp)) fun _ s₇ h₇ => ?_
    exact tail s₇ (hle.trans h₇.1) (hn'.step h₇.1 h₇.2.1) s₇ rfl
  · exact tryOrKeep_work m (hle.wf hw) fun s₁ h1 h2 => tail s₁ (hle.trans h1) (hn'.step h1 h2)

theorem handleResult_work (e : Engine) (m : MsgId) (ok : Bool) {s₀ : State} (hw : WF s₀) (hn : Nearly cfg e s₀) :
    HoareE (fun s => s = s₀) (handleResult cfg n e m ok) (fun _ => QDone cfg All) AnyErr := by
  have fin : ∀ s₁ : State, Le s₀ s₁ → s₁.queue = s₀.queue → HoareE (fun s => s = s₁) (updateGraph cfg n (some m)) (fun _ => QDone cfg All) AnyErr := by
    intro s₁ hle hq
    refine ((workAt n).upd (some m) s₁ (hle.wf hw)).conseq (fun _ h => h) (fun _ s' h => ?_) (fun _ _ h => h)
    have h1 : Nearly cfg e s₁ := hn.congr hle hq
    by_cases hc : cfg.hwm ≠ 0 ∧ s₁.loads.any (fun l => l = (cfg.hwm : Int) - 1) = true
    · exact h.2.2 (Or.inr hc)
    · refine h.2.1 _ (h1.full fun h0 l hl hh => hc ⟨h0, ?_⟩)
      rw [List.any_eq_true]
      exact ⟨l, (List.of_mem_zip hl).2, by simpa using hh⟩
  unfold handleResult
  refine HoareE.emit fun s hs => ?_
  subst hs
  refine HoareE.getS fun s₁ hs₁ => ?_
  subst hs₁
  refine HoareE.lookupE (fun _ _ _ => trivial) fun p _ => ?_
  refine HoareE.ite (fun _ => HoareE.bind (R := fun _ _ => False) (HoareE.throwE fun _ _ => trivial) fun _ _ h => h.elim) fun _ => ?_
  refine HoareE.modS fun s₂ hs₂ => ?_
  subst hs₂
  refine HoareE.ite (fun _ => ?_) fun _ => ?_ <;>
  · refine HoareE.lookupE (fun _ _ _ => trivial) fun c _ => ?_
    refine HoareE.modS fun s₃ hs₃ => ?_
    subst hs₃
    refine HoareE.modS fun s₄ hs₄ => ?_
    subst hs₄
    exact fin _ (Le.congr rfl rfl rfl) rfl

theorem dispatchResult_work (e : Engine) (m : MsgId) (ok dm : Bool) {s₀ : State} (hw : WF s₀) (hd : QDone cfg All s₀) :
    HoareE (fun s => s = s₀) (dispatchResult cfg n e m ok dm) (fun _ => QDone cfg All) AnyErr := by
  unfold dispatchResult
  refine HoareE.getS fun s hs => ?_
  subst hs
  have rest : ∀ s₁, WF s₁ → Nearly cfg e s₁ → HoareE (fun s => s = s₁) (if dm = true then do
      let r ← lookupE (s.retries m)
      if !ok ∧ r > 0 then
        modS fun s => { s with retries := upd s.retries m (some (r - 1)) }
        handleUnmet cfg n e m .failure
      else
        modS fun s => { s with retries := upd s.retries m none }
        handleResult cfg n e m ok
    else handleUnmet cfg n e m .unmet) (fun _ => QDone cfg All) AnyErr := by
    intro s₁ hw1 hn1
    refine HoareE.ite (fun _ => ?_) fun _ => handleUnmet_work e m _ hw1 hn1
    refine HoareE.lookupE (fun _ _ _ => trivial) fun r _ => ?_
    refine HoareE.ite (fun _ => HoareE.modS fun s₂ h => ?_) fun _ => HoareE.modS fun s₂ h => ?_
    · subst h
      have hle : Le s₂ { s₂ with retries := upd s₂.retries m (some (r - 1)) } := Le.congr rfl rfl rfl
      exact handleUnmet_work e m _ (hle.wf hw1) (hn1.congr hle rfl)
    · subst h
      have hle : Le s₂ { s₂ with retries := upd s₂.retries m none } := Le.congr rfl rfl rfl
      exact handleResult_work e m ok (hle.wf hw1) (hn1.congr hle rfl)
  cases hi : s.targets.idxOf? e with
  | none => exact rest s hw (Or.inl hd)
  | some idx =>
    refine HoareE.modS fun s' hs => ?_
    subst hs
    obtain ⟨h1, h2⟩ := hd.finish hw (idxOf?_get hi)
    exact rest _ h2 h1

theorem dispatchSubmission_work (m : MsgId) (sub : Submission) {s₀ : State} (hnd : NoDeps sub) (hw : WF s₀) (hd : QDone cfg All s₀) (hm : m ∉ s₀.queue) :
    HoareE (fun s => s = s₀) (dispatchSubmission cfg n m sub) (fun _ => QDone cfg All) AnyErr := by
  unfold dispatchSubmission
  refine HoareE.emit fun s h => ?_
  subst h
  refine HoareE.modS fun s₁ hs₁ => ?_
  subst hs₁
  refine HoareE.ite (fun hc => HoareE.bind (R := fun _ _ => False) (HoareE.throwE fun _ _ => trivial) fun _ _ h => h.elim) fun _ => ?_
  refine HoareE.getS fun s₂ hs₂ => ?_
  refine HoareE.ite (fun hc => HoareE.bind (R := fun _ _ => False) (HoareE.throwE fun _ _ => trivial) fun _ _ h => h.elim) fun _ => ?_
  have haft := reduceAfter_noDeps s₂ hnd
  generalize reduceAfter s₂ sub.after = aft at *
  refine HoareE.setJob fun s₃ hs₃ => ?_
  subst hs₃ hs₂
  have key : ∀ s' : State, s'.targets = s.targets → s'.loads = s.loads → s'.queue = s.queue → (∀ x, x ≠ m → s'.jobs x = s.jobs x) →
      (∀ j, s'.jobs m = some j → j.after.ids = [] ∧ j.follow.ids = []) → WF s' ∧ QDone cfg All s' := by
    intro s' h1 h2 h3 h4 h5
    refine ⟨⟨by rw [h1, h2]; exact hw.1, fun x j hx => ?_⟩, fun x hx j hj hr e _ hroom => ?_⟩
    · by_cases hxm : x = m
      · subst hxm; exact h5 j hx
      · rw [h4 x hxm] at hx; exact hw.2 x j hx
    · rw [h3] at hx
      have hxm : x ≠ m := fun hh => hm (hh ▸ hx)
      rw [h4 x hxm] at hj
      refine hd x hx j hj hr e trivial ?_
      unfold Room HasLoad at hroom
      rw [h1, h2] at hroom
      exact hroom
  obtain ⟨hw3, hd3⟩ := key { s with
      trace := s.trace ++ [.submitted m sub]
      allIds := insertSet m s.allIds
      retries := upd s.retries m (some sub.retries)
      jobs := upd s.jobs m (some { targets := sub.targets, after := aft, follow := sub.follow, hasTimeout := sub.hasTimeout, timestamp := sub.timestamp }) }
    rfl rfl rfl (fun x hx => upd_ne _ _ hx) (fun j hj => by
      simp only [upd, if_true, Option.some.injEq] at hj
      subst hj
      exact ⟨haft, hnd.2.1⟩)
  split
  · refine HoareE.addQueueMap fun s₄ hs₄ => ?_
    have hw4 : WF s₄ := by rw [hs₄]; exact hw3
    have hd4 : QDone cfg All s₄ := by rw [hs₄]; exact hd3
    clear hs₄
    exact ((workAt n).fail m _ s₄ { s₄ with queueMap := insertSet m s₄.queueMap } hw4 ⟨rfl, rfl, rfl, fun _ _ => rfl, fun j' hj' => ⟨j', hj', rfl, rfl⟩⟩ (by simp)).conseq
      (fun _ h => h) (fun _ _ h => h.2.1 _ hd4) (fun _ _ h => h)
  · refine HoareE.ite (fun _ => ?_) fun hc => ?_
    · refine HoareE.bind ((workAt n).may m _ hw3) fun b s₄ h => ?_
      obtain ⟨h1, h2, h3⟩ := h
      cases b with
      | true => exact h2 _ hd3
      | false =>
        refine (HoareE.getS fun s₅ h => ?_ : HoareE (fun s => s = s₄) (do
          let s ← getS
          if m ∉ s.allFailed then saveUnmet m) (fun _ => QDone cfg All) AnyErr) s₄ rfl
        subst h
        refine HoareE.ite (fun _ => ?_) fun _ => HoareE.pure fun s h => h ▸ h2 _ hd3
        exact (saveUnmet_work (cfg := cfg) m s₅).conseq (fun _ h => h) (fun _ _ h => h.2 _ (h2 _ hd3) (h3 rfl)) (fun _ _ h => h)
    · refine absurd ?_ hc
      simp [Dep.check, haft]

theorem Inv.wf {D : Prop} {g : Ghost} (h : Inv cfg D g s) (hD : D) : WF s :=
  ⟨⟨by rw [h.load, List.length_map], h.tnd⟩, (h.dep hD).2⟩

theorem strandedLoop_work {D : Prop} (hL : LocAt cfg D n) (hD : D) (e : Engine) (ms : List MsgId) : ∀ q, Enough L u (q + ms.length) n →
    HoareE (fun s => (Inv cfg D (top D [e] ms) s ∧ FInv L u q s) ∧ QDone cfg All s) (strandedLoop cfg n e ms) (fun _ => QDone cfg All) (fun _ _ => False) := by
  induction ms with
  | nil => intro q _; exact HoareE.pure fun _ h => h.2
  | cons m ms ih =>
    intro q hn
    simp only [List.length_cons] at hn
    have ih' := ih (q + 1) (by rw [Nat.add_right_comm, Nat.add_assoc]; exact hn)
    unfold strandedLoop
    refine HoareE.getS fun s h => ?_
    obtain ⟨⟨h, hF⟩, hd⟩ := h
    obtain ⟨a1, a2, a3, a4, a5⟩ := h.sin e (by simp [top])
    refine HoareE.lookupE (fun hn => absurd hn a4) fun p hp => ?_
    have hpa := h.ps e p hp
    refine HoareE.ite (fun hm => ?_) fun hm => ?_
    · rw [hpa] at hm
      refine HoareE.emit fun s₁ hs₁ => ?_
      subst hs₁
      refine HoareE.bind (R := fun _ s => (Inv cfg D (top D [e] ms) s ∧ FInv L u (q + 1) s) ∧ QDone cfg All s) ?_ fun _ => ih'
      have hF' : FInv L u q { s₁ with trace := s₁.trace ++ [.stranded e m] } := ⟨hF.ids, hF.grn, hF.pen, hF.len, hF.un, hF.ql⟩
      have hle : Le s₁ { s₁ with trace := s₁.trace ++ [.stranded e m] } := Le.congr rfl rfl rfl
      refine logErrorsE_pres ((((dispatchResult_loc hL (e := e) (m := m) (ok := false) (dm := true) (A' := ms) h (Or.inr rfl) hm ?_).and
        ((dispatchResult_fuel (hn.mono (Nat.le_refl _) (by omega)) e m false true).at hF')).and (dispatchResult_work e m false true (hle.wf (h.wf hD)) (hd.le hle rfl))).conseq
          (fun s hs => ⟨⟨hs, hs⟩, hs⟩) (fun _ _ h => h) (fun _ _ h => absurd hD (h.1.1 h.1.2.1).1))
      intro e' he' x hx
      simp only [List.mem_singleton] at he'
      subst he'
      rw [assigned_snoc] at hx
      simp only [if_true] at hx
      have hnd := h.nod e'
      have hxm : x ≠ m := fun hh => by
        rw [hh] at hx
        exact (hnd.mem_erase_iff.mp hx).1 rfl
      have := a5 x (List.mem_of_mem_erase hx)
      rcases List.mem_cons.mp this with h1 | h1
      · exact absurd h1 hxm
      · exact h1
    · refine ih'.at ⟨⟨h.left ?_, hF.up⟩, hd⟩
      intro e' he' x hx
      simp only [List.mem_singleton] at he'
      subst he'
      have := a5 x hx
      rcases List.mem_cons.mp this with h1 | h1
      · rw [h1, ← hpa] at hx; exact absurd hx hm
      · exact h1

theorem handleStranded_work {D : Prop} (hL : LocAt cfg D n) (hD : D) (e : Engine) (hn : Enough L u (q + L) n) {s₀ : State} (h : Inv cfg D (top D [] A) s₀) (he : e ∈ s₀.strandTimers)
    (hF : FInv L u q s₀) (hd : QDone cfg All s₀) :
    HoareE (fun s => s = { s₀ with strandTimers := s₀.strandTimers.erase e }) (handleStranded cfg n e) (fun _ => QDone cfg All) AnyErr := by
  unfold handleStranded
  refine HoareE.getS fun s hs => ?_
  subst hs
  obtain ⟨_, _, hc, hf, hp⟩ := h.stt e he
  refine HoareE.lookupE (fun hn => absurd hn hp) fun p hp' => ?_
  have hpa := h.ps e p hp'
  obtain ⟨a, b⟩ := hF.pen e p hp'
  have hl : p.length ≤ L := Nat.le_trans (nodup_length_le a b) hF.len
  have h1 := h.strand he
  rw [← hpa] at h1
  have hle : Le s₀ { s₀ with strandTimers := s₀.strandTimers.erase e } := Le.congr rfl rfl rfl
  refine HoareE.bind (((strandedLoop_work hL hD e p q (hn.mono (Nat.le_refl _) (by omega))).at ⟨⟨h1, ⟨hF.ids, hF.grn, hF.pen, hF.len, hF.un, hF.ql⟩⟩, hd.le hle rfl⟩).conseq
    (fun _ h => h) (fun _ _ h => h) (fun _ _ h => h.elim)) fun _ => ?_
  refine HoareE.getS fun s₁ h₁ => ?_
  refine HoareE.lookupE (fun _ _ _ => trivial) fun c hc => ?_
  refine HoareE.modS fun s₃ hs₃ => ?_
  subst hs₃
  refine HoareE.lookupE (fun _ _ _ => trivial) fun f hf => ?_
  refine HoareE.modS_last fun s hs => ?_
  subst hs
  exact h₁.le (Le.congr rfl rfl rfl) rfl

theorem run_work {D : Prop} (hD : D) (hP : ∀ tr l, l ≠ [] → cfg.pick tr l < l.length) (evs : List Event) (hf : Fresh evs)
    (hd : ∀ m sub, Event.submit m sub ∈ evs → NoDeps sub) (hp : Prompt cfg evs) : QDone cfg All (run cfg evs) := by
  induction evs using snoc_induction with
  | nil => intro x hx; cases hx
  | snoc evs ev ih =>
    have hq := ih hf.snoc (fun m sub hm => hd m sub (by simp [hm])) hp.snoc
    have h := run_loc (D := D) (Or.inl hD) (fun _ => hP) evs hf.snoc (fun _ m sub hm => hd m sub (by simp [hm])) hp.snoc
    have hw := h.wf hD
    have hb := run_base cfg evs hf.snoc
    have hfr := hf.freshIn hb.1 hb.2
    have hpm : ∀ e m ok dm, ev = .result e m ok dm → m ∈ assigned e (run cfg evs).trace := fun e m ok dm hev => hp evs e m ok dm [] (by rw [hev])
    clear hp ih hf hb
    rw [run_snoc]
    have hok := run_ok (cfg := cfg) evs
    have hL := locAt (cfg := cfg) (D := D) (Or.inl hD) (fun _ => hP) (fuelFor (run cfg evs))
    have h2 := handle_fuel (cfg := cfg) (n := fuelFor (run cfg evs)) (run cfg evs) ev hok (Nat.le_refl _)
    have hE := enough_fuelFor (run cfg evs) (Nat.le_refl _)
    have hE0 : ∀ q, q ≤ (run cfg evs).queue.length + (run cfg evs).allIds.length → Enough (run cfg evs).allIds.length (run cfg evs).allIds.length q (fuelFor (run cfg evs)) := fun q hq =>
      (hE.mono (by omega) (by omega)).monoL (by omega)
    generalize hn : fuelFor (run cfg evs) = n at *
    have hstep : step cfg (run cfg evs) ev = (handle cfg n ev (run cfg evs)).2 := by unfold step; rw [hn]
    rw [hstep]
    generalize run cfg evs = s at *
    cases ev with
    | submit m sub =>
      have hmq : m ∉ s.queue := fun hh => by
        obtain ⟨_, j, hj, _⟩ := h.qin m (by simpa [top] using hh)
        rw [(h.fresh hfr).1] at hj
        cases hj
      have hl := (dispatchSubmission_loc hL m sub fun _ => hd m sub (by simp)).at ⟨h, hfr⟩
      have hwk := dispatchSubmission_work (cfg := cfg) (n := n) m sub (hd m sub (by simp)) hw hq hmq
      exact ((hl.and h2).and hwk).final (fun _ _ h => h.2) (fun _ _ h => absurd hD (h.1.1 h.1.2.1).1) ⟨⟨rfl, rfl⟩, rfl⟩
    | register e =>
      have hl := (registerEngine_loc hL e).at ⟨h, hfr⟩
      have hwk := registerEngine_work (cfg := cfg) (n := n) e hw (h.fre e hfr).2.1
      exact ((hl.and h2).and hwk).final (fun _ _ h => h.2) (fun _ _ h => absurd hD (h.1.1 h.1.2.1).1) ⟨⟨rfl, rfl⟩, rfl⟩
    | unregister e => exact (unregisterEngine_work e hq).final (fun _ _ h => h) (fun _ _ h => h) rfl
    | result e m ok dm =>
      have hm : m ∈ assigned e s.trace := hpm e m ok dm rfl
      have hle : Le s { s with trace := s.trace ++ [.received e m ok dm] } := Le.congr rfl rfl rfl
      have hl : HoareE (fun s' => s' = s) (handle cfg n (.result e m ok dm)) (fun _ => Inv cfg D (top D [] [])) (TErr cfg D [] []) := by
        refine HoareE.emit fun s₁ hs₁ => ?_
        subst hs₁
        exact dispatchResult_loc hL h (Or.inl ⟨ok, dm, rfl⟩) hm (by simp)
      have hwk : HoareE (fun s' => s' = s) (handle cfg n (.result e m ok dm)) (fun _ => QDone cfg All) AnyErr := by
        refine HoareE.emit fun s₁ hs₁ => ?_
        subst hs₁
        exact dispatchResult_work e m ok dm (hle.wf hw) (hq.le hle rfl)
      exact ((hl.and h2).and hwk).final (fun _ _ h => h.2) (fun _ _ h => absurd hD (h.1.1 h.1.2.1).1) ⟨⟨rfl, rfl⟩, rfl⟩
    | strandTimer e =>
      have hwk : HoareE (fun s' => s' = s) (handle cfg n (.strandTimer e)) (fun _ => QDone cfg All) (fun _ _ => False) := by
        refine HoareE.getS fun s₁ hs₁ => ?_
        subst hs₁
        refine HoareE.ite (fun he => ?_) fun _ => HoareE.pure fun s hs' => hs' ▸ hq
        refine HoareE.modS fun s₂ hs₂ => ?_
        subst hs₂
        exact ((handleStranded_loc hL e (hE0 _ (Nat.le_refl _)) h he hok).and (handleStranded_work hL hD e (hE0 _ (Nat.le_refl _)) h he hok hq)).conseq
          (fun _ h => ⟨h, h⟩) (fun _ _ h => h.2) (fun _ _ h => h.1.elim)
      exact hwk.final (fun _ _ h => h) (fun _ _ h => h.elim) rfl
    | jobTimer m tid =>
      have hwk : HoareE (fun s' => s' = s) (handle cfg n (.jobTimer m tid)) (fun _ => QDone cfg All) (fun e s => e ≠ .fuel → QDone cfg All s) := by
        refine HoareE.getS fun s₁ hs₁ => ?_
        subst hs₁
        refine HoareE.ite (fun _ => ?_) fun _ => HoareE.pure fun s hs' => hs' ▸ hq
        refine HoareE.modS fun s₂ hs₂ => ?_
        subst hs₂
        have hle : Le s₂ { s₂ with jobTimers := s₂.jobTimers.erase (m, tid) } := Le.congr rfl rfl rfl
        have hq' := hq.le hle rfl
        have h' : Inv cfg D (top D [] []) { s₂ with jobTimers := s₂.jobTimers.erase (m, tid) } := { h with }
        have hw' := h'.wf hD
        generalize ({ s₂ with jobTimers := s₂.jobTimers.erase (m, tid) } : State) = s₃ at *
        unfold jobTimeout
        refine HoareE.getJob (fun s hs _ _ => hs ▸ hq') fun s j hs hj => ?_
        subst hs
        refine HoareE.ite (fun _ => HoareE.pure fun s' hs => hs ▸ hq') fun _ => ?_
        refine HoareE.getS fun s₁ hs₁ => ?_
        subst hs₁
        refine HoareE.ite (fun hm => ?_) fun _ => HoareE.pure fun s' hs => hs ▸ hq'
        refine (((hL.fail' m .timeout rfl).at h').and ((workAt n).fail m .timeout _ _ hw' (LeX.same m _) hm)).conseq (fun _ h => ⟨h, h⟩) (fun _ _ h => h.2.2.1 _ hq')
          (fun _ _ h hne => absurd hD (h.1 hne).1)
      exact (hwk.and h2).final (fun _ _ h => h.1) (fun _ _ h => h.1 h.2.1) ⟨rfl, rfl⟩

end IPP.Sched
