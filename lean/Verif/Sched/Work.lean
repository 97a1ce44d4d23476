import Verif.Sched.LocProps

/-!
# No engine idles while a task could run on it (lemmas)

For tasks without dependencies: between handlers, every task in the queue is barred from every engine that has room.
-/
namespace IPP.Sched

variable {cfg : Config} {s s' s'' : State}

/-- engine `e` is registered and has load `l` -/
def HasLoad (s : State) (e : Engine) (l : Int) : Prop := (e, l) ∈ s.targets.zip s.loads

/-- engine `e` is registered and below the high water mark -/
def Room (cfg : Config) (s : State) (e : Engine) : Prop := ∃ l, HasLoad s e l ∧ (cfg.hwm = 0 ∨ l < (cfg.hwm : Int))

/-- the job may not go to `e` -/
def Inel (j : Job) (e : Engine) : Prop := e ∈ j.blacklist ∨ (j.targets ≠ [] ∧ e ∉ j.targets)

/-- the task may go to none of the engines in `P` that have room -/
def Done (cfg : Config) (P : Engine → Prop) (s : State) (x : MsgId) : Prop :=
  ∀ j, s.jobs x = some j → j.removed = false → ∀ e, P e → Room cfg s e → Inel j e

def QDone (cfg : Config) (P : Engine → Prop) (s : State) : Prop := ∀ x ∈ s.queue, Done cfg P s x

/-- all engines -/
abbrev All : Engine → Prop := fun _ => True

/-- `s'` has no more room than `s`, and no task may go where it could not in `s`. -/
structure Le (s s' : State) : Prop where
  loads : ∀ e l', HasLoad s' e l' → ∃ l, HasLoad s e l ∧ l ≤ l'
  jobs : ∀ x j', s'.jobs x = some j' → ∃ j, s.jobs x = some j ∧ j'.after = j.after ∧ j'.follow = j.follow ∧
    (j'.removed = true ∨ (j.removed = false ∧ ∀ e, Inel j e → Inel j' e))
  len : (s.loads.length = s.targets.length ∧ s.targets.Nodup) → (s'.loads.length = s'.targets.length ∧ s'.targets.Nodup)

/-- lists of equal length, no engine twice, and no dependencies -/
def WF (s : State) : Prop := (s.loads.length = s.targets.length ∧ s.targets.Nodup) ∧ ∀ m j, s.jobs m = some j → j.after.ids = [] ∧ j.follow.ids = []

theorem Le.refl (s : State) : Le s s where
  loads := fun _ l' h => ⟨l', h, Int.le_refl _⟩
  jobs := fun _ j h => ⟨j, h, rfl, rfl, by
    cases hr : j.removed with
    | true => exact Or.inl rfl
    | false => exact Or.inr ⟨rfl, fun _ h => h⟩⟩
  len := id

theorem Le.trans (h : Le s s') (h' : Le s' s'') : Le s s'' where
  loads := fun e l'' hl => by
    obtain ⟨l', h1, h2⟩ := h'.loads e l'' hl
    obtain ⟨l, h3, h4⟩ := h.loads e l' h1
    exact ⟨l, h3, Int.le_trans h4 h2⟩
  jobs := fun x j'' hj => by
    obtain ⟨j', h1, h2, h3, h4⟩ := h'.jobs x j'' hj
    obtain ⟨j, k1, k2, k3, k4⟩ := h.jobs x j' h1
    refine ⟨j, k1, h2.trans k2, h3.trans k3, ?_⟩
    rcases h4 with h4 | ⟨h4, h5⟩
    · exact Or.inl h4
    · rcases k4 with k4 | ⟨k4, k5⟩
      · rw [k4] at h4; cases h4
      · exact Or.inr ⟨k4, fun e he => h5 e (k5 e he)⟩
  len := fun hl => h'.len (h.len hl)

/-- only engine lists and jobs matter -/
theorem Le.congr (ht : s'.targets = s.targets) (hl : s'.loads = s.loads) (hj : s'.jobs = s.jobs) : Le s s' := by
  have h := Le.refl s
  exact ⟨by unfold HasLoad; rw [ht, hl]; exact h.loads, by rw [hj]; exact h.jobs, by rw [ht, hl]; exact id⟩

theorem Le.room (h : Le s s') {e : Engine} (hr : Room cfg s' e) : Room cfg s e := by
  obtain ⟨l', h1, h2⟩ := hr
  obtain ⟨l, h3, h4⟩ := h.loads e l' h1
  refine ⟨l, h3, h2.imp id fun h => by omega⟩

theorem Done.le {P : Engine → Prop} {x : MsgId} (hd : Done cfg P s x) (h : Le s s') : Done cfg P s' x := by
  intro j' hj' hr' e he hroom
  obtain ⟨j, h1, _, _, h4⟩ := h.jobs x j' hj'
  rcases h4 with h4 | ⟨h4, h5⟩
  · rw [h4] at hr'; cases hr'
  · exact h5 e (hd j h1 h4 e he (h.room hroom))

theorem Done.any {P : Engine → Prop} {x : MsgId} (hd : Done cfg All s x) : Done cfg P s x := fun j hj hr e _ hroom => hd j hj hr e trivial hroom

theorem QDone.any {P : Engine → Prop} (hd : QDone cfg All s) : QDone cfg P s := fun x hx => (hd x hx).any

theorem QDone.le {P : Engine → Prop} (hd : QDone cfg P s) (h : Le s s') (hq : s'.queue = s.queue) : QDone cfg P s' :=
  fun x hx => (hd x (hq ▸ hx)).le h

theorem Le.wf (h : Le s s') (hw : WF s) : WF s' := by
  refine ⟨h.len hw.1, fun m j' hj' => ?_⟩
  obtain ⟨j, h1, h2, h3, _⟩ := h.jobs m j' hj'
  rw [h2, h3]; exact hw.2 m j h1

theorem Le.removed (h : Le s s') {m : MsgId} (hr : ∀ j, s.jobs m = some j → j.removed = true) : ∀ j, s'.jobs m = some j → j.removed = true := by
  intro j' hj'
  obtain ⟨j, h1, _, _, h4⟩ := h.jobs m j' hj'
  rcases h4 with h4 | ⟨h4, _⟩
  · exact h4
  · rw [hr j h1] at h4; cases h4

theorem Done.of_removed {P : Engine → Prop} {m : MsgId} (hr : ∀ j, s.jobs m = some j → j.removed = true) : Done cfg P s m :=
  fun j hj hn => by rw [hr j hj] at hn; cases hn

theorem Done.of_full {P : Engine → Prop} {m : MsgId} (hr : ∀ e, ¬ Room cfg s e) : Done cfg P s m := fun _ _ _ e _ h => absurd h (hr e)

/-- Room is what `available_engines` finds. -/
theorem room_index (hw : WF s) {e : Engine} (h : Room cfg s e) : ∃ i ∈ availableEngines cfg s, s.targets[i]? = some e ∧ ¬ (cfg.hwm ≠ 0 ∧ s.loads.getD i 0 = (cfg.hwm : Int)) := by
  obtain ⟨l, h1, h2⟩ := h
  obtain ⟨i, hi⟩ := List.getElem?_of_mem h1
  rw [List.getElem?_zip_eq_some] at hi
  obtain ⟨h3, h4⟩ := hi
  have hlt : i < s.targets.length := (List.getElem?_eq_some_iff.mp h3).1
  have hget : s.loads.getD i 0 = l := by rw [List.getD_eq_getElem?_getD, h4]; rfl
  refine ⟨i, ?_, h3, ?_⟩
  · unfold availableEngines
    split
    · simpa using hlt
    · rename_i hne
      refine List.mem_filter.mpr ⟨by simpa using hlt, ?_⟩
      rw [hget]
      simpa using h2.resolve_left hne
  · rintro ⟨h5, h6⟩
    rw [hget] at h6
    rcases h2 with h2 | h2
    · exact h5 h2
    · omega

theorem no_room (hw : WF s) (h : availableEngines cfg s = []) (e : Engine) : ¬ Room cfg s e := fun hr => by
  obtain ⟨i, hi, _⟩ := room_index hw hr
  rw [h] at hi; cases hi

theorem mem_eraseIdx_zip {α β : Type} (a : List α) (b : List β) (i : Nat) (p : α × β) (h : p ∈ (a.eraseIdx i).zip (b.eraseIdx i)) : p ∈ a.zip b := by
  induction a generalizing b i with
  | nil => simp at h
  | cons x a ih =>
    cases b with
    | nil => simp at h
    | cons y b =>
      cases i with
      | zero => rw [List.zip_cons_cons]; exact List.mem_cons_of_mem _ h
      | succ i =>
        simp only [List.eraseIdx_cons_succ, List.zip_cons_cons, List.mem_cons] at h ⊢
        exact h.imp id (ih b i)

theorem addJob_le (idx : Nat) (s : State) (hl : s.loads.length = s.targets.length) : Le s (addJob idx s) := by
  unfold addJob
  split
  · rename_i t l ht hld
    have hti := (List.getElem?_eq_some_iff.mp ht).1
    have hlen : (s.targets.eraseIdx idx).length = (s.loads.eraseIdx idx).length := by
      rw [List.length_eraseIdx_of_lt hti, List.length_eraseIdx_of_lt (by omega), hl]
    refine ⟨fun e l' h => ?_, (Le.refl s).jobs, fun h => ⟨by simp [hlen], ?_⟩⟩
    rotate_left
    · refine List.nodup_append.mpr ⟨h.2.sublist (List.eraseIdx_sublist _ _), by simp, fun x hx y hy hxy => ?_⟩
      rw [List.mem_singleton] at hy
      subst hxy hy
      exact not_mem_eraseIdx h.2 ht hx
    unfold HasLoad at h
    simp only at h
    rw [List.zip_append hlen] at h
    rcases List.mem_append.mp h with h | h
    · exact ⟨l', mem_eraseIdx_zip _ _ _ _ h, Int.le_refl _⟩
    · simp only [List.zip_cons_cons, List.zip_nil_right, List.mem_singleton, Prod.mk.injEq] at h
      obtain ⟨rfl, rfl⟩ := h
      refine ⟨l, ?_, by omega⟩
      have : (s.targets.zip s.loads)[idx]? = some (e, l) := by rw [List.getElem?_zip_eq_some]; exact ⟨ht, hld⟩
      exact List.mem_of_getElem? this
  · exact Le.refl s

abbrev AnyErr : Err → State → Prop := fun _ _ => True

theorem submitTask_work (hw : WF s) (m : MsgId) (is : List Nat) :
    HoareE (fun x => x = s) (submitTask cfg m is) (fun _ s' => Le s s' ∧ s'.queue = s.queue) AnyErr := by
  unfold submitTask
  refine HoareE.getS fun s₁ hs => ?_
  subst hs
  dsimp only
  split
  · exact HoareE.throwE fun _ _ => trivial
  split
  · exact HoareE.throwE fun _ _ => trivial
  rename_i idx _ _ t _
  refine HoareE.emit fun s₂ h₂ => ?_
  subst h₂
  refine HoareE.modS fun s₃ h₃ => ?_
  subst h₃
  refine HoareE.lookupE (fun _ _ _ => trivial) fun p _ => HoareE.modS_last fun s' hs => ?_
  subst hs
  refine ⟨?_, by simp⟩
  have h1 : Le s₂ { s₂ with trace := s₂.trace ++ [Obs.send t m] } := Le.congr rfl rfl rfl
  have h2 := addJob_le idx { s₂ with trace := s₂.trace ++ [Obs.send t m] } hw.1.1
  exact (h1.trans h2).trans (Le.congr rfl rfl rfl)

theorem canRun_work (j : Job) (hf : j.follow.ids = []) (i : Nat) (s₀ : State) :
    HoareE (fun s => s = s₀) (canRun cfg j i) (fun b s => s = s₀ ∧ (b = false → ∀ e, s₀.targets[i]? = some e →
      (cfg.hwm ≠ 0 ∧ s₀.loads.getD i 0 = (cfg.hwm : Int)) ∨ Inel j e)) AnyErr := by
  unfold canRun
  refine HoareE.getS fun s hs => ?_
  subst hs
  refine HoareE.ite (fun h => HoareE.pure fun _ hs => ⟨hs, fun _ _ _ => Or.inl h⟩) fun _ => ?_
  cases ht : s.targets[i]? with
  | none => exact HoareE.throwE fun _ _ => trivial
  | some t =>
    dsimp only
    refine HoareE.ite (fun h => HoareE.pure fun _ hs => ⟨hs, fun _ e he => by cases he; exact Or.inr (Or.inl h)⟩) fun _ => ?_
    refine HoareE.ite (fun h => HoareE.pure fun _ hs => ⟨hs, fun _ e he => by cases he; exact Or.inr (Or.inr h)⟩) fun _ => ?_
    refine HoareE.lookupE (fun _ _ _ => trivial) fun c _ => HoareE.lookupE (fun _ _ _ => trivial) fun f _ => HoareE.pure fun _ hs => ⟨hs, fun hb => ?_⟩
    simp [Dep.check, hf] at hb

theorem filterCanRun_work (j : Job) (hf : j.follow.ids = []) (s₀ : State) (is : List Nat) :
    HoareE (fun s => s = s₀) (filterCanRun cfg j is) (fun r s => s = s₀ ∧ (r = [] → ∀ i ∈ is, ∀ e, s₀.targets[i]? = some e →
      (cfg.hwm ≠ 0 ∧ s₀.loads.getD i 0 = (cfg.hwm : Int)) ∨ Inel j e)) AnyErr := by
  induction is with
  | nil => exact HoareE.pure fun _ h => ⟨h, by simp⟩
  | cons i is ih =>
    unfold filterCanRun
    refine HoareE.bind (canRun_work j hf i s₀) fun b => ?_
    intro s₁ h₁
    refine (HoareE.bind (R := fun r s => s = s₀ ∧ (r = [] → ∀ i ∈ is, ∀ e, s₀.targets[i]? = some e →
      (cfg.hwm ≠ 0 ∧ s₀.loads.getD i 0 = (cfg.hwm : Int)) ∨ Inel j e)) ih fun r => HoareE.pure fun s h => ?_) s₁ h₁.1
    refine ⟨h.1, fun hr x hx => ?_⟩
    cases b with
    | true => simp at hr
    | false =>
      rcases List.mem_cons.mp hx with rfl | hx
      · exact h₁.2 rfl
      · exact h.2 (by simpa using hr) x hx

theorem destsOf_work (ms : List MsgId) (s₀ : State) : HoareE (fun s => s = s₀) (destsOf ms) (fun _ s => s = s₀) AnyErr := by
  induction ms with
  | nil => exact HoareE.pure fun _ h => h
  | cons m ms ih =>
    unfold destsOf
    refine HoareE.getS fun s hs => ?_
    subst hs
    refine HoareE.lookupE (fun _ _ _ => trivial) fun d _ => ?_
    exact HoareE.bind ih fun _ => HoareE.pure fun _ h => h

theorem followImpossible_work (j : Job) (s₀ : State) : HoareE (fun s => s = s₀) (followImpossible j) (fun _ s => s = s₀) AnyErr :=
  (followImpossible_loc j s₀).conseq (fun _ h => h) (fun _ _ h => h) fun _ _ _ => trivial

theorem removeFromGraph_work (m : MsgId) (ms : List MsgId) : ∀ s₀ : State,
    HoareE (fun s => s = s₀) (removeFromGraph m ms) (fun _ s => Le s₀ s ∧ s.queue = s₀.queue ∧ s.queueMap = s₀.queueMap ∧ s.jobs = s₀.jobs) AnyErr := by
  induction ms with
  | nil => exact fun s₀ => HoareE.pure fun s h => by subst h; exact ⟨Le.refl _, rfl, rfl, rfl⟩
  | cons d ms ih =>
    intro s₀
    unfold removeFromGraph
    refine HoareE.getS fun s hs => ?_
    subst hs
    dsimp only
    split
    · exact ih s
    · refine HoareE.ite (fun _ => ?_) fun _ => HoareE.bind (R := fun _ _ => False) (HoareE.throwE fun _ _ => trivial) fun _ _ h => h.elim
      refine HoareE.modS fun s' h' => ?_
      subst h'
      refine (ih _).conseq (fun _ h => h) (fun _ s h => ?_) (fun _ _ h => h)
      refine ⟨Le.trans ?_ h.1, h.2.1, h.2.2.1, h.2.2.2⟩
      exact Le.congr rfl rfl rfl

/-- `s'` is like `s` except perhaps for the targets of `m` -/
structure LeX (m : MsgId) (s s' : State) : Prop where
  loads : s'.loads = s.loads
  targets : s'.targets = s.targets
  queue : s'.queue = s.queue
  other : ∀ x, x ≠ m → s'.jobs x = s.jobs x
  job : ∀ j', s'.jobs m = some j' → ∃ j, s.jobs m = some j ∧ j'.after = j.after ∧ j'.follow = j.follow

theorem LeX.remove {m : MsgId} {j : Job} {q : List MsgId} (h : LeX m s s') (hj : s'.jobs m = some j) :
    Le s { s' with
      queueMap := q
      jobs := upd s'.jobs m (some { j with removed := true }) } where
  loads := by
    unfold HasLoad
    simp only [h.loads, h.targets]
    exact (Le.refl s).loads
  jobs := fun x j' hx => by
    by_cases hxm : x = m
    · subst hxm
      simp only [upd, if_true, Option.some.injEq] at hx
      subst hx
      obtain ⟨j₀, h1, h2, h3⟩ := h.job j hj
      exact ⟨j₀, h1, h2, h3, Or.inl rfl⟩
    · simp only [upd, hxm, if_false] at hx
      rw [h.other x hxm] at hx
      exact (Le.refl s).jobs x j' hx
  len := by simp only [h.loads, h.targets]; exact id

/-- What the recursive functions guarantee. -/
structure WorkAt (cfg : Config) (n : Nat) : Prop where
  fail : ∀ m why s₀ s₁, WF s₀ → LeX m s₀ s₁ → m ∈ s₁.queueMap → HoareE (fun s => s = s₁) (failUnreachable cfg n m why)
    (fun _ s' => Le s₀ s' ∧ (∀ P, QDone cfg P s₀ → QDone cfg P s') ∧ ∀ j, s'.jobs m = some j → j.removed = true) AnyErr
  may : ∀ m s₀, WF s₀ → HoareE (fun s => s = s₀) (maybeRun cfg n m)
    (fun b s' => Le s₀ s' ∧ (∀ P, QDone cfg P s₀ → QDone cfg P s') ∧ (b = false → Done cfg All s' m)) AnyErr
  job : ∀ m s₀, WF s₀ → HoareE (fun s => s = s₀) (processJob cfg n m)
    (fun o s' => Le s₀ s' ∧ (∀ P, QDone cfg P s₀ → QDone cfg P s') ∧ (o = .keep → Done cfg All s' m) ∧ (o = .stop → ∀ e, ¬ Room cfg s' e)) AnyErr
  lq : ∀ l s₀, WF s₀ → (∀ x ∈ l, Done cfg All s₀ x) → HoareE (fun s => s = s₀) (loopQueue cfg n l)
    (fun _ s' => Le s₀ s' ∧ QDone cfg All s') AnyErr
  lj : ∀ ms s₀, WF s₀ → HoareE (fun s => s = s₀) (loopJobs cfg n ms)
    (fun _ s' => Le s₀ s' ∧ ∀ P, QDone cfg P s₀ → QDone cfg P s') AnyErr
  upd : ∀ d s₀, WF s₀ → HoareE (fun s => s = s₀) (updateGraph cfg n d)
    (fun _ s' => Le s₀ s' ∧ (∀ P, QDone cfg P s₀ → QDone cfg P s') ∧
      (d = none ∨ (cfg.hwm ≠ 0 ∧ s₀.loads.any (fun l => l = (cfg.hwm : Int) - 1)) → QDone cfg All s')) AnyErr

theorem Inel.filter {j : Job} {e : Engine} (h : Inel j e) (hne : j.targets.filter (fun e => e ∉ j.blacklist) ≠ []) :
    Inel { j with targets := j.targets.filter (fun e => e ∉ j.blacklist) } e := by
  rcases h with h | ⟨_, h⟩
  · exact Or.inl h
  · exact Or.inr ⟨hne, fun hh => h (List.mem_filter.mp hh).1⟩

theorem workAt (n : Nat) : WorkAt cfg n := by
  induction n with
  | zero =>
    refine ⟨?_, ?_, ?_, ?_, ?_, ?_⟩ <;> intros
    · unfold failUnreachable; exact HoareE.throwE fun _ _ => trivial
    · unfold maybeRun; exact HoareE.throwE fun _ _ => trivial
    · unfold processJob; exact HoareE.throwE fun _ _ => trivial
    · unfold loopQueue; exact HoareE.throwE fun _ _ => trivial
    · unfold loopJobs; exact HoareE.throwE fun _ _ => trivial
    · unfold updateGraph; exact HoareE.throwE fun _ _ => trivial
  | succ n ih =>
    have hfail : ∀ m why s₀ s₁, WF s₀ → LeX m s₀ s₁ → m ∈ s₁.queueMap → HoareE (fun s => s = s₁) (failUnreachable cfg (n + 1) m why)
        (fun _ s' => Le s₀ s' ∧ (∀ P, QDone cfg P s₀ → QDone cfg P s') ∧ ∀ j, s'.jobs m = some j → j.removed = true) AnyErr := by
      intro m why s₀ s₁ hw hx hm
      unfold failUnreachable
      refine HoareE.getS fun s hs => ?_
      subst hs
      refine HoareE.ite (fun h => absurd hm h) fun _ => ?_
      refine HoareE.modS fun s' hs' => ?_
      subst hs'
      refine HoareE.getJob (fun _ _ _ => trivial) fun s₁ j hs₁ hj => ?_
      subst hs₁
      have hle := hx.remove (j := j) (q := s'.queueMap.filter (· ≠ m)) hj
      refine HoareE.setJob fun s₂ hs₂ => ?_
      subst hs₂
      refine HoareE.bind (removeFromGraph_work m j.dependents _) fun _ s₃ h₃ => ?_
      obtain ⟨g1, g2, g3, g4⟩ := h₃
      unfold failReply
      have hle3 : Le s₀ s₃ := hle.trans g1
      have hr3 : ∀ j, s₃.jobs m = some j → j.removed = true := by
        intro j' hj'
        rw [g4] at hj'
        simp only [Sched.upd, if_true, Option.some.injEq] at hj'
        subst hj'; rfl
      have hq3 : s₃.queue = s₀.queue := g2.trans hx.queue
      refine HoareE.bind (P := fun s => s = s₃) (R := fun _ s => Le s₀ s ∧ s.queue = s₀.queue ∧ ∀ j, s.jobs m = some j → j.removed = true) (E := AnyErr) ?_ (fun _ s₄ h₄ => ?_) s₃ rfl
      · refine HoareE.modS fun s h => ?_
        subst h
        refine HoareE.modS_last fun s' h' => ?_
        subst h'
        exact ⟨hle3.trans (Le.congr rfl rfl rfl), hq3, hr3⟩
      · refine ((ih.upd (some m) s₄ (h₄.1.wf hw)).conseq (P := fun s => s = s₄) (fun _ h => h) (fun _ s' h' => ?_) (fun _ _ h => h)) s₄ rfl
        exact ⟨h₄.1.trans h'.1, fun P hP => h'.2.1 P (hP.le h₄.1 h₄.2.1), h'.1.removed h₄.2.2⟩
    have hmay : ∀ m s₀, WF s₀ → HoareE (fun s => s = s₀) (maybeRun cfg (n + 1) m)
        (fun b s' => Le s₀ s' ∧ (∀ P, QDone cfg P s₀ → QDone cfg P s') ∧ (b = false → Done cfg All s' m)) AnyErr := by
      intro m s₀ hw
      unfold maybeRun
      refine HoareE.getS fun s hs => ?_
      subst hs
      refine HoareE.getJob (fun _ _ _ => trivial) fun s₁ j hs₁ hj => ?_
      subst hs₁
      have hf := (hw.2 m j hj).2
      refine HoareE.ite (fun hav => HoareE.pure fun s hs => ?_) fun _ => ?_
      · subst hs
        exact ⟨Le.refl _, fun _ h => h, fun _ => Done.of_full (no_room hw hav)⟩
      have hsub : ∀ is, HoareE (fun x => x = s₁) (do submitTask cfg m is; return true) (fun b s' => Le s₁ s' ∧ (∀ P, QDone cfg P s₁ → QDone cfg P s') ∧ (b = false → Done cfg All s' m)) AnyErr := by
        intro is
        refine HoareE.bind (submitTask_work hw m is) fun _ => HoareE.pure fun s h => ?_
        exact ⟨h.1, fun P hP => hP.le h.1 h.2, by simp⟩
      refine HoareE.ite (fun _ => ?_) fun _ => hsub []
      refine HoareE.bind (filterCanRun_work j hf s₁ _) fun is s₂ h₂ => ?_
      obtain ⟨rfl, hnil⟩ := h₂
      refine (HoareE.ite (fun his => ?_) fun _ => hsub is : HoareE (fun x => x = s₂) _ _ _) s₂ rfl
      have hinel : ∀ e, Room cfg s₂ e → Inel j e := fun e he => by
        obtain ⟨i, h1, h2, h3⟩ := room_index hw he
        exact (hnil his i h1 e h2).resolve_left h3
      have hfailing : ∀ s₁, LeX m s₂ s₁ → HoareE (fun x => x = s₁) (do addQueueMap m; failUnreachable cfg n m .impossible; return false)
          (fun b s' => Le s₂ s' ∧ (∀ P, QDone cfg P s₂ → QDone cfg P s') ∧ (b = false → Done cfg All s' m)) AnyErr := by
        intro s₁ hx
        refine HoareE.addQueueMap fun s hs => ?_
        subst hs
        refine HoareE.bind (ih.fail m .impossible s₂ _ hw ⟨hx.loads, hx.targets, hx.queue, hx.other, hx.job⟩ (by simp)) fun _ => HoareE.pure fun s h => ?_
        exact ⟨h.1, h.2.1, fun _ => Done.of_removed h.2.2⟩
      refine HoareE.bind (followImpossible_work j s₂) fun b => ?_
      refine HoareE.ite (fun _ => hfailing s₂ ⟨rfl, rfl, rfl, fun _ _ => rfl, fun j' hj' => ⟨j', hj', rfl, rfl⟩⟩) fun _ => ?_
      refine HoareE.bind (R := fun b s => LeX m s₂ s ∧ (b = false → Le s₂ s ∧ Done cfg All s m)) ?_ fun b s₃ h₃ => ?_
      · unfold targetsImpossible
        refine HoareE.ite (fun hne => ?_) fun hne => HoareE.pure fun s hs => ?_
        · refine HoareE.setJob fun s hs => ?_
          subst hs
          refine HoareE.getS fun s' hs => ?_
          subst hs
          refine HoareE.pure fun s' hs => ?_
          subst hs
          have hx : LeX m s { s with jobs := Sched.upd s.jobs m (some { j with targets := j.targets.filter (fun e => e ∉ j.blacklist) }) } := by
            refine ⟨rfl, rfl, rfl, fun x hx => by simp [Sched.upd, hx], fun j' hj' => ?_⟩
            simp only [Sched.upd, if_true, Option.some.injEq] at hj'
            subst hj'
            exact ⟨j, hj, rfl, rfl⟩
          refine ⟨hx, fun hb => ?_⟩
          have hne' : j.targets.filter (fun e => e ∉ j.blacklist) ≠ [] := by
            intro hh
            rw [decide_eq_false_iff_not] at hb
            exact hb (Or.inl hh)
          have hle : Le s { s with jobs := Sched.upd s.jobs m (some { j with targets := j.targets.filter (fun e => e ∉ j.blacklist) }) } := by
            refine ⟨(Le.refl s).loads, fun x j' hj' => ?_, id⟩
            by_cases hxm : x = m
            · subst hxm
              simp only [Sched.upd, if_true, Option.some.injEq] at hj'
              subst hj'
              refine ⟨j, hj, rfl, rfl, ?_⟩
              cases hr : j.removed with
              | true => exact Or.inl rfl
              | false => exact Or.inr ⟨rfl, fun e he => he.filter hne'⟩
            · simp only [Sched.upd, hxm, if_false] at hj'
              exact (Le.refl s).jobs x j' hj'
          refine ⟨hle, ?_⟩
          intro j' hj' _ e _ hroom
          simp only [Sched.upd, if_true, Option.some.injEq] at hj'
          subst hj'
          exact (hinel e (hle.room hroom)).filter hne'
        · subst hs
          exact ⟨⟨rfl, rfl, rfl, fun _ _ => rfl, fun j' hj' => ⟨j', hj', rfl, rfl⟩⟩, fun _ => ⟨Le.refl _, fun j' hj' _ e _ hroom => by
            rw [hj] at hj'; cases hj'; exact hinel e hroom⟩⟩
      · refine (HoareE.ite (fun _ => hfailing s₃ h₃.1) fun hb => HoareE.pure fun s hs => ?_ : HoareE (fun x => x = s₃) _ _ _) s₃ rfl
        subst hs
        have := h₃.2 (by simpa using hb)
        exact ⟨this.1, fun P hP => hP.le this.1 h₃.1.queue, fun _ => this.2⟩
    have hjob : ∀ m s₀, WF s₀ → HoareE (fun s => s = s₀) (processJob cfg (n + 1) m)
        (fun o s' => Le s₀ s' ∧ (∀ P, QDone cfg P s₀ → QDone cfg P s') ∧ (o = .keep → Done cfg All s' m) ∧ (o = .stop → ∀ e, ¬ Room cfg s' e)) AnyErr := by
      intro m s₀ hw
      unfold processJob
      refine HoareE.getS fun s hs => ?_
      subst hs
      refine HoareE.getJob (fun _ _ _ => trivial) fun s₁ j hs₁ hj => ?_
      subst hs₁
      obtain ⟨ha, hf⟩ := hw.2 m j hj
      refine HoareE.ite (fun _ => HoareE.pure fun s hs => ?_) fun _ => ?_
      · subst hs; exact ⟨Le.refl _, fun _ h => h, by simp, by simp⟩
      refine HoareE.ite (fun hun => ?_) fun _ => ?_
      · simp [Dep.unreachable, ha, hf] at hun
      refine HoareE.ite (fun _ => ?_) fun hck => ?_
      · refine HoareE.bind (ih.may m s₁ hw) fun b s₂ h₂ => ?_
        obtain ⟨m1, m2, m3⟩ := h₂
        refine (HoareE.ite (fun hb => ?_) fun hb => HoareE.pure fun s hs => ?_ : HoareE (fun x => x = s₂) _ _ _) s₂ rfl
        · refine HoareE.getS fun s hs => ?_
          subst hs
          refine HoareE.ite (fun _ => HoareE.bind (R := fun _ _ => False) (HoareE.throwE fun _ _ => trivial) fun _ _ h => h.elim) fun _ => ?_
          refine HoareE.modS fun s₃ h₃ => ?_
          subst h₃
          refine HoareE.getJob (fun _ _ _ => trivial) fun s₄ j' h₄ _ => ?_
          subst h₄
          refine HoareE.bind (removeFromGraph_work m j'.dependents _) fun _ => ?_
          refine HoareE.getS fun s₅ h₅ => ?_
          have hle : Le s₁ s₅ := m1.trans ((Le.congr rfl rfl rfl : Le s₃ { s₃ with queueMap := s₃.queueMap.filter (· ≠ m) }).trans h₅.1)
          have hq : ∀ P, QDone cfg P s₁ → QDone cfg P s₅ := fun P hP => (m2 P hP).le ((Le.congr rfl rfl rfl : Le s₃ { s₃ with queueMap := s₃.queueMap.filter (· ≠ m) }).trans h₅.1) h₅.2.1
          refine HoareE.ite (fun hav => HoareE.pure fun s hs => ?_) fun _ => HoareE.pure fun s hs => ?_
          · subst hs; exact ⟨hle, hq, by simp, fun _ => no_room (hle.wf hw) hav⟩
          · subst hs; exact ⟨hle, hq, by simp, by simp⟩
        · subst hs
          exact ⟨m1, m2, fun _ => m3 (by simpa using hb), by simp⟩
      · simp [Dep.check, ha] at hck
    refine ⟨hfail, hmay, hjob, ?_, ?_, ?_⟩
    · -- loopQueue
      intro l s₀ hw hl
      unfold loopQueue
      refine HoareE.getS fun s hs => ?_
      subst hs
      split
      · rename_i hq
        refine HoareE.modS_last fun s' h' => ?_
        subst h'
        refine ⟨Le.congr rfl rfl rfl, fun x hx => ?_⟩
        simp only [hq, List.append_nil, List.mem_reverse] at hx
        exact (hl x hx).le (Le.congr rfl rfl rfl)
      · rename_i m q hq
        refine HoareE.modS fun s' h' => ?_
        subst h'
        have hle0 : Le s' { s' with queue := q } := Le.congr rfl rfl rfl
        refine HoareE.bind (ih.job m _ (hle0.wf hw)) fun o s₂ h₂ => ?_
        obtain ⟨j1, _, j3, j4⟩ := h₂
        have hle := hle0.trans j1
        cases o with
        | gone =>
          refine ((ih.lq l s₂ (hle.wf hw) fun x hx => (hl x hx).le hle).conseq (P := fun s => s = s₂) (fun _ h => h) (fun _ s h => ?_) (fun _ _ h => h)) s₂ rfl
          exact ⟨hle.trans h.1, h.2⟩
        | keep =>
          refine ((ih.lq (l ++ [m]) s₂ (hle.wf hw) fun x hx => ?_).conseq (P := fun s => s = s₂) (fun _ h => h) (fun _ s h => ?_) (fun _ _ h => h)) s₂ rfl
          · rcases List.mem_append.mp hx with hx | hx
            · exact (hl x hx).le hle
            · rw [List.mem_singleton.mp hx]; exact j3 rfl
          · exact ⟨hle.trans h.1, h.2⟩
        | stop =>
          refine (HoareE.modS_last (P := fun s => s = s₂) fun s h => ?_ : HoareE (fun s => s = s₂) (modS fun s => { s with queue := l.reverse ++ s.queue }) (fun _ s'' => Le s' s'' ∧ QDone cfg All s'') AnyErr) s₂ rfl
          subst h
          refine ⟨hle.trans (Le.congr rfl rfl rfl), fun x _ => Done.of_full fun e he => j4 rfl e ?_⟩
          exact (Le.congr rfl rfl rfl : Le s { s with queue := l.reverse ++ s.queue }).room he
    · -- loopJobs
      intro ms s₀ hw
      unfold loopJobs
      split
      · exact HoareE.pure fun s hs => by subst hs; exact ⟨Le.refl _, fun _ h => h⟩
      · rename_i m ms
        refine HoareE.bind (ih.job m s₀ hw) fun o s₂ h₂ => ?_
        obtain ⟨j1, j2, _, _⟩ := h₂
        have hrec : HoareE (fun s => s = s₂) (loopJobs cfg n ms) (fun _ s' => Le s₀ s' ∧ ∀ P, QDone cfg P s₀ → QDone cfg P s') AnyErr :=
          (ih.lj ms s₂ (j1.wf hw)).conseq (fun _ h => h) (fun _ s h => ⟨j1.trans h.1, fun P hP => h.2 P (j2 P hP)⟩) (fun _ _ h => h)
        cases o with
        | gone => exact hrec s₂ rfl
        | keep => exact hrec s₂ rfl
        | stop => exact ⟨j1, j2⟩
    · -- updateGraph
      intro d s₀ hw
      unfold updateGraph
      refine HoareE.getS fun s hs => ?_
      subst hs
      have hrest : ∀ (ms : List MsgId) (s₂ : State), Le s s₂ → s₂.queue = s.queue →
          HoareE (fun x => x = s₂) (if d = none ∨ (cfg.hwm ≠ 0 ∧ s.loads.any (fun l => l = (cfg.hwm : Int) - 1)) then
              loopQueue cfg n []
            else do
              if ms.any (fun m => m ∉ s.queueMap) then throwE .keyError
              loopJobs cfg n (sortByTime (fun m => ((s.jobs m).map Job.timestamp).getD 0) ms))
            (fun _ s' => Le s s' ∧ (∀ P, QDone cfg P s → QDone cfg P s') ∧
              (d = none ∨ (cfg.hwm ≠ 0 ∧ s.loads.any (fun l => l = (cfg.hwm : Int) - 1)) → QDone cfg All s')) AnyErr := by
        intro ms s₂ u1 u2
        refine HoareE.ite (fun _ => ?_) fun hc => ?_
        · refine (ih.lq [] s₂ (u1.wf hw) (by simp)).conseq (fun _ h => h) (fun _ s' h => ?_) (fun _ _ h => h)
          exact ⟨u1.trans h.1, fun P _ => h.2.any, fun _ => h.2⟩
        · refine HoareE.ite (fun _ => HoareE.bind (R := fun _ _ => False) (HoareE.throwE fun _ _ => trivial) fun _ _ h => h.elim) fun _ => ?_
          refine (ih.lj _ s₂ (u1.wf hw)).conseq (fun _ h => h) (fun _ s' h => ?_) (fun _ _ h => h)
          exact ⟨u1.trans h.1, fun P hP => h.2 P (hP.le u1 u2), fun hh => absurd hh hc⟩
      cases d with
      | none => exact hrest _ s (Le.refl _) rfl
      | some d =>
        dsimp only
        refine HoareE.modS fun s₂ h₂ => ?_
        subst h₂
        exact hrest _ _ (Le.congr rfl rfl rfl) rfl

end IPP.Sched
