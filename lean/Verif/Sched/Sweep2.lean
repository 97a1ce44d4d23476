import Verif.Sched.Sweep

/-!
# A pass over the queue: the recursive functions (lemmas)
-/
namespace IPP.Sched

variable {cfg : Config} {s s' s'' : State} {x : MsgId}

/-- Whoever waits in the queue is in it afterwards, if still waiting. -/
def Keep (s s' : State) : Prop := ∀ x ∈ s.queue, x ∈ s'.queueMap → x ∈ s'.queue

theorem Keep.of_eq (h : s'.queue = s.queue) : Keep s s' := fun x hx _ => by rw [h]; exact hx

theorem Keep.trans (h : Keep s s') (h' : Keep s' s'') (g : Go s' s'') : Keep s s'' := fun x hx hq => h' x (h x hx (g.qm x hq)) hq

theorem Swept.before (h : Swept cfg s' s'') (g : Go s s') (k : Keep s s') (g' : Go s' s'') (hn : Neat s) : Swept cfg s s'' := by
  intro x hx hq hd
  rcases (g.tsk x).left hq with a | a
  · exact (h x (k x hx a) a (hd.later g.env (g.tsk x) (g.neat hn) a)).earlier g.env
  · exact a.later g'.env

/-- Some engine has exactly one place left. -/
def Tight (cfg : Config) (s : State) : Prop := cfg.hwm ≠ 0 ∧ s.loads.any (fun l => l = (cfg.hwm : Int) - 1) = true

theorem mem_zip_eraseIdx {α β : Type} (a : List α) (b : List β) (i : Nat) (p : α × β) (h : p ∈ a.zip b) (hne : (a.zip b)[i]? ≠ some p) :
    p ∈ (a.eraseIdx i).zip (b.eraseIdx i) := by
  induction a generalizing b i with
  | nil => simp at h
  | cons x a ih =>
    cases b with
    | nil => simp at h
    | cons y b =>
      cases i with
      | zero =>
        simp only [List.zip_cons_cons, List.mem_cons] at h
        rcases h with h | h
        · subst h; simp at hne
        · simpa using h
      | succ i =>
        simp only [List.eraseIdx_cons_succ, List.zip_cons_cons, List.mem_cons] at h ⊢
        exact h.imp id fun h => ih b i h (by simpa using hne)

theorem addJob_other {idx : Nat} {t : Engine} (ht : s.targets[idx]? = some t) {e : Engine} {l : Int} (he : e ≠ t) (h : HasLoad s e l) : HasLoad (addJob idx s) e l := by
  unfold addJob
  split
  · rename_i t' l' ht' hl'
    unfold HasLoad
    dsimp only
    have hmem : (e, l) ∈ (s.targets.eraseIdx idx).zip (s.loads.eraseIdx idx) := by
      refine mem_zip_eraseIdx _ _ _ _ h fun hh => ?_
      rw [List.getElem?_zip_eq_some, ht] at hh
      have := hh.1
      simp only [Option.some.injEq] at this
      exact he this.symm
    clear h
    revert hmem
    generalize s.targets.eraseIdx idx = a
    generalize s.loads.eraseIdx idx = b
    intro hmem
    induction a generalizing b with
    | nil => simp at hmem
    | cons x a ih =>
      cases b with
      | nil => simp at hmem
      | cons y b =>
        simp only [List.cons_append, List.zip_cons_cons, List.mem_cons] at hmem ⊢
        exact hmem.imp id (ih b)
  · exact h

theorem sent_go (hn : Neat s) (m : MsgId) (idx : Nat) (t : Engine) (p : List MsgId) :
    Go s { addJob idx { s with trace := s.trace ++ [.send t m] } with pending := upd (addJob idx { s with trace := s.trace ++ [.send t m] }).pending t (some p) } ∧
    Act s { addJob idx { s with trace := s.trace ++ [.send t m] } with pending := upd (addJob idx { s with trace := s.trace ++ [.send t m] }).pending t (some p) } m := by
  have hle := addJob_le idx { s with trace := s.trace ++ [.send t m] } hn.len
  have hl := hle.loads
  have hlen := hle.len ⟨hn.len, hn.nodup⟩
  refine ⟨⟨⟨⟨[.send t m], ?_, ?_⟩, hl, ?_, ?_, ?_, ?_, ?_, ?_⟩, fun x => ⟨?_, ?_⟩, ?_, fun _ => ⟨hlen.1, hlen.2, ?_⟩, fun x j hj hr => Or.inl ⟨j, by simpa using hj, hr⟩⟩, [.send t m], ?_, Or.inl ⟨t, by simp⟩⟩
  · simp
  · simp [Decision, isDecision]
  · intro a ha
    unfold addJob at ha
    split at ha
    · rename_i t' l' h1 h2
      simp only [List.mem_append, List.mem_singleton] at ha
      rcases ha with ha | ha
      · exact List.mem_of_mem_eraseIdx ha
      · rw [ha]; exact List.mem_of_getElem? h1
    · exact ha
  · simp
  · simp
  · show (addJob idx _).destinations = _
    unfold addJob; split <;> rfl
  · simp
  · simp
  · intro j hj; exact ⟨j, by simpa using hj, JobStep.refl j⟩
  · intro h; left; simpa using h
  · intro x hx; simpa using hx
  · intro x j hj hr; simpa using hn.gone x j (by simpa using hj) hr
  · simp

theorem submitTask_sweep (hn : Neat s) (m : MsgId) (is : List Nat) :
    HoareE (fun x => x = s) (submitTask cfg m is) (fun _ s' => Go s s' ∧ s'.queue = s.queue ∧ Act s s' m ∧
      (is ≠ [] → ∃ i ∈ is, ∃ t, s.targets[i]? = some t ∧ ∀ e l, e ≠ t → HasLoad s e l → HasLoad s' e l)) AnyErr := by
  unfold submitTask
  refine HoareE.getS fun s₁ hs => ?_
  subst hs
  dsimp only
  split
  · exact HoareE.throwE fun _ _ => trivial
  rename_i idx hidx
  split
  · exact HoareE.throwE fun _ _ => trivial
  rename_i t ht
  refine HoareE.emit fun s₂ h₂ => ?_
  subst h₂
  refine HoareE.modS fun s₃ h₃ => ?_
  subst h₃
  refine HoareE.lookupE (fun _ _ _ => trivial) fun p _ => HoareE.modS_last fun s' hs => ?_
  subst hs
  obtain ⟨a, b⟩ := sent_go hn m idx t (insertSet m p)
  refine ⟨a, by simp, b, fun hne => ?_⟩
  rw [if_pos hne] at hidx
  refine ⟨idx, List.mem_of_getElem? hidx, t, ht, fun e l he hl => ?_⟩
  exact addJob_other (s := { s₂ with trace := s₂.trace ++ [.send t m] }) ht he hl

theorem canRun_sweep (j : Job) (i : Nat) (s₀ : State) :
    HoareE (fun s => s = s₀) (canRun cfg j i) (fun b s => s = s₀ ∧ (b = false → ∀ e, s₀.targets[i]? = some e →
      (cfg.hwm ≠ 0 ∧ s₀.loads.getD i 0 = (cfg.hwm : Int)) ∨ ¬ AbleJ s₀ j e) ∧ (b = true → ∀ e, s₀.targets[i]? = some e → e ∉ j.blacklist)) AnyErr := by
  unfold canRun
  refine HoareE.getS fun s hs => ?_
  subst hs
  refine HoareE.ite (fun h => HoareE.pure fun _ hs => ⟨hs, fun _ _ _ => Or.inl h, fun h => by cases h⟩) fun _ => ?_
  cases ht : s.targets[i]? with
  | none => exact HoareE.throwE fun _ _ => trivial
  | some t =>
    dsimp only
    refine HoareE.ite (fun h => HoareE.pure fun _ hs => ⟨hs, fun _ e he => by cases he; exact Or.inr fun hh => hh.1 h, fun h => by cases h⟩) fun hb => ?_
    refine HoareE.ite (fun h => HoareE.pure fun _ hs => ⟨hs, fun _ e he => by cases he; exact Or.inr fun hh => hh.2.1.elim h.1 h.2, fun h => by cases h⟩) fun _ => ?_
    refine HoareE.lookupE (fun _ _ _ => trivial) fun c hc => HoareE.lookupE (fun _ _ _ => trivial) fun f hf => HoareE.pure fun _ hs => ⟨hs, fun hb => ?_, fun _ e he => by cases he; exact hb⟩
    intro e he
    cases he
    refine Or.inr fun ⟨_, _, c', f', h1, h2, h3⟩ => ?_
    rw [hc] at h1; rw [hf] at h2; cases h1; cases h2
    rw [hb] at h3; cases h3

theorem filterCanRun_sweep (j : Job) (s₀ : State) (is : List Nat) :
    HoareE (fun s => s = s₀) (filterCanRun cfg j is) (fun r s => s = s₀ ∧ (r = [] → ∀ i ∈ is, ∀ e, s₀.targets[i]? = some e →
      (cfg.hwm ≠ 0 ∧ s₀.loads.getD i 0 = (cfg.hwm : Int)) ∨ ¬ AbleJ s₀ j e) ∧ ∀ i ∈ r, ∀ e, s₀.targets[i]? = some e → e ∉ j.blacklist) AnyErr := by
  induction is with
  | nil => exact HoareE.pure fun _ h => ⟨h, by simp, by simp⟩
  | cons i is ih =>
    unfold filterCanRun
    refine HoareE.bind (canRun_sweep j i s₀) fun b => ?_
    intro s₁ h₁
    refine (HoareE.bind ih fun r => HoareE.pure fun s h => ?_) s₁ h₁.1
    refine ⟨h.1, fun hr x hx => ?_, fun x hx => ?_⟩
    · cases b with
      | true => simp at hr
      | false =>
        rcases List.mem_cons.mp hx with rfl | hx
        · exact h₁.2.1 rfl
        · exact h.2.1 (by simpa using hr) x hx
    · cases b with
      | true =>
        rcases List.mem_cons.mp hx with rfl | hx
        · exact h₁.2.2 rfl
        · exact h.2.2 x hx
      | false => exact h.2.2 x (by simpa using hx)

theorem destsOf_sweep (ms : List MsgId) (s₀ : State) :
    HoareE (fun s => s = s₀) (destsOf ms) (fun r s => s = s₀ ∧ ∀ a ∈ ms, ∀ e, s₀.destinations a = some e → e ∈ r) AnyErr := by
  induction ms with
  | nil => exact HoareE.pure fun _ h => ⟨h, by simp⟩
  | cons m ms ih =>
    unfold destsOf
    refine HoareE.getS fun s hs => ?_
    subst hs
    refine HoareE.lookupE (fun _ _ _ => trivial) fun d hd => ?_
    refine HoareE.bind ih fun r => HoareE.pure fun s' h => ⟨h.1, fun a ha e he => ?_⟩
    rcases List.mem_cons.mp ha with rfl | ha
    · rw [hd] at he; cases he; simp
    · simp [h.2 a ha e he]

theorem two_mem {a b : Engine} {l : List Engine} (ha : a ∈ l) (hb : b ∈ l) (h : a ≠ b) : 1 < l.length := by
  match l, ha, hb with
  | [y], ha, hb => rw [List.mem_singleton] at ha hb; exact absurd (ha.trans hb.symm) h
  | _ :: _ :: _, _, _ => simp

theorem followImpossible_sweep (j : Job) (s₀ : State) : HoareE (fun s => s = s₀) (followImpossible j) (fun r s => s = s₀ ∧
    (r = false → ¬ (j.follow.all = true ∧ ∃ a b ea eb, RelJ s₀ j a ∧ RelJ s₀ j b ∧ s₀.destinations a = some ea ∧ s₀.destinations b = some eb ∧ ea ≠ eb))) AnyErr := by
  unfold followImpossible
  refine HoareE.getS fun s hs => ?_
  subst hs
  refine HoareE.ite (fun _ => ?_) fun hall => HoareE.pure fun _ h => ⟨h, fun _ hh => hall hh.1⟩
  refine HoareE.bind (destsOf_sweep _ s) fun r => HoareE.pure fun s' h => ⟨h.1, fun hr ⟨_, a, b, ea, eb, ha, hb, hda, hdb, hne⟩ => ?_⟩
  have hmem : ∀ i, RelJ s j i → i ∈ j.follow.ids.filter (fun m => m ∈
      if j.follow.failure then (if j.follow.success then s.allCompleted else []) ++ s.allFailed else if j.follow.success then s.allCompleted else []) := by
    intro i hi
    refine List.mem_filter.mpr ⟨hi.1, ?_⟩
    rw [decide_eq_true_eq]
    rcases hi.2 with ⟨h1, h2⟩ | ⟨h1, h2⟩
    · split <;> simp [h1, h2]
    · simp [h1, h2]
  have := two_mem (h.2 a (hmem a ha) ea hda) (h.2 b (hmem b hb) eb hdb) hne
  simp at hr
  omega

theorem removeFromGraph_sweep (m : MsgId) (ms : List MsgId) : ∀ s₀ : State,
    HoareE (fun s => s = s₀) (removeFromGraph m ms) (fun _ s => ∃ g, s = { s₀ with graph := g }) AnyErr := by
  induction ms with
  | nil => exact fun s₀ => HoareE.pure fun s h => ⟨s₀.graph, h⟩
  | cons d ms ih =>
    intro s₀
    unfold removeFromGraph
    refine HoareE.getS fun s hs => ?_
    subst hs
    dsimp only
    split
    · exact ih s
    · refine HoareE.ite (fun _ => ?_) fun _ => HoareE.bind (R := fun _ _ => False) (HoareE.throwE fun _ _ => trivial) fun _ _ h => h.elim
      refine HoareE.modS fun s' h' => ?_
      subst h'
      refine (ih _).conseq (fun _ h => h) (fun _ s h => ?_) (fun _ _ h => h)
      obtain ⟨g, hg⟩ := h
      exact ⟨g, by rw [hg]⟩

/-- `s₁` is `s₀` with `m` in hand: put into the queue map, its targets perhaps reduced. -/
structure Hand (m : MsgId) (s₀ s₁ : State) : Prop where
  trace : s₁.trace = s₀.trace
  loads : s₁.loads = s₀.loads
  targets : s₁.targets = s₀.targets
  queue : s₁.queue = s₀.queue
  ac : s₁.allCompleted = s₀.allCompleted
  af : s₁.allFailed = s₀.allFailed
  dst : s₁.destinations = s₀.destinations
  com : s₁.completed = s₀.completed
  fai : s₁.failed = s₀.failed
  qm : ∀ x, x ∈ s₁.queueMap ↔ x = m ∨ x ∈ s₀.queueMap
  other : ∀ x, x ≠ m → s₁.jobs x = s₀.jobs x
  job : ∀ j, s₀.jobs m = some j → ∃ j', s₁.jobs m = some j' ∧ j'.after = j.after ∧ j'.follow = j.follow ∧ j'.blacklist = j.blacklist

/-- … and answered. -/
theorem Hand.failed {m : MsgId} {s₀ s₁ : State} {j : Job} {why : Why} {g : MsgId → Option (List MsgId)} (h : Hand m s₀ s₁) (hj : s₁.jobs m = some j) (hn : Neat s₀)
    (s₂ : State) (h₂ : s₂ = { s₁ with
        queueMap := s₁.queueMap.filter (· ≠ m)
        jobs := upd s₁.jobs m (some { j with removed := true })
        graph := g
        allDone := insertSet m s₁.allDone
        allFailed := insertSet m s₁.allFailed
        trace := s₁.trace ++ [.fail m why] }) : (Go s₀ s₂ ∧ Keep s₀ s₂ ∧ Act s₀ s₂ m ∧ m ∉ s₂.queueMap) ∧ s₂.loads = s₀.loads := by
  have hact : Act s₀ s₂ m := ⟨[.fail m why], by rw [h₂, ← h.trace], Or.inr ⟨why, by simp⟩⟩
  have hqm : ∀ x, x ∈ s₂.queueMap ↔ x ≠ m ∧ x ∈ s₀.queueMap := fun x => by
    rw [h₂]
    simp only [List.mem_filter, h.qm, decide_eq_true_eq, ne_eq]
    constructor
    · rintro ⟨a | a, b⟩
      · exact absurd a b
      · exact ⟨b, a⟩
    · rintro ⟨a, b⟩; exact ⟨Or.inr b, a⟩
  have hother : ∀ x, x ≠ m → s₂.jobs x = s₀.jobs x := fun x hx => by rw [h₂]; dsimp only; rw [upd_ne _ _ hx]; exact h.other x hx
  refine ⟨?_, by rw [h₂]; exact h.loads⟩
  refine ⟨⟨⟨⟨[.fail m why], by rw [h₂, ← h.trace], by simp [Decision, isDecision]⟩, ?_, ?_, ?_, ?_, ?_, ?_, ?_⟩, fun x => ⟨?_, ?_⟩, ?_, fun _ => ⟨?_, ?_, ?_⟩, fun x j' hx hr => ?_⟩, ?_, hact, ?_⟩
  · unfold HasLoad; rw [h₂]; dsimp only; rw [h.targets, h.loads]; exact (Env.refl s₀).loads
  · rw [h₂]; dsimp only; rw [h.targets]; exact fun _ h => h
  · rw [h₂]; dsimp only; rw [h.ac]; exact fun _ h => h
  · rw [h₂]; dsimp only; rw [h.af]; intro i hi; simp [hi]
  · rw [h₂]; exact h.dst
  · rw [h₂]; exact h.com
  · rw [h₂]; exact h.fai
  · intro jx hx
    by_cases hxm : x = m
    · rw [hxm] at hx ⊢
      obtain ⟨j', a, b, c, d⟩ := h.job jx hx
      rw [hj] at a; cases a
      exact ⟨{ j with removed := true }, by rw [h₂]; exact upd_self _ _ _, b, c, d, fun _ => rfl, Or.inl rfl⟩
    · exact ⟨jx, by rw [hother x hxm]; exact hx, JobStep.refl jx⟩
  · intro hx
    by_cases hxm : x = m
    · exact Or.inr (hxm ▸ hact)
    · exact Or.inl ((hqm x).mpr ⟨hxm, hx⟩)
  · intro x hx; exact ((hqm x).mp hx).2
  · rw [h₂]; dsimp only; rw [h.targets, h.loads]; exact hn.len
  · rw [h₂]; dsimp only; rw [h.targets]; exact hn.nodup
  · intro x jx hx hr hq
    obtain ⟨a, b⟩ := (hqm x).mp hq
    rw [hother x a] at hx
    exact hn.gone x jx hx hr b
  · by_cases hxm : x = m
    · right; rw [h₂]; simp [hxm]
    · rw [hother x hxm] at hx; exact Or.inl ⟨j', hx, hr⟩
  · exact Keep.of_eq (by rw [h₂]; exact h.queue)
  · exact fun hh => ((hqm m).mp hh).1 rfl

/-- What the recursive functions guarantee. -/
structure SweepAt (cfg : Config) (n : Nat) : Prop where
  fail : ∀ m why s₀ s₁, Neat s₀ → Hand m s₀ s₁ → HoareE (fun s => s = s₁) (failUnreachable cfg n m why)
    (fun _ s' => Go s₀ s' ∧ Keep s₀ s' ∧ Act s₀ s' m ∧ m ∉ s'.queueMap ∧ (Tight cfg s₀ → Swept cfg s₀ s')) AnyErr
  may : ∀ m s₀, Neat s₀ → HoareE (fun s => s = s₀) (maybeRun cfg n m)
    (fun b s' => Go s₀ s' ∧ Keep s₀ s' ∧ (b = true → Act s₀ s' m) ∧ ∀ j, s₀.jobs m = some j →
      (b = false → ((∃ e, Room cfg s₀ e ∧ AbleJ s₀ j e) ∨ (DeadJ s₀ j ∧ ∃ e, Room cfg s₀ e)) → Act s₀ s' m) ∧
      ((∀ e ∈ j.blacklist, ∀ l, HasLoad s₀ e l → HasLoad s' e l) ∨ (Tight cfg s₀ → Swept cfg s₀ s'))) AnyErr
  job : ∀ m s₀, Neat s₀ → HoareE (fun s => s = s₀) (processJob cfg n m)
    (fun o s' => Go s₀ s' ∧ Keep s₀ s' ∧ (o ≠ .keep → m ∉ s'.queueMap) ∧ (o = .keep → Due cfg s₀ s' m → Act s₀ s' m) ∧ (o = .stop → ∀ e, ¬ Room cfg s' e)) AnyErr
  lq : ∀ l s₀, Neat s₀ → HoareE (fun s => s = s₀) (loopQueue cfg n l)
    (fun _ s' => Go s₀ s' ∧ (∀ x ∈ l ++ s₀.queue, x ∈ s'.queueMap → x ∈ s'.queue) ∧ Swept cfg s₀ s') AnyErr
  lj : ∀ ms s₀, Neat s₀ → HoareE (fun s => s = s₀) (loopJobs cfg n ms) (fun _ s' => Go s₀ s' ∧ Keep s₀ s') AnyErr
  upd : ∀ d s₀, Neat s₀ → HoareE (fun s => s = s₀) (updateGraph cfg n d)
    (fun _ s' => Go s₀ s' ∧ Keep s₀ s' ∧ (d = none ∨ Tight cfg s₀ → Swept cfg s₀ s')) AnyErr

theorem Go.drop {m : MsgId} (g : Go s s') (ha : Act s s' m) : Go s { s' with queueMap := s'.queueMap.filter (· ≠ m) } where
  env := { g.env with }
  tsk := fun x => ⟨(g.tsk x).job, fun hx => by
    by_cases hxm : x = m
    · exact Or.inr (hxm ▸ ha)
    · rcases (g.tsk x).left hx with a | a
      · left; simp [a, hxm]
      · exact Or.inr a⟩
  qm := fun x hx => g.qm x (List.mem_filter.mp hx).1
  neat := fun hn => ⟨(g.neat hn).len, (g.neat hn).nodup, fun x j hj hr hx => (g.neat hn).gone x j hj hr (List.mem_filter.mp hx).1⟩
  rem := g.rem

theorem failUnreachable_skip (n : Nat) (m : MsgId) (why : Why) (s₀ : State) (h : m ∉ s₀.queueMap) :
    HoareE (fun s => s = s₀) (failUnreachable cfg n m why) (fun _ s => s = s₀) AnyErr := by
  cases n with
  | zero => unfold failUnreachable; exact HoareE.throwE fun _ _ => trivial
  | succ n =>
    unfold failUnreachable
    refine HoareE.getS fun s hs => ?_
    subst hs
    refine HoareE.ite (fun _ => HoareE.pure fun _ h => h) fun hh => absurd h hh

theorem sweepAt (n : Nat) : SweepAt cfg n := by
  induction n with
  | zero =>
    refine ⟨?_, ?_, ?_, ?_, ?_, ?_⟩ <;> intros
    · unfold failUnreachable; exact HoareE.throwE fun _ _ => trivial
    · unfold maybeRun; exact HoareE.throwE fun _ _ => trivial
    · unfold processJob; exact HoareE.throwE fun _ _ => trivial
    · unfold loopQueue; exact HoareE.throwE fun _ _ => trivial
    · unfold loopJobs; exact HoareE.throwE fun _ _ => trivial
    · unfold updateGraph; exact HoareE.throwE fun _ _ => trivial
  | succ n ih =>
    refine ⟨?_, ?_, ?_, ?_, ?_, ?_⟩
    · -- failUnreachable
      intro m why s₀ s₁ hn hx
      unfold failUnreachable
      refine HoareE.getS fun s hs => ?_
      subst hs
      refine HoareE.ite (fun h => absurd ((hx.qm m).mpr (Or.inl rfl)) h) fun _ => ?_
      refine HoareE.modS fun s' hs' => ?_
      subst hs'
      refine HoareE.getJob (fun _ _ _ => trivial) fun s₁ j hs₁ hj => ?_
      subst hs₁
      refine HoareE.setJob fun s₂ hs₂ => ?_
      subst hs₂
      refine HoareE.bind (removeFromGraph_sweep m j.dependents _) fun _ s₃ h₃ => ?_
      obtain ⟨gr, rfl⟩ := h₃
      unfold failReply
      refine (HoareE.bind (P := fun s => s = _) (R := fun _ s => (Go s₀ s ∧ Keep s₀ s ∧ Act s₀ s m ∧ m ∉ s.queueMap) ∧ s.loads = s₀.loads) (E := AnyErr) ?_ (fun _ s₄ h₄ => ?_)) _ rfl
      · refine HoareE.modS fun s h => ?_
        subst h
        refine HoareE.modS_last fun s₅ h₅ => ?_
        subst h₅
        exact hx.failed hj hn _ rfl
      · obtain ⟨⟨g4, k4, a4, q4⟩, l4⟩ := h₄
        refine ((ih.upd (some m) s₄ (g4.neat hn)).conseq (P := fun s => s = s₄) (fun _ h => h) (fun _ s₅ h₅ => ?_) (fun _ _ h => h)) s₄ rfl
        obtain ⟨g5, k5, w5⟩ := h₅
        refine ⟨g4.trans g5, k4.trans k5 g5, a4.later g5.env, fun hh => q4 (g5.qm m hh), fun ht => ?_⟩
        exact (w5 (Or.inr (by unfold Tight; rw [l4]; exact ht))).before g4 k4 g5 hn
    · -- maybeRun
      intro m s₀ hn
      unfold maybeRun
      refine HoareE.getS fun s hs => ?_
      subst hs
      refine HoareE.getJob (fun _ _ _ => trivial) fun s₁ j hs₁ hj => ?_
      subst hs₁
      refine HoareE.ite (fun hav => HoareE.pure fun s hs => ?_) fun _ => ?_
      · subst hs
        refine ⟨Go.refl _, Keep.of_eq rfl, fun h => (by cases h), fun j' hj' => ⟨fun _ hd => ?_, Or.inl fun _ _ _ h => h⟩⟩
        rcases hd with ⟨e, hr, _⟩ | ⟨_, e, hr⟩
        · exact absurd hr (no_room' hn hav e)
        · exact absurd hr (no_room' hn hav e)
      refine HoareE.ite (fun _ => ?_) fun hbr => ?_
      rotate_left
      · have hb0 : j.blacklist = [] := by
          refine Classical.byContradiction fun hne => hbr (Or.inr (Or.inr (Or.inl hne)))
        refine HoareE.bind (submitTask_sweep hn m []) fun _ => HoareE.pure fun s h => ?_
        refine ⟨h.1, Keep.of_eq h.2.1, fun _ => h.2.2.1, fun j' hj' => ⟨fun h => (by cases h), Or.inl fun e he => ?_⟩⟩
        rw [hj] at hj'; cases hj'
        rw [hb0] at he; cases he
      refine HoareE.bind (filterCanRun_sweep j s₁ _) fun is s₂ h₂ => ?_
      obtain ⟨rfl, hnil, hbl⟩ := h₂
      refine (HoareE.ite (fun his => ?_) fun his => ?_ : HoareE (fun x => x = s₂) _ _ _) s₂ rfl
      rotate_left
      · refine HoareE.bind (submitTask_sweep hn m is) fun _ => HoareE.pure fun s h => ?_
        refine ⟨h.1, Keep.of_eq h.2.1, fun _ => h.2.2.1, fun j' hj' => ⟨fun h => (by cases h), Or.inl fun e he l hl => ?_⟩⟩
        rw [hj] at hj'; cases hj'
        obtain ⟨i, hi, t, ht, hk⟩ := h.2.2.2 his
        exact hk e l (fun hh => hbl i hi t ht (hh ▸ he)) hl
      have hable : ∀ e, Room cfg s₂ e → ¬ AbleJ s₂ j e := fun e he => by
        obtain ⟨i, h1, h2, h3⟩ := room_index' hn he
        exact (hnil his i h1 e h2).resolve_left h3
      have hfailing : ∀ s₁, Hand m s₂ { s₁ with queueMap := insertSet m s₁.queueMap } → HoareE (fun x => x = s₁) (do addQueueMap m; failUnreachable cfg n m .impossible; return false)
          (fun b s' => Go s₂ s' ∧ Keep s₂ s' ∧ (b = true → Act s₂ s' m) ∧ ∀ j, s₂.jobs m = some j →
            (b = false → ((∃ e, Room cfg s₂ e ∧ AbleJ s₂ j e) ∨ (DeadJ s₂ j ∧ ∃ e, Room cfg s₂ e)) → Act s₂ s' m) ∧
            ((∀ e ∈ j.blacklist, ∀ l, HasLoad s₂ e l → HasLoad s' e l) ∨ (Tight cfg s₂ → Swept cfg s₂ s'))) AnyErr := by
        intro s₁ hx
        refine HoareE.addQueueMap fun s hs => ?_
        subst hs
        refine HoareE.bind (ih.fail m .impossible s₂ _ hn hx) fun _ => HoareE.pure fun s h => ?_
        exact ⟨h.1, h.2.1, fun h => (by cases h), fun j' _ => ⟨fun _ _ => h.2.2.1, Or.inr h.2.2.2.2⟩⟩
      refine HoareE.bind (followImpossible_sweep j s₂) fun b s₃ h₃ => ?_
      obtain ⟨rfl, hfi⟩ := h₃
      refine (HoareE.ite (fun _ => hfailing s₃ ?_) fun hb => ?_ : HoareE (fun x => x = s₃) _ _ _) s₃ rfl
      · exact ⟨rfl, rfl, rfl, rfl, rfl, rfl, rfl, rfl, rfl, fun x => by simp, fun _ _ => rfl, fun j' hj' => ⟨j', hj', rfl, rfl, rfl⟩⟩
      have hfi := hfi (by simpa using hb)
      unfold targetsImpossible
      by_cases hne : j.targets ≠ []
      · rw [if_pos hne]
        refine HoareE.bind (R := fun b s => s = { s₃ with jobs := Sched.upd s₃.jobs m (some { j with targets := j.targets.filter (fun e => e ∉ j.blacklist) }) } ∧
          (b = false → ¬ ∀ t ∈ j.targets, t ∈ j.blacklist ∨ t ∉ s₃.targets) ∧ (b = false → j.targets.filter (fun e => e ∉ j.blacklist) ≠ [])) ?_ fun b s₄ h₄ => ?_
        · refine HoareE.setJob fun s hs => ?_
          subst hs
          refine HoareE.getS fun s' hs => ?_
          subst hs
          refine HoareE.pure fun s' hs => ⟨hs, fun hb hall => ?_, fun hb hh => ?_⟩
          · rw [decide_eq_false_iff_not] at hb
            refine hb (Or.inr (List.filter_eq_nil_iff.mpr fun t ht => ?_))
            obtain ⟨h1, h2⟩ := List.mem_filter.mp ht
            rw [decide_eq_true_eq] at h2
            have := (hall t h1).resolve_left h2
            simpa using this
          · rw [decide_eq_false_iff_not] at hb
            exact hb (Or.inl hh)
        · obtain ⟨rfl, hall, hf⟩ := h₄
          refine (HoareE.ite (fun _ => hfailing _ ?_) fun hb => HoareE.pure fun s hs => ?_ : HoareE (fun x => x = _) _ _ _) _ rfl
          · refine ⟨rfl, rfl, rfl, rfl, rfl, rfl, rfl, rfl, rfl, fun x => by simp, fun x hx => upd_ne _ _ hx, fun j' hj' => ?_⟩
            rw [hj] at hj'; cases hj'
            exact ⟨_, upd_self _ _ _, rfl, rfl, rfl⟩
          · have hb : b = false := by simpa using hb
            have hgo : Go s₃ s := by
              rw [hs]
              refine ⟨{ Env.refl s₃ with }, fun x => ⟨fun jx hx => ?_, Or.inl⟩, fun _ h => h, fun hn => ⟨hn.len, hn.nodup, fun x jx hx hr => ?_⟩, fun x jx hx hr => Or.inl ?_⟩
              · by_cases hxm : x = m
                · rw [hxm, hj] at hx; cases hx
                  refine ⟨{ j with targets := j.targets.filter (fun e => e ∉ j.blacklist) }, by rw [hxm]; exact upd_self _ _ _, rfl, rfl, rfl, id, Or.inr ⟨fun t ht => (List.mem_filter.mp ht).1, fun t ht => ?_, fun _ => hf hb⟩⟩
                  by_cases htb : t ∈ j.blacklist
                  · exact Or.inr htb
                  · left; simp [ht, htb]
                · exact ⟨jx, by dsimp only; rw [upd_ne _ _ hxm]; exact hx, JobStep.refl jx⟩
              · dsimp only at hx
                by_cases hxm : x = m
                · rw [hxm, upd_self] at hx; cases hx
                  rw [hxm]
                  exact hn.gone m j hj hr
                · rw [upd_ne _ _ hxm] at hx; exact hn.gone x jx hx hr
              · dsimp only at hx
                by_cases hxm : x = m
                · rw [hxm, upd_self] at hx; cases hx
                  exact ⟨j, by rw [hxm]; exact hj, hr⟩
                · rw [upd_ne _ _ hxm] at hx; exact ⟨jx, hx, hr⟩
            refine ⟨hgo, Keep.of_eq (by rw [hs]), fun h => (by cases h), fun j' hj' => ⟨fun _ hd => ?_, Or.inl fun e _ l hl => by rw [hs]; exact hl⟩⟩
            rw [hj] at hj'; cases hj'
            rcases hd with ⟨e, hr, ha⟩ | ⟨hd | hd, _⟩
            · exact absurd ha (hable e hr)
            · exact absurd hd hfi
            · exact absurd hd.2 (hall hb)
      · rw [if_neg hne]
        refine (HoareE.bind (R := fun b s => s = s₃ ∧ b = false) (HoareE.pure fun s hs => ⟨hs, rfl⟩) fun b s₄ h₄ => ?_)
        obtain ⟨rfl, rfl⟩ := h₄
        refine ⟨Go.refl _, Keep.of_eq rfl, fun h => (by cases h), fun j' hj' => ⟨fun _ hd => ?_, Or.inl fun _ _ _ h => h⟩⟩
        rw [hj] at hj'; cases hj'
        rcases hd with ⟨e, hr, ha⟩ | ⟨hd | hd, _⟩
        · exact absurd ha (hable e hr)
        · exact absurd hd hfi
        · exact absurd hd.1 hne
    · -- processJob
      intro m s₀ hn
      unfold processJob
      refine HoareE.getS fun s hs => ?_
      subst hs
      refine HoareE.getJob (fun _ _ _ => trivial) fun s₁ j hs₁ hj => ?_
      subst hs₁
      refine HoareE.ite (fun hr => HoareE.pure fun s hs => ?_) fun hr => ?_
      · subst hs; exact ⟨Go.refl _, Keep.of_eq rfl, fun _ => hn.gone m j hj hr, by simp, by simp⟩
      refine HoareE.ite (fun hun => ?_) fun hun => ?_
      · by_cases hm : m ∈ s₁.queueMap
        · refine HoareE.bind (ih.fail m .impossible s₁ s₁ hn ⟨rfl, rfl, rfl, rfl, rfl, rfl, rfl, rfl, rfl, fun x => ⟨Or.inr, fun h => h.elim (fun h => h ▸ hm) id⟩, fun _ _ => rfl,
            fun j' hj' => ⟨j', hj', rfl, rfl, rfl⟩⟩) fun _ => HoareE.pure fun s h => ?_
          exact ⟨h.1, h.2.1, fun _ => h.2.2.2.1, by simp, by simp⟩
        · refine HoareE.bind (failUnreachable_skip n m .impossible s₁ hm) fun _ => HoareE.pure fun s h => ?_
          subst h
          exact ⟨Go.refl _, Keep.of_eq rfl, fun _ => hm, by simp, by simp⟩
      simp only [Bool.or_eq_true, not_or, Bool.not_eq_true] at hun
      refine HoareE.ite (fun hck => ?_) fun hck => HoareE.pure fun s hs => ?_
      · refine HoareE.bind (ih.may m s₁ hn) fun b s₂ h₂ => ?_
        obtain ⟨g2, k2, a2, m2⟩ := h₂
        refine (HoareE.ite (fun hb => ?_) fun hb => HoareE.pure fun s hs => ?_ : HoareE (fun x => x = s₂) _ _ _) s₂ rfl
        · refine HoareE.getS fun s hs => ?_
          subst hs
          refine HoareE.ite (fun _ => HoareE.bind (R := fun _ _ => False) (HoareE.throwE fun _ _ => trivial) fun _ _ h => h.elim) fun _ => ?_
          refine HoareE.modS fun s₃ h₃ => ?_
          subst h₃
          refine HoareE.getJob (fun _ _ _ => trivial) fun s₄ j' h₄ _ => ?_
          subst h₄
          refine HoareE.bind (removeFromGraph_sweep m j'.dependents _) fun _ => ?_
          refine HoareE.getS fun s₅ h₅ => ?_
          obtain ⟨gr, rfl⟩ := h₅
          have hgo : Go s₁ { s₃ with
              queueMap := s₃.queueMap.filter (· ≠ m)
              graph := gr } := (g2.drop (a2 hb)).trans (Go.congr rfl rfl rfl rfl rfl rfl rfl rfl rfl rfl)
          have hk : Keep s₁ { s₃ with
              queueMap := s₃.queueMap.filter (· ≠ m)
              graph := gr } := fun x hx hq => k2 x hx (List.mem_filter.mp hq).1
          have hnm : m ∉ s₃.queueMap.filter (· ≠ m) := by simp
          refine HoareE.ite (fun hav => HoareE.pure fun s hs => ?_) fun _ => HoareE.pure fun s hs => ?_
          · subst hs; exact ⟨hgo, hk, fun _ => hnm, by simp, fun _ => no_room' (hgo.neat hn) hav⟩
          · subst hs; exact ⟨hgo, hk, fun _ => hnm, by simp, by simp⟩
        · subst hs
          refine ⟨g2, k2, by simp, fun _ hd => (m2 j hj).1 (by simpa using hb) ?_, by simp⟩
          rcases hd with ⟨e, hr, j', hj', _, ha⟩ | ⟨⟨j', hj', hd⟩, hr⟩
          · rw [hj] at hj'; cases hj'
            exact Or.inl ⟨e, g2.env.room hr, ha⟩
          · rw [hj] at hj'; cases hj'
            rcases hd with hd | hd | hd
            · rw [hun.1] at hd; cases hd
            · rw [hun.2] at hd; cases hd
            · exact Or.inr ⟨hd.2, hr.imp fun _ => g2.env.room⟩
      · subst hs
        refine ⟨Go.refl _, Keep.of_eq rfl, by simp, fun _ hd => ?_, by simp⟩
        exfalso
        rcases hd with ⟨e, hr, j', hj', hc, ha⟩ | ⟨⟨j', hj', hd⟩, hr⟩
        · rw [hj] at hj'; cases hj'
          exact hck hc
        · rw [hj] at hj'; cases hj'
          rcases hd with hd | hd | hd
          · rw [hun.1] at hd; cases hd
          · rw [hun.2] at hd; cases hd
          · exact hck hd.1
    · -- loopQueue
      intro l s₀ hn
      unfold loopQueue
      refine HoareE.getS fun s hs => ?_
      subst hs
      split
      · rename_i hq
        refine HoareE.modS_last fun s' h' => ?_
        subst h'
        refine ⟨Go.congr rfl rfl rfl rfl rfl rfl rfl rfl rfl rfl, fun x hx _ => by simpa using hx, fun x hx => by rw [hq] at hx; cases hx⟩
      · rename_i m q hq
        refine HoareE.modS fun s' h' => ?_
        subst h'
        have g0 : Go s' { s' with queue := q } := Go.congr rfl rfl rfl rfl rfl rfl rfl rfl rfl rfl
        refine HoareE.bind (ih.job m _ (g0.neat hn)) fun o s₂ h₂ => ?_
        obtain ⟨g1, k1, q1, w1, r1⟩ := h₂
        have g := g0.trans g1
        -- what happens to the rest
        have rest : ∀ s₃, Go s₂ s₃ → Swept cfg s₂ s₃ → (o = .keep → ∀ x, x = m → x ∈ s'.queueMap → Due cfg s' s₃ x → Act s' s₃ x) → Swept cfg s' s₃ := by
          intro s₃ g3 w3 hk x hx hxq hd
          rw [hq] at hx
          rcases (g.tsk x).left hxq with a | a
          · rcases List.mem_cons.mp hx with rfl | hx
            · by_cases ho : o = .keep
              · exact hk ho x rfl hxq hd
              · exact absurd a (q1 ho)
            · exact (w3 x (k1 x hx a) a (hd.later g.env (g.tsk x) (g.neat hn) a)).earlier g.env
          · exact a.later g3.env
        cases o with
        | gone =>
          refine ((ih.lq l s₂ (g.neat hn)).conseq (P := fun s => s = s₂) (fun _ h => h) (fun _ s₃ h => ?_) (fun _ _ h => h)) s₂ rfl
          obtain ⟨g3, k3, w3⟩ := h
          refine ⟨g.trans g3, fun x hx hq3 => ?_, rest s₃ g3 w3 (fun h => by cases h)⟩
          rw [hq] at hx
          rcases List.mem_append.mp hx with hx | hx
          · exact k3 x (List.mem_append_left _ hx) hq3
          · rcases List.mem_cons.mp hx with rfl | hx
            · exact absurd (g3.qm x hq3) (q1 (by simp))
            · exact k3 x (List.mem_append_right _ (k1 x hx (g3.qm x hq3))) hq3
        | keep =>
          refine ((ih.lq (l ++ [m]) s₂ (g.neat hn)).conseq (P := fun s => s = s₂) (fun _ h => h) (fun _ s₃ h => ?_) (fun _ _ h => h)) s₂ rfl
          obtain ⟨g3, k3, w3⟩ := h
          refine ⟨g.trans g3, fun x hx hq3 => ?_, rest s₃ g3 w3 fun _ x hxm hxq hd => ?_⟩
          · rw [hq] at hx
            rcases List.mem_append.mp hx with hx | hx
            · exact k3 x (by simp [hx]) hq3
            · rcases List.mem_cons.mp hx with rfl | hx
              · exact k3 x (by simp) hq3
              · exact k3 x (List.mem_append_right _ (k1 x hx (g3.qm x hq3))) hq3
          · subst hxm
            exact ((w1 rfl (hd.sooner g3.env)).earlier g0.env).later g3.env
        | stop =>
          refine (HoareE.modS_last (P := fun s => s = s₂) fun s h => ?_ : HoareE (fun s => s = s₂) (modS fun s => { s with queue := l.reverse ++ s.queue })
            (fun _ s'' => Go s' s'' ∧ (∀ x ∈ l ++ s'.queue, x ∈ s''.queueMap → x ∈ s''.queue) ∧ Swept cfg s' s'') AnyErr) s₂ rfl
          subst h
          have g3 : Go s { s with queue := l.reverse ++ s.queue } := Go.congr rfl rfl rfl rfl rfl rfl rfl rfl rfl rfl
          refine ⟨g.trans g3, fun x hx hq3 => ?_, fun x _ _ hd => ?_⟩
          · rw [hq] at hx
            show x ∈ l.reverse ++ s.queue
            rcases List.mem_append.mp hx with hx | hx
            · simp [hx]
            · rcases List.mem_cons.mp hx with rfl | hx
              · exact absurd hq3 (q1 (by simp))
              · exact List.mem_append_right _ (k1 x hx hq3)
          · exfalso
            rcases hd with ⟨e, hr, _⟩ | ⟨_, e, hr⟩
            · exact r1 rfl e hr
            · exact r1 rfl e hr
    · -- loopJobs
      intro ms s₀ hn
      unfold loopJobs
      split
      · exact HoareE.pure fun s hs => by subst hs; exact ⟨Go.refl _, Keep.of_eq rfl⟩
      · rename_i m ms
        refine HoareE.bind (ih.job m s₀ hn) fun o s₂ h₂ => ?_
        obtain ⟨g1, k1, _⟩ := h₂
        have hrec : HoareE (fun s => s = s₂) (loopJobs cfg n ms) (fun _ s' => Go s₀ s' ∧ Keep s₀ s') AnyErr :=
          (ih.lj ms s₂ (g1.neat hn)).conseq (fun _ h => h) (fun _ s h => ⟨g1.trans h.1, k1.trans h.2 h.1⟩) (fun _ _ h => h)
        cases o with
        | gone => exact hrec s₂ rfl
        | keep => exact hrec s₂ rfl
        | stop => exact ⟨g1, k1⟩
    · -- updateGraph
      intro d s₀ hn
      unfold updateGraph
      refine HoareE.getS fun s hs => ?_
      subst hs
      have hrest : ∀ (ms : List MsgId) (s₂ : State), Go s s₂ → s₂.queue = s.queue →
          HoareE (fun x => x = s₂) (if d = none ∨ (cfg.hwm ≠ 0 ∧ s.loads.any (fun l => l = (cfg.hwm : Int) - 1)) then
              loopQueue cfg n []
            else do
              if ms.any (fun m => m ∉ s.queueMap) then throwE .keyError
              loopJobs cfg n (sortByTime (fun m => ((s.jobs m).map Job.timestamp).getD 0) ms))
            (fun _ s' => Go s s' ∧ Keep s s' ∧ (d = none ∨ Tight cfg s → Swept cfg s s')) AnyErr := by
        intro ms s₂ u1 u2
        refine HoareE.ite (fun _ => ?_) fun hc => ?_
        · refine (ih.lq [] s₂ (u1.neat hn)).conseq (fun _ h => h) (fun _ s' h => ?_) (fun _ _ h => h)
          obtain ⟨g3, k3, w3⟩ := h
          exact ⟨u1.trans g3, fun x hx => k3 x (by simpa [u2] using hx), fun _ => w3.before u1 (Keep.of_eq u2) g3 hn⟩
        · refine HoareE.ite (fun _ => HoareE.bind (R := fun _ _ => False) (HoareE.throwE fun _ _ => trivial) fun _ _ h => h.elim) fun _ => ?_
          refine (ih.lj _ s₂ (u1.neat hn)).conseq (fun _ h => h) (fun _ s' h => ?_) (fun _ _ h => h)
          exact ⟨u1.trans h.1, (Keep.of_eq u2).trans h.2 h.1, fun hh => absurd hh hc⟩
      cases d with
      | none => exact hrest _ s (Go.refl _) rfl
      | some d =>
        dsimp only
        refine HoareE.modS fun s₂ h₂ => ?_
        subst h₂
        exact hrest _ _ (Go.congr rfl rfl rfl rfl rfl rfl rfl rfl rfl rfl) rfl

end IPP.Sched
