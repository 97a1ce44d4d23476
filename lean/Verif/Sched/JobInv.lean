import Verif.Sched.Inv

/-!
# Invariants about where and when tasks are sent (lemmas)
-/
namespace IPP.Sched

theorem _root_.IPP.Satisfied.mono {d : Dep} {c f c' f' : List MsgId} (hc : ∀ i ∈ c, i ∈ c') (hf : ∀ i ∈ f, i ∈ f') (h : Satisfied d c f) :
    Satisfied d c' f' := by
  have hacc : ∀ i, Acceptable d c f i → Acceptable d c' f' i := by
    rintro i (⟨a, b⟩ | ⟨a, b⟩)
    · exact Or.inl ⟨a, hc i b⟩
    · exact Or.inr ⟨a, hf i b⟩
  rcases h with h | ⟨ha, h⟩ | ⟨ha, i, hi, h⟩
  · exact Or.inl h
  · exact Or.inr (Or.inl ⟨ha, fun i hi => hacc i (h i hi)⟩)
  · exact Or.inr (Or.inr ⟨ha, i, hi, hacc i h⟩)

/-- What must hold when task `m` is sent to `e` after trace `p` (targets are treated separately). -/
def SendOk (p : List Obs) (e : Engine) (m : MsgId) : Prop :=
  Registered e p ∧ (∀ c, Obs.retry e m c ∉ p) ∧ ∃ sub, Obs.submitted m sub ∈ p ∧
    Satisfied sub.follow (okOn e p) (failOn e p) ∧ ∀ a, sub.after = some a → Satisfied a (okIds p) (failIds p)

structure JobInv (s : State) : Prop where
  ok : ∀ m ∈ s.allCompleted, m ∈ okIds s.trace
  bad : ∀ m ∈ s.allFailed, m ∈ failIds s.trace
  okE : ∀ e c, s.completed e = some c → ∀ m ∈ c, m ∈ okOn e s.trace
  badE : ∀ e c, s.failed e = some c → ∀ m ∈ c, m ∈ failOn e s.trace
  job : ∀ m j, s.jobs m = some j → ∃ sub, Obs.submitted m sub ∈ s.trace ∧ j.follow = sub.follow ∧
    (∀ t ∈ j.targets, t ∈ sub.targets) ∧ (∀ e c, Obs.retry e m c ∈ s.trace → e ∈ j.blacklist) ∧
    ∀ C F, (∀ i ∈ s.allCompleted, i ∈ C) → (∀ i ∈ s.allFailed, i ∈ F) → Satisfied j.after C F →
      ∀ a, sub.after = some a → Satisfied a C F
  pend : ∀ e p m, s.pending e = some p → m ∈ p → Obs.send e m ∈ s.trace
  retr : ∀ e m c, Obs.retry e m c ∈ s.trace → Obs.send e m ∈ s.trace
  uniq : ∀ m sub sub', Obs.submitted m sub ∈ s.trace → Obs.submitted m sub' ∈ s.trace → sub = sub'
  sent : ∀ p e m q, s.trace = p ++ .send e m :: q → SendOk p e m

theorem snoc_split {tr : List Obs} {o : Obs} {p : List Obs} {x : Obs} {q : List Obs} (h : tr ++ [o] = p ++ x :: q) :
    (q = [] ∧ tr = p ∧ o = x) ∨ ∃ q', q = q' ++ [o] ∧ tr = p ++ x :: q' := by
  rcases List.eq_nil_or_concat q with rfl | ⟨q', y, rfl⟩
  · left
    have := List.append_inj' h rfl
    exact ⟨rfl, this.1, by simpa using this.2⟩
  · right
    have h' : tr ++ [o] = (p ++ x :: q') ++ [y] := by simpa using h
    have := List.append_inj' h' rfl
    have hy : o = y := by simpa using this.2
    exact ⟨q', by simp [hy], this.1⟩

/-- Observations that are not sends, retries or submissions. -/
def jobNeutral : Obs → Prop
  | .submitted .. | .retry .. | .send .. => False
  | _ => True

theorem JobInv.emit {s : State} {o : Obs} (ho : jobNeutral o) (h : JobInv s) : JobInv { s with trace := s.trace ++ [o] } := by
  have h1 : ∀ m sub, Obs.submitted m sub ∈ s.trace ++ [o] → Obs.submitted m sub ∈ s.trace := by
    intro m sub hm
    rcases List.mem_append.mp hm with hm | hm
    · exact hm
    · simp at hm; subst hm; exact ho.elim
  have h2 : ∀ e m c, Obs.retry e m c ∈ s.trace ++ [o] → Obs.retry e m c ∈ s.trace := by
    intro e m c hm
    rcases List.mem_append.mp hm with hm | hm
    · exact hm
    · simp at hm; subst hm; exact ho.elim
  refine ⟨?_, ?_, ?_, ?_, ?_, ?_, ?_, ?_, ?_⟩
  · intro m hm; simp only [okIds, List.filterMap_append]; exact List.mem_append_left _ (h.ok m hm)
  · intro m hm; simp only [failIds, List.filterMap_append]; exact List.mem_append_left _ (h.bad m hm)
  · intro e c hc m hm; simp only [okOn, List.filterMap_append]; exact List.mem_append_left _ (h.okE e c hc m hm)
  · intro e c hc m hm; simp only [failOn, List.filterMap_append]; exact List.mem_append_left _ (h.badE e c hc m hm)
  · intro m j hj
    obtain ⟨sub, a, b, c, d, e⟩ := h.job m j hj
    exact ⟨sub, List.mem_append_left _ a, b, c, fun e' c' hc' => d e' c' (h2 _ _ _ hc'), e⟩
  · exact fun e p m hp hm => List.mem_append_left _ (h.pend e p m hp hm)
  · exact fun e m c hc => List.mem_append_left _ (h.retr e m c (h2 _ _ _ hc))
  · exact fun m sub sub' a b => h.uniq m sub sub' (h1 _ _ a) (h1 _ _ b)
  · intro p e m q hq
    rcases snoc_split hq with ⟨_, _, rfl⟩ | ⟨q', _, hq'⟩
    · exact ho.elim
    · exact h.sent p e m q' hq'

theorem JobInv.congr {s s' : State} (h : JobInv s) (htr : s'.trace = s.trace) (hc : s'.allCompleted = s.allCompleted)
    (hf : s'.allFailed = s.allFailed) (hce : ∀ e c, s'.completed e = some c → s.completed e = some c)
    (hfe : ∀ e c, s'.failed e = some c → s.failed e = some c) (hj : ∀ m, JobLe (s.jobs m) (s'.jobs m))
    (hp : ∀ e p m, s'.pending e = some p → m ∈ p → Obs.send e m ∈ s.trace) : JobInv s' := by
  refine ⟨?_, ?_, ?_, ?_, ?_, ?_, ?_, ?_, ?_⟩
  all_goals simp only [htr, hc, hf]
  · exact h.ok
  · exact h.bad
  · exact fun e c hc => h.okE e c (hce e c hc)
  · exact fun e c hc => h.badE e c (hfe e c hc)
  · intro m j' hj'
    have hle := hj m
    rw [hj'] at hle
    cases hs : s.jobs m with
    | none => rw [hs] at hle; exact hle.elim
    | some j =>
      rw [hs] at hle
      obtain ⟨h1, h2, h3, h4⟩ := hle
      obtain ⟨sub, a, b, c, d, e⟩ := h.job m j hs
      exact ⟨sub, a, h2.trans b, fun t ht => c t (h4.1 t ht), h3 ▸ d, h1 ▸ e⟩
  · exact hp
  · exact h.retr
  · exact h.uniq
  · exact h.sent

theorem JobInv.recvBase {s : State} {o : Obs} {e : Engine} {m : MsgId} {ok dm : Bool} {ev : Event}
    (ho : IsReply ev s o e m ok dm) (h : JobInv s) : JobInv (recvBase s o e) := by
  have hn : jobNeutral o := by rcases ho with ⟨rfl, _⟩ | ⟨rfl, _⟩ <;> trivial
  refine (h.emit hn).congr (by simp) (by simp) (by simp) (by simp) (by simp) (fun _ => by simpa using JobLe.refl _) ?_
  intro e p m hp hm
  simp at hp
  exact List.mem_append_left _ (h.pend e p m hp hm)

theorem JobInv.takeBack {s s' : State} {e : Engine} {m : MsgId} {c : Cause} (h : JobInv s) (ht : takeBack s e m c = some s') :
    JobInv s' := by
  obtain ⟨p, j, hp, hm, hj, rfl⟩ := takeBack_some ht
  refine ⟨?_, ?_, ?_, ?_, ?_, ?_, ?_, ?_, ?_⟩
  · intro m hm; simp only [okIds, List.filterMap_append]; exact List.mem_append_left _ (h.ok m hm)
  · intro m hm; simp only [failIds, List.filterMap_append]; exact List.mem_append_left _ (h.bad m hm)
  · intro e c hc m hm; simp only [okOn, List.filterMap_append]; exact List.mem_append_left _ (h.okE e c hc m hm)
  · intro e c hc m hm; simp only [failOn, List.filterMap_append]; exact List.mem_append_left _ (h.badE e c hc m hm)
  · intro m' j' hj'
    simp only [upd] at hj'
    by_cases hmm : m' = m
    · subst hmm
      simp only [if_true, Option.some.injEq] at hj'
      obtain ⟨sub, a, b, c', d, e'⟩ := h.job m' j hj
      refine ⟨sub, List.mem_append_left _ a, ?_, ?_, ?_, ?_⟩
      · rw [← hj']; exact b
      · rw [← hj']; exact c'
      · rw [← hj']
        intro e'' c'' hr
        simp only [mem_insertSet]
        rcases List.mem_append.mp hr with hr | hr
        · exact Or.inr (d _ _ hr)
        · simp at hr; exact Or.inl hr.1
      · rw [← hj']; exact e'
    · rw [if_neg hmm] at hj'
      obtain ⟨sub, a, b, c', d, e'⟩ := h.job m' j' hj'
      refine ⟨sub, List.mem_append_left _ a, b, c', ?_, e'⟩
      intro e'' c'' hr
      rcases List.mem_append.mp hr with hr | hr
      · exact d _ _ hr
      · simp at hr; exact absurd hr.2.1 hmm
  · intro e' p' m' hp' hm'
    simp only [upd] at hp'
    refine List.mem_append_left _ ?_
    by_cases he : e' = e
    · subst he
      simp only [if_true, Option.some.injEq] at hp'
      rw [← hp'] at hm'
      exact h.pend e' p m' hp (List.mem_filter.mp hm').1
    · rw [if_neg he] at hp'
      exact h.pend e' p' m' hp' hm'
  · intro e' m' c' hr
    refine List.mem_append_left _ ?_
    rcases List.mem_append.mp hr with hr | hr
    · exact h.retr e' m' c' hr
    · simp at hr
      rw [hr.1, hr.2.1]
      exact h.pend e p m hp hm
  · intro m' sub sub' a b
    refine h.uniq m' sub sub' ?_ ?_
    · simpa using a
    · simpa using b
  · intro p' e' m' q hq
    rcases snoc_split hq with ⟨_, _, h'⟩ | ⟨q', _, hq'⟩
    · cases h'
    · exact h.sent p' e' m' q' hq'

theorem mem_okIds {tr : List Obs} {e : Engine} {m : MsgId} (h : Obs.relay e m true ∈ tr) : m ∈ okIds tr :=
  List.mem_filterMap.mpr ⟨_, h, rfl⟩
theorem mem_failIds {tr : List Obs} {e : Engine} {m : MsgId} (h : Obs.relay e m false ∈ tr) : m ∈ failIds tr :=
  List.mem_filterMap.mpr ⟨_, h, rfl⟩
theorem mem_okOn {tr : List Obs} {e : Engine} {m : MsgId} (h : Obs.relay e m true ∈ tr) : m ∈ okOn e tr :=
  List.mem_filterMap.mpr ⟨_, h, by simp⟩
theorem mem_failOn {tr : List Obs} {e : Engine} {m : MsgId} (h : Obs.relay e m false ∈ tr) : m ∈ failOn e tr :=
  List.mem_filterMap.mpr ⟨_, h, by simp⟩

theorem reduceIds_sound (s : State) (a : Dep) (C F : List MsgId) (hC : ∀ i ∈ s.allCompleted, i ∈ C)
    (hF : ∀ i ∈ s.allFailed, i ∈ F) (hsat : Satisfied (reduceIds s a) C F) : Satisfied a C F := by
  by_cases hall : a.all = true
  · -- every id of `a` that was dropped is already finished acceptably
    have hids : ∀ i ∈ a.ids, i ∈ (reduceIds s a).ids ∨ (a.success = true ∧ i ∈ s.allCompleted) ∨
        (a.failure = true ∧ i ∈ s.allFailed) := by
      intro i hi
      unfold reduceIds
      by_cases hs : a.success = true <;> by_cases hf : a.failure = true <;>
        simp only [hall, hs, hf, if_true, if_false, mem_difference, Bool.false_eq_true] <;>
        by_cases h1 : i ∈ s.allCompleted <;> by_cases h2 : i ∈ s.allFailed <;> simp_all
    have hflags : (reduceIds s a).all = true ∧ (reduceIds s a).success = a.success ∧ (reduceIds s a).failure = a.failure := by
      unfold reduceIds
      by_cases hs : a.success = true <;> by_cases hf : a.failure = true <;> simp [hs, hf, hall]
    refine Or.inr (Or.inl ⟨hall, fun i hi => ?_⟩)
    rcases hids i hi with hb' | ⟨h1, h2⟩ | ⟨h1, h2⟩
    · rcases hsat with h0 | ⟨_, h0⟩ | ⟨h0, _⟩
      · rw [h0] at hb'; simp at hb'
      · have := h0 i hb'
        unfold Acceptable at this ⊢
        rw [hflags.2.1, hflags.2.2] at this
        exact this
      · rw [hflags.1] at h0; cases h0
    · exact Or.inl ⟨h1, hC i h2⟩
    · exact Or.inr ⟨h1, hF i h2⟩
  · unfold reduceIds at hsat
    rw [if_neg hall] at hsat
    exact hsat

/-- Reducing a dependency at submission does not change what it will mean. -/
theorem reduceAfter_sound (s : State) (after : Option Dep) (C F : List MsgId) (hC : ∀ i ∈ s.allCompleted, i ∈ C)
    (hF : ∀ i ∈ s.allFailed, i ∈ F) (h : Satisfied (reduceAfter s after) C F) : ∀ a, after = some a → Satisfied a C F := by
  rintro a rfl
  unfold reduceAfter at h
  dsimp only at h
  split at h
  · rename_i hchk
    rw [check_iff] at hchk
    exact reduceIds_sound s a C F hC hF (hchk.mono hC hF)
  · exact reduceIds_sound s a C F hC hF h

theorem jobInv_submit {s : State} (h : JobInv s) (m : MsgId) (sub : Submission) (hfresh : ∀ sub, Obs.submitted m sub ∉ s.trace)
    (jobs : MsgId → Option Job)
    (hjobs : jobs = s.jobs ∨ ∃ j, jobs = upd s.jobs m (some j) ∧ j.follow = sub.follow ∧ j.targets = sub.targets ∧ j.blacklist = [] ∧
      j.after = reduceAfter s sub.after)
    (s' : State) (htr : s'.trace = s.trace ++ [.submitted m sub]) (hj : s'.jobs = jobs)
    (hc : s'.allCompleted = s.allCompleted) (hf : s'.allFailed = s.allFailed) (hce : s'.completed = s.completed)
    (hfe : s'.failed = s.failed) (hp : s'.pending = s.pending) : JobInv s' := by
  have hsub : ∀ m' sub', Obs.submitted m' sub' ∈ s.trace → m' ≠ m := by
    rintro m' sub' hm rfl
    exact hfresh _ hm
  refine ⟨?_, ?_, ?_, ?_, ?_, ?_, ?_, ?_, ?_⟩
  all_goals simp only [htr, hj, hc, hf, hce, hfe, hp]
  · intro m hm; simp only [okIds, List.filterMap_append]; exact List.mem_append_left _ (h.ok m hm)
  · intro m hm; simp only [failIds, List.filterMap_append]; exact List.mem_append_left _ (h.bad m hm)
  · intro e c hc m hm; simp only [okOn, List.filterMap_append]; exact List.mem_append_left _ (h.okE e c hc m hm)
  · intro e c hc m hm; simp only [failOn, List.filterMap_append]; exact List.mem_append_left _ (h.badE e c hc m hm)
  · have hold : ∀ m' j', s.jobs m' = some j' → _ := h.job
    have hlift : ∀ m' j', s.jobs m' = some j' → ∃ sub', Obs.submitted m' sub' ∈ s.trace ++ [Obs.submitted m sub] ∧ j'.follow = sub'.follow ∧
        (∀ t ∈ j'.targets, t ∈ sub'.targets) ∧ (∀ e c, Obs.retry e m' c ∈ s.trace ++ [Obs.submitted m sub] → e ∈ j'.blacklist) ∧
        ∀ C F, (∀ i ∈ s.allCompleted, i ∈ C) → (∀ i ∈ s.allFailed, i ∈ F) → Satisfied j'.after C F →
          ∀ a, sub'.after = some a → Satisfied a C F := by
      intro m' j' hj'
      obtain ⟨sub', a, b, c, d, e⟩ := h.job m' j' hj'
      exact ⟨sub', List.mem_append_left _ a, b, c, fun e' c' hr => d e' c' (by simpa using hr), e⟩
    rcases hjobs with rfl | ⟨j, rfl, h1, h2, h3, h4⟩
    · exact hlift
    · intro m' j' hj'
      by_cases hm : m' = m
      · subst hm
        simp only [upd, if_true, Option.some.injEq] at hj'
        subst hj'
        refine ⟨sub, by simp, h1, by rw [h2]; exact fun _ h => h, ?_, ?_⟩
        · intro e c hr
          have hr' : Obs.retry e m' c ∈ s.trace := by simpa using hr
          have hsnd := h.retr e m' c hr'
          obtain ⟨p, q, hpq⟩ := List.append_of_mem hsnd
          obtain ⟨_, _, sub', hs', _⟩ := h.sent p e m' q hpq
          exact absurd (by rw [hpq]; simp [hs']) (hfresh sub')
        · intro C F hC hF hsat
          rw [h4] at hsat
          exact reduceAfter_sound s sub.after C F hC hF hsat
      · simp only [upd, hm, if_false] at hj'
        exact hlift m' j' hj'
  · exact fun e p m hp hm => List.mem_append_left _ (h.pend e p m hp hm)
  · intro e m' c hr
    exact List.mem_append_left _ (h.retr e m' c (by simpa using hr))
  · intro m' s1 s2 a b
    rcases List.mem_append.mp a with a | a <;> rcases List.mem_append.mp b with b | b
    · exact h.uniq m' s1 s2 a b
    · simp at b; exact absurd b.1 (hsub _ _ a)
    · simp at a; exact absurd a.1 (hsub _ _ b)
    · simp at a b; rw [a.2, b.2]
  · intro p e m' q hq
    rcases snoc_split hq with ⟨_, _, h'⟩ | ⟨q', _, hq'⟩
    · cases h'
    · exact h.sent p e m' q' hq'

theorem jobInv_send {cfg : Config} {s : State} (hl : LoadInv cfg s) (h : JobInv s) (m : MsgId) (j : Job) (idx : Nat) (target : Engine)
    (hj : s.jobs m = some j) (ht : s.targets[idx]? = some target) (hb : target ∉ j.blacklist)
    (hf : j.follow.ids = [] ∨ ∃ c f, s.completed target = some c ∧ s.failed target = some f ∧ j.follow.check c (some f) = true)
    (ha : j.after.check s.allCompleted (some s.allFailed) = true ∨ ∃ e c, Obs.retry e m c ∈ s.trace) :
    JobInv (sentState s m idx target) := by
  obtain ⟨sub, a, b, c, d, e⟩ := h.job m j hj
  have hok : SendOk s.trace target m := by
    refine ⟨?_, fun c hc => hb (d _ _ hc), sub, a, ?_, ?_⟩
    · have := hl.reg target
      have h1 := List.count_pos_iff.mpr (List.mem_of_getElem? ht)
      unfold Registered
      omega
    · rcases hf with hf | ⟨cc, ff, h1, h2, h3⟩
      · rw [← b]; exact Or.inl hf
      · rw [check_iff] at h3
        rw [← b]
        exact h3.mono (h.okE _ _ h1) (h.badE _ _ h2)
    · intro a' ha'
      rcases ha with ha | ⟨e', c', hr⟩
      · rw [check_iff] at ha
        exact (e _ _ (fun _ h => h) (fun _ h => h) ha a' ha').mono h.ok h.bad
      · obtain ⟨p, q, hpq⟩ := List.append_of_mem (h.retr e' m c' hr)
        obtain ⟨_, _, sub', hs', _, hafter⟩ := h.sent p e' m q hpq
        have : sub' = sub := h.uniq m sub' sub (by rw [hpq]; simp [hs']) a
        subst this
        rw [hpq]
        refine (hafter a' ha').mono ?_ ?_
        · intro i hi; simp only [okIds, List.filterMap_append]; exact List.mem_append_left _ hi
        · intro i hi; simp only [failIds, List.filterMap_append]; exact List.mem_append_left _ hi
  have h0 : JobInv { s with trace := s.trace ++ [.send target m] } := by
    refine ⟨?_, ?_, ?_, ?_, ?_, ?_, ?_, ?_, ?_⟩
    · intro m hm; simp only [okIds, List.filterMap_append]; exact List.mem_append_left _ (h.ok m hm)
    · intro m hm; simp only [failIds, List.filterMap_append]; exact List.mem_append_left _ (h.bad m hm)
    · intro e c hc m hm; simp only [okOn, List.filterMap_append]; exact List.mem_append_left _ (h.okE e c hc m hm)
    · intro e c hc m hm; simp only [failOn, List.filterMap_append]; exact List.mem_append_left _ (h.badE e c hc m hm)
    · intro m' j' hj'
      obtain ⟨sub, a, b, c, d, e⟩ := h.job m' j' hj'
      exact ⟨sub, List.mem_append_left _ a, b, c, fun e' c' hc' => d e' c' (by simpa using hc'), e⟩
    · exact fun e p m hp hm => List.mem_append_left _ (h.pend e p m hp hm)
    · exact fun e m c hc => List.mem_append_left _ (h.retr e m c (by simpa using hc))
    · exact fun m sub sub' a b => h.uniq m sub sub' (by simpa using a) (by simpa using b)
    · intro p e m' q hq
      rcases snoc_split hq with ⟨_, h1, h2⟩ | ⟨q', _, hq'⟩
      · cases h2; exact h1 ▸ hok
      · exact h.sent p e m' q' hq'
  refine h0.congr (by simp) (by simp) (by simp) (by simp) (by simp) (fun _ => by simpa using JobLe.refl _) ?_
  intro e' p' m' hp' hm'
  rw [sentState_pending] at hp'
  split at hp'
  · exact h0.pend e' p' m' hp' hm'
  · rename_i p hp
    simp only [upd] at hp'
    by_cases he : e' = target
    · subst he
      simp only [if_true, Option.some.injEq] at hp'
      subst hp'
      rw [mem_insertSet] at hm'
      rcases hm' with rfl | hm'
      · simp
      · exact h0.pend e' p m' hp hm'
    · rw [if_neg he] at hp'
      exact h0.pend e' p' m' hp' hm'

theorem jobInv_closed (cfg : Config) (ev : Event) : Closed cfg ev (fun s => LoadInv cfg s ∧ JobInv s) := by
  intro s s' hm ⟨hl, h⟩
  refine ⟨loadInv_closed cfg ev s s' hm hl, ?_⟩
  cases hm with
  | book hs => exact h.congr hs.trace hs.allCompleted hs.allFailed hs.completed hs.failed hs.jobs (by rw [hs.pending]; exact h.pend)
  | fail s' m why hs hok =>
    have h' : JobInv s' :=
      h.congr hs.trace hs.allCompleted hs.allFailed hs.completed hs.failed hs.jobs (by rw [hs.pending]; exact h.pend)
    have h0 := h'.emit (o := .fail m why) trivial
    refine ⟨h0.ok, ?_, h0.okE, h0.badE, ?_, h0.pend, h0.retr, h0.uniq, h0.sent⟩
    · intro m' hm'
      simp only [failState, mem_insertSet] at hm'
      rcases hm' with rfl | hm'
      · simp [failState, failIds]
      · exact h0.bad m' hm'
    · intro m' j hj
      obtain ⟨sub, a, b, c, d, e⟩ := h0.job m' j hj
      refine ⟨sub, a, b, c, d, fun C F hC hF => e C F hC fun i hi => hF i ?_⟩
      simp only [failState, mem_insertSet]
      exact Or.inr hi
  | send m j idx target hj ht hlo hb htg hf ha => exact jobInv_send hl h m j idx target hj ht hb hf ha
  | register e hev hfresh =>
    have h0 := h.emit (o := .registered e) trivial
    refine ⟨h0.ok, h0.bad, ?_, ?_, h0.job, ?_, h0.retr, h0.uniq, h0.sent⟩
    · intro e' c hc m hm
      simp only [upd] at hc
      by_cases he : e' = e
      · simp [he] at hc; subst hc; simp at hm
      · rw [if_neg he] at hc; exact h0.okE e' c hc m hm
    · intro e' c hc m hm
      simp only [upd] at hc
      by_cases he : e' = e
      · simp [he] at hc; subst hc; simp at hm
      · rw [if_neg he] at hc; exact h0.badE e' c hc m hm
    · intro e' p m hp hm
      simp only [upd] at hp
      by_cases he : e' = e
      · simp [he] at hp; subst hp; simp at hm
      · rw [if_neg he] at hp; exact h0.pend e' p m hp hm
  | unregister e idx hev hidx =>
    have h0 := h.emit (o := .unregistered e) trivial
    exact h0.congr rfl rfl rfl (fun _ _ h => h) (fun _ _ h => h) (fun _ => JobLe.refl _) h0.pend
  | strand e he => exact h.congr rfl rfl rfl (fun _ _ h => h) (fun _ _ h => h) (fun _ => JobLe.refl _) h.pend
  | submit m sub hev hfresh => exact jobInv_submit h m sub hfresh s.jobs (Or.inl rfl) _ rfl rfl rfl rfl rfl rfl rfl
  | submitJob m sub j hev hfresh hj => exact jobInv_submit h m sub hfresh _ (Or.inr ⟨j, rfl, hj⟩) _ rfl rfl rfl rfl rfl rfl rfl
  | recv e m ok dm o ho => exact h.recvBase ho
  | recvDec e m o r ho =>
    have h0 := h.recvBase ho
    exact h0.congr rfl rfl rfl (fun _ _ h => h) (fun _ _ h => h) (fun _ => JobLe.refl _) h0.pend
  | recvRetry e m o r s' ho hr ht =>
    have h0 := h.recvBase ho
    exact JobInv.takeBack (h0.congr (s' := { recvBase s o e with retries := upd s.retries m (some r) }) rfl rfl rfl (fun _ _ h => h) (fun _ _ h => h) (fun _ => JobLe.refl _) h0.pend) ht
  | recvUnmet e m ok o s' ho ht => exact JobInv.takeBack (h.recvBase ho) ht
  | recvRelay e m ok o r ho =>
    have h0 := (h.recvBase ho).emit (o := .relay e m ok) trivial
    exact h0.congr rfl rfl rfl (fun _ _ h => h) (fun _ _ h => h) (fun _ => JobLe.refl _) h0.pend
  | popPending e p p' hp hsub =>
    refine h.congr rfl rfl rfl (fun _ _ h => h) (fun _ _ h => h) (fun _ => JobLe.refl _) ?_
    intro e' p'' m' hp'' hm'
    simp only [upd] at hp''
    by_cases he : e' = e
    · subst he
      simp only [if_true, Option.some.injEq] at hp''
      subst hp''
      exact h.pend e' p m' hp (hsub _ hm')
    · rw [if_neg he] at hp''; exact h.pend e' p'' m' hp'' hm'
  | complete e m c hr hc =>
    refine ⟨?_, h.bad, ?_, h.badE, ?_, h.pend, h.retr, h.uniq, h.sent⟩
    · intro m' hm'
      simp only [mem_insertSet] at hm'
      rcases hm' with rfl | hm'
      · exact mem_okIds hr
      · exact h.ok m' hm'
    · intro e' c' hc' m' hm'
      simp only [upd] at hc'
      by_cases he : e' = e
      · subst he
        simp only [if_true, Option.some.injEq] at hc'
        subst hc'
        rw [mem_insertSet] at hm'
        rcases hm' with rfl | hm'
        · exact mem_okOn hr
        · exact h.okE e' c hc m' hm'
      · rw [if_neg he] at hc'; exact h.okE e' c' hc' m' hm'
    · intro m' j hj
      obtain ⟨sub, a, b, c, d, e⟩ := h.job m' j hj
      refine ⟨sub, a, b, c, d, fun C F hC hF => e C F (fun i hi => hC i ?_) hF⟩
      simp only [mem_insertSet]; exact Or.inr hi
  | failedBy e m c hr hc =>
    refine ⟨h.ok, ?_, h.okE, ?_, ?_, h.pend, h.retr, h.uniq, h.sent⟩
    · intro m' hm'
      simp only [mem_insertSet] at hm'
      rcases hm' with rfl | hm'
      · exact mem_failIds hr
      · exact h.bad m' hm'
    · intro e' c' hc' m' hm'
      simp only [upd] at hc'
      by_cases he : e' = e
      · subst he
        simp only [if_true, Option.some.injEq] at hc'
        subst hc'
        rw [mem_insertSet] at hm'
        rcases hm' with rfl | hm'
        · exact mem_failOn hr
        · exact h.badE e' c hc m' hm'
      · rw [if_neg he] at hc'; exact h.badE e' c' hc' m' hm'
    · intro m' j hj
      obtain ⟨sub, a, b, c, d, e⟩ := h.job m' j hj
      refine ⟨sub, a, b, c, d, fun C F hC hF => e C F hC (fun i hi => hF i ?_)⟩
      simp only [mem_insertSet]; exact Or.inr hi

theorem jobInv_init : JobInv {} := by
  refine ⟨by simp, by simp, by simp, by simp, by simp, by simp, by simp, by simp, ?_⟩
  intro p e m q h
  simp at h

theorem run_jobInv (cfg : Config) (evs : List Event) (hf : Fresh evs) : JobInv (run cfg evs) :=
  (run_inv cfg evs hf (fun s => LoadInv cfg s ∧ JobInv s) ⟨loadInv_init cfg, jobInv_init⟩ fun ev _ => jobInv_closed cfg ev).2

end IPP.Sched
