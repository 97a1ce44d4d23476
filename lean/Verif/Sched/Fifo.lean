import Verif.Sched.WorkProps

/-!
# Plain tasks are sent in the order of their submission (lemmas)

For histories in which every task may run everywhere (no targets, dependencies or retries, no refusals) the queue is never put back in reverse order.
-/
namespace IPP.Sched

variable {cfg : Config} {s s' : State} {n : Nat}

/-- ids in order of submission -/
def subIds (tr : List Obs) : List MsgId := tr.filterMap fun
  | .submitted m _ => some m
  | _ => none

/-- submitted, neither sent nor answered -/
def Open (x : MsgId) (tr : List Obs) : Prop := sends x tr = 0 ∧ replies x tr = 0

/-- whenever a task is sent, no task submitted earlier is still open -/
def Fifo (tr : List Obs) : Prop := ∀ p e m q, tr = p ++ .send e m :: q → ∀ x, [x, m].Sublist (subIds p) → ¬ Open x p

/-- may run everywhere -/
def PlainJob (j : Job) : Prop := j.targets = [] ∧ j.blacklist = [] ∧ j.after.ids = [] ∧ j.follow.ids = []

structure Ord (L : List MsgId) (s : State) : Prop where
  wf : WF s
  plain : ∀ m j, s.jobs m = some j → PlainJob j
  ret : ∀ m r, s.retries m = some r → r = 0
  gr : ∀ d, s.graph d = none
  fifo : Fifo s.trace
  nd : (subIds s.trace).Nodup
  sub : L.Sublist (subIds s.trace)
  opn : ∀ x ∈ subIds s.trace, Open x s.trace → x ∈ L
  rem : ∀ m j, s.jobs m = some j → j.removed = true → ¬ Open m s.trace

theorem sends_snoc (m : MsgId) (tr : List Obs) (o : Obs) : sends m (tr ++ [o]) = sends m tr + (match o with
    | .send _ m' => if m' = m then 1 else 0
    | _ => 0) := by
  unfold sends
  rw [List.countP_append]
  cases o <;> simp [List.countP_cons, List.countP_nil]

theorem subIds_snoc (tr : List Obs) (o : Obs) : subIds (tr ++ [o]) = subIds tr ++ (match o with | .submitted m _ => [m] | _ => []) := by
  unfold subIds
  rw [List.filterMap_append]
  cases o <;> rfl

theorem Open.snoc {x : MsgId} {tr : List Obs} {o : Obs} (h : Open x (tr ++ [o])) : Open x tr := by
  unfold Open at *
  rw [sends_snoc, replies_snoc] at h
  omega

theorem Fifo.snoc {tr : List Obs} {o : Obs} (h : Fifo tr) (ho : ∀ e m, o = .send e m → ∀ x, [x, m].Sublist (subIds tr) → ¬ Open x tr) : Fifo (tr ++ [o]) := by
  intro p e m q hq x hx
  rcases List.eq_nil_or_concat q with rfl | ⟨q', o', rfl⟩
  · have := List.append_inj' (s₁ := tr) (s₂ := p) hq rfl
    obtain ⟨rfl, h2⟩ := this
    exact ho e m (by simpa using h2) x hx
  · have hq' : tr ++ [o] = (p ++ .send e m :: q') ++ [o'] := by rw [hq]; simp
    obtain ⟨h1, _⟩ := List.append_inj' hq' rfl
    exact h p e m q' h1 x hx

/-- an observation that is neither a submission nor a sending -/
def Dull : Obs → Bool
  | .submitted _ _ => false
  | .send _ _ => false
  | _ => true

theorem subIds_dull {tr : List Obs} {o : Obs} (ho : Dull o = true) : subIds (tr ++ [o]) = subIds tr := by
  rw [subIds_snoc]
  cases o <;> simp_all [Dull]

theorem Fifo.dull {tr : List Obs} {o : Obs} (h : Fifo tr) (ho : Dull o = true) : Fifo (tr ++ [o]) :=
  h.snoc fun e m he => by subst he; cases ho

/-- Only the fields that matter. -/
theorem Ord.congr {L : List MsgId} (h : Ord L s) (ht : s'.trace = s.trace) (hw : WF s') (hj : s'.jobs = s.jobs) (hr : s'.retries = s.retries) (hg : s'.graph = s.graph) : Ord L s' where
  wf := hw
  plain := by rw [hj]; exact h.plain
  ret := by rw [hr]; exact h.ret
  gr := by rw [hg]; exact h.gr
  fifo := by rw [ht]; exact h.fifo
  nd := by rw [ht]; exact h.nd
  sub := by rw [ht]; exact h.sub
  opn := by rw [ht]; exact h.opn
  rem := by rw [hj, ht]; exact h.rem

theorem Ord.dull {L : List MsgId} {o : Obs} (h : Ord L s) (ho : Dull o = true) : Ord L { s with trace := s.trace ++ [o] } where
  wf := h.wf
  plain := h.plain
  ret := h.ret
  gr := h.gr
  fifo := h.fifo.dull ho
  nd := by show (subIds (s.trace ++ [o])).Nodup; rw [subIds_dull ho]; exact h.nd
  sub := by show L.Sublist (subIds (s.trace ++ [o])); rw [subIds_dull ho]; exact h.sub
  opn := fun x hx hop => by
    have hx : x ∈ subIds (s.trace ++ [o]) := hx
    rw [subIds_dull ho] at hx
    exact h.opn x hx hop.snoc
  rem := fun m j hj hr hop => h.rem m j hj hr hop.snoc

theorem Ord.drop {L : List MsgId} {m : MsgId} (h : Ord (m :: L) s) (hm : ¬ Open m s.trace) : Ord L s := { h with
  sub := (List.sublist_cons_self m L).trans h.sub
  opn := fun x hx hop => by
    rcases List.mem_cons.mp (h.opn x hx hop) with rfl | h1
    · exact absurd hop hm
    · exact h1 }

/-- Before `m` in the order of submission nothing is open. -/
theorem Ord.head {L : List MsgId} {m : MsgId} (h : Ord (m :: L) s) (x : MsgId) (hx : [x, m].Sublist (subIds s.trace)) : ¬ Open x s.trace := by
  intro hop
  have hxm : x ∈ subIds s.trace := hx.subset (by simp)
  have hnd := h.nd
  have hne : x ≠ m := fun hh => by
    subst hh
    have := hnd.sublist hx
    simp at this
  rcases List.mem_cons.mp (h.opn x hxm hop) with h1 | h1
  · exact hne h1
  · have h2 : [m, x].Sublist (subIds s.trace) := ((List.singleton_sublist.mpr h1).cons_cons m).trans h.sub
    -- both orders in a list without duplicates
    generalize subIds s.trace = l at *
    clear hop h h1 hxm
    induction l with
    | nil => cases hx
    | cons a l ih =>
      have ⟨ha, hl⟩ := List.nodup_cons.mp hnd
      rcases List.sublist_cons_iff.mp hx with h3 | ⟨r, h3, h4⟩
      · rcases List.sublist_cons_iff.mp h2 with h5 | ⟨r', h5, h6⟩
        · exact ih h3 hl h5
        · injection h5 with h7 h8
          exact ha (h7 ▸ h3.subset (by simp))
      · injection h3 with h7 h8
        rcases List.sublist_cons_iff.mp h2 with h5 | ⟨r', h5, h6⟩
        · exact ha (h7 ▸ h5.subset (by simp))
        · injection h5 with h9 _
          exact hne (h7.trans h9.symm)

theorem submitTask_fifo {L L' : List MsgId} {m : MsgId} (is : List Nat) {s₀ : State} (h : Ord L s₀) (hx : ∀ x, [x, m].Sublist (subIds s₀.trace) → ¬ Open x s₀.trace)
    (hs : L'.Sublist (subIds s₀.trace)) (hL : ∀ x ∈ L, x = m ∨ x ∈ L') :
    HoareE (fun s => s = s₀) (submitTask cfg m is) (fun _ s' => Ord L' s' ∧ s'.queue = s₀.queue) AnyErr := by
  unfold submitTask
  refine HoareE.getS fun s₁ hs => ?_
  subst hs
  dsimp only
  split
  · exact HoareE.throwE fun _ _ => trivial
  split
  · exact HoareE.throwE fun _ _ => trivial
  rename_i idx _ _ t _
  refine HoareE.emit fun s₂ h₂ => ?_
  subst h₂
  refine HoareE.modS fun s₃ h₃ => ?_
  subst h₃
  refine HoareE.lookupE (fun _ _ _ => trivial) fun p _ => HoareE.modS_last fun s' hs' => ?_
  have hle : Le s₂ s' := by
    have h1 : Le s₂ { s₂ with trace := s₂.trace ++ [Obs.send t m] } := Le.congr rfl rfl rfl
    have h2 := addJob_le idx { s₂ with trace := s₂.trace ++ [Obs.send t m] } h.wf.1.1
    subst hs'
    exact h1.trans h2
  have ht : s'.trace = s₂.trace ++ [Obs.send t m] := by subst hs'; simp
  have hj : s'.jobs = s₂.jobs := by subst hs'; simp
  have hr : s'.retries = s₂.retries := by subst hs'; simp [addJob]; split <;> rfl
  have hg : s'.graph = s₂.graph := by subst hs'; simp [addJob]; split <;> rfl
  have hq : s'.queue = s₂.queue := by subst hs'; simp
  clear hs'
  have hsub : subIds s'.trace = subIds s₂.trace := by rw [ht, subIds_snoc]; simp
  refine ⟨⟨hle.wf h.wf, ?_, ?_, ?_, ?_, ?_, ?_, ?_, ?_⟩, hq⟩
  · show ∀ m j, s'.jobs m = some j → PlainJob j
    rw [hj]; exact h.plain
  · show ∀ m r, s'.retries m = some r → r = 0
    rw [hr]; exact h.ret
  · show ∀ d, s'.graph d = none
    rw [hg]; exact h.gr
  · show Fifo s'.trace
    rw [ht]
    exact h.fifo.snoc fun e m' he => by injection he with _ h2; subst h2; exact hx
  · show (subIds s'.trace).Nodup
    rw [hsub]; exact h.nd
  · show L'.Sublist (subIds s'.trace)
    rw [hsub]; exact hs
  · intro x hx' hop
    have hx' : x ∈ subIds s'.trace := hx'
    have hop : Open x s'.trace := hop
    rw [hsub] at hx'
    rw [ht] at hop
    rcases hL x (h.opn x hx' hop.snoc) with h1 | h1
    · subst h1
      have := hop.1
      rw [sends_snoc] at this
      simp at this
    · exact h1
  · intro x j hxj hr' hop
    have hxj : s'.jobs x = some j := hxj
    have hop : Open x s'.trace := hop
    rw [hj] at hxj
    rw [ht] at hop
    exact h.rem x j hxj hr' hop.snoc

theorem maybeRun_fifo {L L' : List MsgId} {m : MsgId} {s₀ : State} (h : Ord L s₀) (hx : availableEngines cfg s₀ ≠ [] → ∀ x, [x, m].Sublist (subIds s₀.trace) → ¬ Open x s₀.trace)
    (hs : L'.Sublist (subIds s₀.trace)) (hL : ∀ x ∈ L, x = m ∨ x ∈ L') :
    HoareE (fun s => s = s₀) (maybeRun cfg n m) (fun b s' => (b = true ∧ Ord L' s' ∧ s'.queue = s₀.queue) ∨ (b = false ∧ s' = s₀ ∧ availableEngines cfg s₀ = [])) AnyErr := by
  cases n with
  | zero => unfold maybeRun; exact HoareE.throwE fun _ _ => trivial
  | succ n =>
    unfold maybeRun
    refine HoareE.getS fun s hs => ?_
    subst hs
    refine HoareE.getJob (fun _ _ _ => trivial) fun s₁ j hs₁ hj => ?_
    subst hs₁
    refine HoareE.ite (fun hav => HoareE.pure fun s hs => ?_) fun hav => ?_
    · exact Or.inr ⟨rfl, hs, hav⟩
    have hsub : ∀ is, HoareE (fun x => x = s₁) (do submitTask cfg m is; return true)
        (fun b s' => (b = true ∧ Ord L' s' ∧ s'.queue = s₁.queue) ∨ (b = false ∧ s' = s₁ ∧ availableEngines cfg s₁ = [])) AnyErr := fun is =>
      HoareE.bind (submitTask_fifo is h (hx hav) hs hL) fun _ => HoareE.pure fun s h => Or.inl ⟨rfl, h⟩
    refine HoareE.ite (fun _ => ?_) fun _ => hsub []
    obtain ⟨p1, p2, p3, p4⟩ := h.plain m j hj
    refine HoareE.bind (filterCanRun_work j p4 s₁ _) fun is s₂ h₂ => ?_
    obtain ⟨rfl, hnil⟩ := h₂
    refine (HoareE.ite (fun his => ?_) fun _ => hsub is : HoareE (fun x => x = s₂) _ _ _) s₂ rfl
    exfalso
    obtain ⟨i, hi⟩ := List.exists_mem_of_ne_nil _ hav
    have hlt := available_lt hi
    rcases hnil his i hi _ (List.getElem?_eq_getElem hlt) with h1 | h1
    · have := mem_available hi
      rcases this with h2 | h2
      · exact h1.1 h2
      · omega
    · rcases h1 with h1 | h1
      · rw [p2] at h1; cases h1
      · exact h1.1 p1

theorem removeFromGraph_none {m : MsgId} {j : Job} (h : PlainJob j) : removeFromGraph m j.dependents = pure () := by
  unfold Job.dependents
  rw [h.2.2.1, h.2.2.2]
  rfl

theorem processJob_fifo {L : List MsgId} {m : MsgId} {s₀ : State} (h : Ord (m :: L) s₀) (hav : availableEngines cfg s₀ ≠ []) :
    HoareE (fun s => s = s₀) (processJob cfg n m) (fun o s' => Ord L s' ∧ s'.queue = s₀.queue ∧ o ≠ .keep ∧ (o = .gone → availableEngines cfg s' ≠ [])) AnyErr := by
  cases n with
  | zero => unfold processJob; exact HoareE.throwE fun _ _ => trivial
  | succ n =>
    unfold processJob
    refine HoareE.getS fun s hs => ?_
    subst hs
    refine HoareE.getJob (fun _ _ _ => trivial) fun s₁ j hs₁ hj => ?_
    subst hs₁
    obtain ⟨p1, p2, p3, p4⟩ := h.plain m j hj
    refine HoareE.ite (fun hr => HoareE.pure fun s hs => ?_) fun _ => ?_
    · subst hs
      exact ⟨h.drop (h.rem m j hj hr), rfl, by simp, fun _ => hav⟩
    refine HoareE.ite (fun hun => ?_) fun _ => ?_
    · simp [Dep.unreachable, p3, p4] at hun
    refine HoareE.ite (fun _ => ?_) fun hck => ?_
    · refine HoareE.bind (maybeRun_fifo (L' := L) h (fun _ => h.head) ((List.sublist_cons_self m L).trans h.sub) (fun x hx => List.mem_cons.mp hx)) fun b s₂ h₂ => ?_
      rcases h₂ with ⟨rfl, ho, hq⟩ | ⟨_, _, h3⟩
      · refine (HoareE.ite (fun hb => ?_) (fun hb => absurd rfl hb) : HoareE (fun x => x = s₂) _ _ _) s₂ rfl
        refine HoareE.getS fun s hs => ?_
        subst hs
        refine HoareE.ite (fun _ => HoareE.bind (R := fun _ _ => False) (HoareE.throwE fun _ _ => trivial) fun _ _ h => h.elim) fun _ => ?_
        refine HoareE.modS fun s₃ h₃ => ?_
        subst h₃
        refine HoareE.getJob (fun _ _ _ => trivial) fun s₄ j' h₄ hj' => ?_
        subst h₄
        have hj'' : s₃.jobs m = some j' := hj'
        rw [removeFromGraph_none (ho.plain m j' hj'')]
        refine HoareE.bind (R := fun _ s => s = { s₃ with queueMap := s₃.queueMap.filter (· ≠ m) }) (HoareE.pure fun _ h => h) fun _ => ?_
        refine HoareE.getS fun s₅ h₅ => ?_
        subst h₅
        have ho' : Ord L { s₃ with queueMap := s₃.queueMap.filter (· ≠ m) } := ho.congr rfl ho.wf rfl rfl rfl
        refine HoareE.ite (fun hav => HoareE.pure fun s hs => ?_) fun hav => HoareE.pure fun s hs => ?_
        · subst hs; exact ⟨ho', hq, by simp, by simp⟩
        · subst hs; exact ⟨ho', hq, by simp, fun _ => hav⟩
      · exact absurd h3 hav
    · simp [Dep.check, p3] at hck

theorem loopQueue_fifo (n : Nat) : ∀ s₀ : State, Ord s₀.queue s₀ → availableEngines cfg s₀ ≠ [] →
    HoareE (fun s => s = s₀) (loopQueue cfg n []) (fun _ s' => Ord s'.queue s') AnyErr := by
  induction n with
  | zero => intro s₀ _ _; unfold loopQueue; exact HoareE.throwE fun _ _ => trivial
  | succ n ih =>
    intro s₀ h hav
    unfold loopQueue
    refine HoareE.getS fun s hs => ?_
    subst hs
    split
    · refine HoareE.modS_last fun s' h' => ?_
      subst h'
      exact h.congr rfl h.wf rfl rfl rfl
    · rename_i m q hq
      refine HoareE.modS fun s' h' => ?_
      subst h'
      have h1 : Ord (m :: q) { s' with queue := q } := by rw [← hq]; exact h.congr rfl h.wf rfl rfl rfl
      refine HoareE.bind (processJob_fifo h1 hav) fun o s₂ h₂ => ?_
      obtain ⟨j1, j2, j3, j4⟩ := h₂
      have j2 : s₂.queue = q := j2
      rw [← j2] at j1
      cases o with
      | gone => exact ih s₂ j1 (j4 rfl) s₂ rfl
      | keep => exact absurd rfl j3
      | stop =>
        refine (HoareE.modS_last (P := fun s => s = s₂) fun s h => ?_ : HoareE (fun s => s = s₂) (modS fun s => { s with queue := [].reverse ++ s.queue }) (fun _ s'' => Ord s''.queue s'') AnyErr) s₂ rfl
        subst h
        exact j1.congr rfl j1.wf rfl rfl rfl

theorem available_of_near (hw : WF s) (h0 : cfg.hwm ≠ 0) (h : s.loads.any (fun l => l = (cfg.hwm : Int) - 1) = true) : availableEngines cfg s ≠ [] := by
  rw [List.any_eq_true] at h
  obtain ⟨l, hl, hh⟩ := h
  obtain ⟨i, hi⟩ := List.getElem?_of_mem hl
  have hlt : i < s.targets.length := by
    rw [← hw.1.1]
    exact (List.getElem?_eq_some_iff.mp hi).1
  have : i ∈ availableEngines cfg s := by
    refine available_complete (List.getElem?_eq_getElem hlt) (Or.inr ?_)
    have : s.loads.getD i 0 = l := by simp [List.getD, hi]
    rw [this]
    have : l = (cfg.hwm : Int) - 1 := by simpa using hh
    omega
  intro hnil
  rw [hnil] at this
  cases this

theorem updateGraph_fifo (d : Option MsgId) {s₀ : State} (h : Ord s₀.queue s₀) (hav : d = none → availableEngines cfg s₀ ≠ []) :
    HoareE (fun s => s = s₀) (updateGraph cfg n d) (fun _ s' => Ord s'.queue s') AnyErr := by
  cases n with
  | zero => unfold updateGraph; exact HoareE.throwE fun _ _ => trivial
  | succ n =>
    unfold updateGraph
    refine HoareE.getS fun s hs => ?_
    subst hs
    have hrest : ∀ s₂ : State, Ord s₂.queue s₂ → (availableEngines cfg s ≠ [] → availableEngines cfg s₂ ≠ []) →
        HoareE (fun x => x = s₂) (if d = none ∨ (cfg.hwm ≠ 0 ∧ s.loads.any (fun l => l = (cfg.hwm : Int) - 1)) then
            loopQueue cfg n []
          else do
            if ([] : List MsgId).any (fun m => m ∉ s.queueMap) then throwE .keyError
            loopJobs cfg n (sortByTime (fun m => ((s.jobs m).map Job.timestamp).getD 0) []))
          (fun _ s' => Ord s'.queue s') AnyErr := by
      intro s₂ u1 u2
      refine HoareE.ite (fun hc => ?_) fun hc => ?_
      · refine loopQueue_fifo n s₂ u1 (u2 ?_)
        rcases hc with hc | hc
        · exact hav hc
        · exact available_of_near h.wf hc.1 hc.2
      · refine HoareE.ite (fun _ => HoareE.bind (R := fun _ _ => False) (HoareE.throwE fun _ _ => trivial) fun _ _ h => h.elim) fun _ => ?_
        cases n with
        | zero => unfold loopJobs; exact HoareE.throwE fun _ _ => trivial
        | succ n => unfold loopJobs; exact HoareE.pure fun s h => h ▸ u1
    cases d with
    | none => exact hrest s h id
    | some d =>
      dsimp only
      rw [h.gr d]
      refine HoareE.modS fun s₂ h₂ => ?_
      subst h₂
      refine hrest _ (h.congr rfl h.wf rfl rfl ?_) id
      funext x
      simp only [upd]
      split
      · subst x; exact (h.gr d).symm
      · rfl

theorem failUnreachable_fifo (m : MsgId) (why : Why) {s₀ : State} (h : Ord s₀.queue s₀) :
    HoareE (fun s => s = s₀) (failUnreachable cfg n m why) (fun _ s' => Ord s'.queue s') AnyErr := by
  cases n with
  | zero => unfold failUnreachable; exact HoareE.throwE fun _ _ => trivial
  | succ n =>
    unfold failUnreachable
    refine HoareE.getS fun s hs => ?_
    subst hs
    refine HoareE.ite (fun _ => HoareE.pure fun s hs => hs ▸ h) fun _ => ?_
    refine HoareE.modS fun s' hs' => ?_
    subst hs'
    refine HoareE.getJob (fun _ _ _ => trivial) fun s₁ j hs₁ hj => ?_
    subst hs₁
    have hj' : s'.jobs m = some j := hj
    refine HoareE.setJob fun s₂ hs₂ => ?_
    subst hs₂
    rw [removeFromGraph_none (h.plain m j hj')]
    refine HoareE.bind (R := fun _ s => s = { s' with
      queueMap := s'.queueMap.filter (· ≠ m)
      jobs := upd s'.jobs m (some { j with removed := true }) }) (HoareE.pure fun _ h => h) fun _ => ?_
    refine HoareE.bind (R := fun _ s => Ord s.queue s) ?_ fun _ s₄ h₄ => updateGraph_fifo (some m) h₄ (by simp) s₄ rfl
    unfold failReply
    refine HoareE.modS fun s hs => ?_
    subst hs
    refine HoareE.modS_last fun s hs => ?_
    subst hs
    have hd := h.dull (o := .fail m why) rfl
    refine ⟨⟨h.wf.1, fun x jx hx => ?_⟩, fun x jx hx => ?_, hd.ret, hd.gr, hd.fifo, hd.nd, hd.sub, hd.opn, fun x jx hx hr hop => ?_⟩
    · by_cases hxm : x = m
      · subst hxm
        simp only [upd, if_true, Option.some.injEq] at hx
        subst hx
        exact h.wf.2 x j hj'
      · simp only [upd, hxm, if_false] at hx
        exact h.wf.2 x jx hx
    · by_cases hxm : x = m
      · subst hxm
        simp only [upd, if_true, Option.some.injEq] at hx
        subst hx
        exact h.plain x j hj'
      · simp only [upd, hxm, if_false] at hx
        exact h.plain x jx hx
    · by_cases hxm : x = m
      · subst hxm
        have h2 : replies x (s'.trace ++ [.fail x why]) = 0 := hop.2
        rw [replies_snoc] at h2
        simp at h2
      · simp only [upd, hxm, if_false] at hx
        exact hd.rem x jx hx hr hop

theorem addToGraph_nil (m : MsgId) : addToGraph m [] = pure () := rfl

theorem saveUnmet_fifo {m : MsgId} {s₀ : State} (h : Ord (s₀.queue ++ [m]) s₀) :
    HoareE (fun s => s = s₀) (saveUnmet m) (fun _ s' => Ord s'.queue s') AnyErr := by
  unfold saveUnmet
  refine HoareE.getJob (fun _ _ _ => trivial) fun s j hs hj => ?_
  subst hs
  refine HoareE.addQueueMap fun s₁ h₁ => ?_
  subst h₁
  refine HoareE.modS fun s₂ h₂ => ?_
  subst h₂
  refine HoareE.getS fun s₃ h₃ => ?_
  subst h₃
  obtain ⟨p1, p2, p3, p4⟩ := h.plain m j hj
  rw [p3, p4]
  refine HoareE.bind (R := fun _ s => s = { s₁ with
    queueMap := insertSet m s₁.queueMap
    queue := s₁.queue ++ [m] }) (HoareE.pure fun _ h => h) fun _ => ?_
  refine HoareE.ite (fun _ => ?_) fun _ => HoareE.pure fun s hs => ?_
  · refine HoareE.setJob fun s hs => ?_
    subst hs
    refine HoareE.modS_last fun s hs => ?_
    subst hs
    refine ⟨⟨h.wf.1, fun x jx hx => ?_⟩, fun x jx hx => ?_, h.ret, h.gr, h.fifo, h.nd, h.sub, h.opn, fun x jx hx hr hop => ?_⟩
    · by_cases hxm : x = m
      · subst hxm
        simp only [upd, if_true, Option.some.injEq] at hx
        subst hx
        exact h.wf.2 x j hj
      · simp only [upd, hxm, if_false] at hx
        exact h.wf.2 x jx hx
    · by_cases hxm : x = m
      · subst hxm
        simp only [upd, if_true, Option.some.injEq] at hx
        subst hx
        exact h.plain x j hj
      · simp only [upd, hxm, if_false] at hx
        exact h.plain x jx hx
    · by_cases hxm : x = m
      · subst hxm
        simp only [upd, if_true, Option.some.injEq] at hx
        subst hx
        exact h.rem x j hj hr hop
      · simp only [upd, hxm, if_false] at hx
        exact h.rem x jx hx hr hop
  · subst hs
    exact h.congr rfl h.wf rfl rfl rfl

/-- A submission of a plain task. -/
def PlainSub (sub : Submission) : Prop := sub.targets = [] ∧ sub.retries = 0 ∧ NoDeps sub

theorem dispatchSubmission_fifo (m : MsgId) (sub : Submission) {s₀ : State} (hps : PlainSub sub) (h : Ord s₀.queue s₀) (hfr : m ∉ subIds s₀.trace) (hnf : m ∉ s₀.allFailed)
    (hd : availableEngines cfg s₀ ≠ [] → ∀ x ∈ s₀.queue, ¬ Open x s₀.trace) :
    HoareE (fun s => s = s₀) (dispatchSubmission cfg n m sub) (fun _ s' => Ord s'.queue s') AnyErr := by
  obtain ⟨ht0, hr0, hnd⟩ := hps
  unfold dispatchSubmission
  refine HoareE.emit fun s h => ?_
  subst h
  refine HoareE.modS fun s₁ hs₁ => ?_
  subst hs₁
  refine HoareE.ite (fun hc => HoareE.bind (R := fun _ _ => False) (HoareE.throwE fun _ _ => trivial) fun _ _ h => h.elim) fun _ => ?_
  refine HoareE.getS fun s₂ hs₂ => ?_
  refine HoareE.ite (fun hc => HoareE.bind (R := fun _ _ => False) (HoareE.throwE fun _ _ => trivial) fun _ _ h => h.elim) fun _ => ?_
  have haft := reduceAfter_noDeps s₂ hnd
  generalize reduceAfter s₂ sub.after = aft at *
  refine HoareE.setJob fun s₃ hs₃ => ?_
  subst hs₃ hs₂
  have hO : Ord (s.queue ++ [m]) { s with
      trace := s.trace ++ [.submitted m sub]
      allIds := insertSet m s.allIds
      retries := upd s.retries m (some sub.retries)
      jobs := upd s.jobs m (some { targets := sub.targets, after := aft, follow := sub.follow, hasTimeout := sub.hasTimeout, timestamp := sub.timestamp }) } := by
    have hsi : subIds (s.trace ++ [.submitted m sub]) = subIds s.trace ++ [m] := subIds_snoc _ _
    refine ⟨⟨h.wf.1, fun x jx hx => ?_⟩, fun x jx hx => ?_, fun x r hx => ?_, h.gr, ?_, ?_, ?_, fun x hx hop => ?_, fun x jx hx hr hop => ?_⟩
    · by_cases hxm : x = m
      · subst hxm
        simp only [upd, if_true, Option.some.injEq] at hx
        subst hx
        exact ⟨haft, hnd.2.1⟩
      · simp only [upd, hxm, if_false] at hx
        exact h.wf.2 x jx hx
    · by_cases hxm : x = m
      · subst hxm
        simp only [upd, if_true, Option.some.injEq] at hx
        subst hx
        exact ⟨ht0, rfl, haft, hnd.2.1⟩
      · simp only [upd, hxm, if_false] at hx
        exact h.plain x jx hx
    · by_cases hxm : x = m
      · subst hxm
        simp only [upd, if_true, Option.some.injEq] at hx
        omega
      · simp only [upd, hxm, if_false] at hx
        exact h.ret x r hx
    · exact h.fifo.snoc fun e m' he => by cases he
    · show (subIds (s.trace ++ [.submitted m sub])).Nodup
      rw [hsi, List.nodup_append]
      exact ⟨h.nd, by simp, fun a ha b hb => by rw [List.mem_singleton] at hb; subst hb; exact fun hh => hfr (hh ▸ ha)⟩
    · show (s.queue ++ [m]).Sublist (subIds (s.trace ++ [.submitted m sub]))
      rw [hsi]
      exact h.sub.append (List.Sublist.refl _)
    · have hx : x ∈ subIds (s.trace ++ [.submitted m sub]) := hx
      rw [hsi] at hx
      rcases List.mem_append.mp hx with hx | hx
      · exact List.mem_append_left _ (h.opn x hx hop.snoc)
      · exact List.mem_append_right _ hx
    · by_cases hxm : x = m
      · subst hxm
        simp only [upd, if_true, Option.some.injEq] at hx
        subst hx
        cases hr
      · simp only [upd, hxm, if_false] at hx
        exact h.rem x jx hx hr hop.snoc
  have hclear : availableEngines cfg s ≠ [] → ∀ x, [x, m].Sublist (subIds (s.trace ++ [.submitted m sub])) → ¬ Open x (s.trace ++ [.submitted m sub]) := by
    intro hav x hx hop
    have hxs : x ∈ subIds (s.trace ++ [.submitted m sub]) := hx.subset (by simp)
    rw [subIds_snoc] at hx hxs
    have hxm : x ≠ m := fun hh => by
      subst hh
      have hnd' := hO.nd
      have : subIds (s.trace ++ [.submitted x sub]) = subIds s.trace ++ [x] := subIds_snoc _ _
      have hnd' : (subIds (s.trace ++ [.submitted x sub])).Nodup := hnd'
      rw [this] at hnd'
      have := hnd'.sublist hx
      simp at this
    rcases List.mem_append.mp hxs with h1 | h1
    · exact hd hav x (h.opn x h1 hop.snoc) hop.snoc
    · exact hxm (List.mem_singleton.mp h1)
  have hval : ∀ s' : State, (validateDep s' m aft).orElse (fun _ => validateDep s' m sub.follow) = none := by
    intro s'
    unfold validateDep
    rw [if_pos haft, if_pos hnd.2.1]
    rfl
  rw [hval]
  dsimp only
  refine HoareE.ite (fun _ => ?_) fun hc => ?_
  · refine HoareE.bind (maybeRun_fifo (L' := s.queue) hO hclear ((List.sublist_append_left _ _).trans hO.sub) (fun x hx => by
      rcases List.mem_append.mp hx with hx | hx
      · exact Or.inr hx
      · exact Or.inl (List.mem_singleton.mp hx))) fun b s₄ h₄ => ?_
    rcases h₄ with ⟨rfl, ho, hq⟩ | ⟨rfl, hs, hav⟩
    · have hq : s₄.queue = s.queue := hq
      rw [← hq] at ho
      exact ho
    · refine (HoareE.getS fun s₅ h => ?_ : HoareE (fun s => s = s₄) (do
          let s ← getS
          if m ∉ s.allFailed then saveUnmet m) (fun _ s' => Ord s'.queue s') AnyErr) s₄ rfl
      subst h
      refine HoareE.ite (fun _ => ?_) fun hin => ?_
      · subst hs
        exact saveUnmet_fifo hO
      · subst hs; exact absurd hnf hin
  · refine absurd ?_ hc
    simp [Dep.check, haft]

end IPP.Sched
