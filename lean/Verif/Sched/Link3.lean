import Verif.Sched.Link2

/-!
# The dependency graph is exact: the handlers (lemmas)
-/
namespace IPP.Sched

variable {cfg : Config} {g : Ghost} {s : State} {n : Nat} {K X P : List MsgId} {S : List Engine} {A : List MsgId}

/-- The ghosts between handlers (`S`, `A`: while stranded tasks are handled). -/
def ltop (S : List Engine) (A : List MsgId) : Ghost where
  full := True
  F := False
  S := S
  A := A
  R := []
  H := []
  X := []

/-- What holds between handlers. -/
def LInv (cfg : Config) (S : List Engine) (A : List MsgId) (s : State) : Prop := Inv cfg False (ltop S A) s ∧ Links [] [] [] s

/-- What an exception leaves behind when a notification names an unknown engine or task. -/
def VErr (cfg : Config) (S : List Engine) (A : List MsgId) : Err → State → Prop := fun e s => e ≠ .fuel → LInv cfg S A s

theorem FuelE.weak {e : Err} (h : FuelE e s) : VErr cfg S A e s := fun hne => absurd h hne

theorem mem_dependents_iff {j : Job} {d : MsgId} : d ∈ j.dependents ↔ d ∈ j.after.ids ∨ d ∈ j.follow.ids := by
  refine ⟨mem_dependents, fun h => ?_⟩
  simp only [Job.dependents, List.mem_append, List.mem_filter, decide_eq_true_eq]
  by_cases hf : d ∈ j.follow.ids
  · exact Or.inl hf
  · exact Or.inr ⟨h.resolve_right hf, hf⟩

/-- One entry is added. -/
theorem Links.link {m d : MsgId} {j : Job} (h : Links K [m] P s) (hj : s.jobs m = some j) (hd : d ∈ j.dependents) (hn : d ∉ s.allDone) (hi : d ∈ s.allIds) :
    Links K [m] P { s with graph := upd s.graph d (some (insertSet m ((s.graph d).getD []))) } where
  shape := h.shape
  dcf := h.dcf
  oke := h.oke
  dreg := h.dreg
  oka := h.oka
  done := fun x hx => by
    have : x ≠ d := by rintro rfl; exact hn hx
    show upd s.graph d _ x = none ∨ _
    rw [upd_ne _ _ this]; exact h.done x hx
  cd := h.cd
  fd := h.fd
  ce := h.ce
  fe := h.fe
  inq := fun x hx hn' j' hj' d' hd' hdd => by
    obtain ⟨l', a, b⟩ := h.inq x hx hn' j' hj' d' hd' hdd
    by_cases hdd' : d' = d
    · refine ⟨_, by rw [hdd']; exact upd_self _ _ _, ?_⟩
      rw [hdd'] at a
      simp [a, b]
    · exact ⟨l', by show upd s.graph d _ d' = _; rw [upd_ne _ _ hdd']; exact a, b⟩
  lis := fun d' l' hl' => by
    have hl' : upd s.graph d (some (insertSet m ((s.graph d).getD []))) d' = some l' := hl'
    by_cases hdd' : d' = d
    · rw [hdd', upd_self] at hl'
      cases hl'
      rw [hdd']
      refine ⟨hi, fun x hx => ?_⟩
      rcases (mem_insertSet _ _ _).mp hx with hx | hx
      · rw [hx]; exact ⟨Or.inr (by simp), j, hj, hd⟩
      · cases hg : s.graph d with
        | none => rw [hg] at hx; cases hx
        | some l => rw [hg] at hx; exact (h.lis d l hg).2 x hx
    · rw [upd_ne _ _ hdd'] at hl'
      exact h.lis d' l' hl'
  kno := h.kno
  run := h.run
  ans := h.ans
  kk := h.kk

theorem addToGraph_link {m : MsgId} {j : Job} (ds : List MsgId) (s₀ : State) (h : Links K [m] P s₀) (hj : s₀.jobs m = some j)
    (hds : ∀ d ∈ ds, d ∈ j.dependents ∧ d ∉ s₀.allDone ∧ d ∈ s₀.allIds) {E : Err → State → Prop} :
    HoareE (fun s => s = s₀) (addToGraph m ds) (fun _ s => (∃ gr, s = { s₀ with graph := gr }) ∧ Links K [m] P s ∧
      ∀ d, d ∈ ds ∨ (∃ l, s₀.graph d = some l ∧ m ∈ l) → ∃ l, s.graph d = some l ∧ m ∈ l) E := by
  induction ds generalizing s₀ with
  | nil =>
    refine HoareE.pure fun s hs => ?_
    subst hs
    exact ⟨⟨s.graph, rfl⟩, h, fun d hd => by simpa using hd⟩
  | cons d ds ih =>
    unfold addToGraph
    refine HoareE.modS fun s hs => ?_
    subst hs
    obtain ⟨a, b, c⟩ := hds d (by simp)
    refine (ih _ (h.link hj a b c) hj fun x hx => hds x (by simp [hx])).conseq (fun _ h => h) ?_ (fun _ _ h => h)
    rintro _ s' ⟨⟨gr, rfl⟩, h1, h2⟩
    refine ⟨⟨gr, rfl⟩, h1, fun x hx => h2 x ?_⟩
    by_cases hxd : x = d
    · right
      exact ⟨_, by rw [hxd]; exact upd_self _ _ _, by simp⟩
    · rcases hx with hx | hx
      · exact Or.inl ((List.mem_cons.mp hx).resolve_left hxd)
      · right
        simp only [upd_ne _ _ hxd]
        exact hx

/-- The task has been entered everywhere. -/
theorem Links.close {m : MsgId} (h : Links K [m] P s) (hm : m ∈ s.queueMap)
    (hl : ∀ j, s.jobs m = some j → ∀ d ∈ j.dependents, d ∉ s.allDone → ∃ l, s.graph d = some l ∧ m ∈ l)
    (hk : ∀ j, s.jobs m = some j → ∀ d ∈ j.dependents, d ∈ s.allIds) : Links K [] P s where
  shape := h.shape
  dcf := h.dcf
  oke := h.oke
  dreg := h.dreg
  oka := h.oka
  done := h.done
  cd := h.cd
  fd := h.fd
  ce := h.ce
  fe := h.fe
  inq := fun x hx _ j hj => by
    by_cases hxm : x = m
    · rw [hxm] at hj ⊢; exact hl j hj
    · exact h.inq x hx (by simpa using hxm) j hj
  lis := fun d l hd => ⟨(h.lis d l hd).1, fun x hx => by
    obtain ⟨a, b⟩ := (h.lis d l hd).2 x hx
    refine ⟨?_, b⟩
    rcases a with a | a
    · exact Or.inl a
    · simp at a; exact Or.inl (a ▸ hm)⟩
  kno := fun x j hj hr _ => by
    by_cases hxm : x = m
    · rw [hxm] at hj; exact hk j hj
    · exact h.kno x j hj hr (by simpa using hxm)
  run := h.run
  ans := h.ans
  kk := h.kk

theorem saveUnmet_link {m : MsgId} {s₀ : State} (h : InHand cfg False (ltop S A) m s₀) (ht : TgtOk s₀ m) (hL : Links [] [] [] s₀) {E : Err → State → Prop} :
    HoareE (fun s => s = s₀) (saveUnmet m) (fun _ => LInv cfg S A) E := by
  obtain ⟨j, hj, hjr⟩ := h.job
  have h0 := saveUnmet_loc (g := ltop S A) (E := E) h ht rfl
  refine (h0.and (E' := E) ?_).conseq (fun _ h => ⟨h, h⟩) (fun _ _ h => h) (fun _ _ h => h.1)
  unfold saveUnmet
  refine HoareE.getJob (fun s hs hn => by subst hs; rw [hj] at hn; cases hn) fun s j' hs hj' => ?_
  subst hs
  rw [hj] at hj'
  cases hj'
  refine HoareE.addQueueMap fun s₁ hs₁ => ?_
  subst hs₁
  refine HoareE.modS fun s₂ hs₂ => ?_
  subst hs₂
  refine HoareE.getS fun s₃ hs₃ => ?_
  subst hs₃
  have hk := hL.kno m j hj h.rep (by simp)
  have hL1 : Links [] [m] [] { s₁ with
      queueMap := insertSet m s₁.queueMap
      queue := s₁.queue ++ [m] } := (hL.addMap (m := m)).congr rfl rfl rfl rfl rfl rfl rfl rfl rfl rfl (fun _ => rfl) (fun _ _ h => h)
  refine HoareE.bind (addToGraph_link (j := j) _ _ hL1 hj fun d hd => ?_) fun _ => ?_
  · obtain ⟨a, b⟩ := List.mem_filter.mp hd
    have hdd : d ∈ j.dependents := mem_dependents_iff.mpr (List.mem_append.mp a)
    exact ⟨hdd, by simpa using b, hk d hdd⟩
  · intro s' hs'
    obtain ⟨⟨gr, rfl⟩, h1, h2⟩ := hs'
    have hC : Links [] [] [] { s₁ with
        queueMap := insertSet m s₁.queueMap
        queue := s₁.queue ++ [m]
        graph := gr } := by
      refine h1.close (by simp) (fun j' hj' d hd hn => h2 d (Or.inl ?_)) (fun j' hj' d hd => ?_)
      · have hj' : s₁.jobs m = some j' := hj'
        rw [hj] at hj'; cases hj'
        exact List.mem_filter.mpr ⟨List.mem_append.mpr (mem_dependents_iff.mp hd), by simpa using hn⟩
      · have hj' : s₁.jobs m = some j' := hj'
        rw [hj] at hj'; cases hj'
        exact hk d hd
    refine (?_ : HoareE (fun s => s = _) _ _ _) _ rfl
    refine HoareE.ite (fun _ => ?_) fun _ => HoareE.pure fun _ h => h ▸ hC
    refine HoareE.setJob fun s hs => ?_
    subst hs
    refine HoareE.modS_last fun s' hs' => ?_
    subst hs'
    exact (hC.setJob (m := m) (j := j) (j' := { j with timeoutId := j.timeoutId + 1 }) hj rfl rfl id).congr rfl rfl rfl rfl rfl rfl rfl rfl rfl rfl (fun _ => rfl) (fun _ _ h => h)

/-- `maybe_run` for a task that is not waiting. -/
theorem maybeRun_link (hA : LinkAt cfg n) {m : MsgId} {j : Job} {s₀ : State} (h : InHand cfg False (ltop S A) m s₀) (ht : TgtOk s₀ m) (hq : m ∉ s₀.queueMap) (hL : Links [] [] [] s₀)
    (hj : s₀.jobs m = some j) (hafter : (∀ d ∈ j.after.ids, d ∈ s₀.allDone) ∨ Hardy j) (hsafe : Stuck s₀ j → Gok m s₀) :
    HoareE (fun s => s = s₀) (maybeRun cfg n m) (fun b s => Links [] [] [] s ∧ if b then Inv cfg False (ltop S A) s else
      (m ∉ s.allFailed → InHand cfg False (ltop S A) m s ∧ TgtOk s m) ∧ (m ∈ s.allFailed → Inv cfg False (ltop S A) s)) FuelE := by
  refine (hA.may [] (ltop S A) m s₀ j rfl h ht hL hj hafter hsafe).conseq (fun _ h => h) (fun b s hb => ⟨hb.2, ?_⟩) (fun _ _ h => h)
  replace hb := hb.1
  cases b with
  | true =>
    show Inv cfg False (ltop S A) s
    obtain ⟨h1, h2, _⟩ := hb
    rwa [drop_self (fun hh => hq (h2.mp hh))] at h1
  | false =>
    rcases hb with ⟨h1, h2, h3⟩ | h1
    · exact ⟨fun _ => ⟨h1, h2⟩, fun hf => absurd h1.rep (h1.inv.alf m hf)⟩
    · refine ⟨fun hf => absurd (h1.rr m (by simp)).1 hf, fun _ => ?_⟩
      have h2 := Inv.forget (g := { ltop S A with H := (ltop S A).H ++ [m] }) (m := m) h1
      exact h2.release (h1.answered (by simp))

theorem fail_link (hA : LinkAt cfg n) {m : MsgId} {s₀ : State} (why : Why) (h : InHand cfg False (ltop S A) m s₀)
    (hL : Links [] [m] [] { s₀ with queueMap := insertSet m s₀.queueMap }) (hG : Gok m s₀) :
    HoareE (fun s => s = { s₀ with queueMap := insertSet m s₀.queueMap }) (failUnreachable cfg n m why) (fun _ => LInv cfg S A) FuelE := by
  refine ((hA.fail [] { ltop S A with H := (ltop S A).H ++ [m] } m why rfl).conseq (fun _ h => h) (fun _ s hs => ⟨?_, hs.2⟩) (fun _ _ h => h)).at ⟨h.addMap.failPre (by simp), hL, hG⟩
  exact hs.1.forget.release (hs.1.answered (by simp))

theorem upd_link (hA : LinkAt cfg n) (d : Option MsgId) :
    HoareE (fun s => Inv cfg False (ltop S A) s ∧ Links [] [] d.toList s ∧ ∀ x ∈ d, x ∈ s.allDone) (updateGraph cfg n d) (fun _ => LInv cfg S A) FuelE :=
  hA.upd [] (ltop S A) d rfl

theorem upd_link0 (hA : LinkAt cfg n) : HoareE (LInv cfg S A) (updateGraph cfg n none) (fun _ => LInv cfg S A) FuelE :=
  (upd_link hA none).pre fun _ h => ⟨h.1, h.2, by simp⟩

theorem registerEngine_link (hA : LinkAt cfg n) (e : Engine) :
    HoareE (fun s => LInv cfg S A s ∧ Obs.registered e ∉ s.trace) (registerEngine cfg n e) (fun _ => LInv cfg S A) FuelE := by
  unfold registerEngine
  refine HoareE.emit fun s h => ?_
  refine HoareE.modS fun s₁ hs₁ => ?_
  subst hs₁
  obtain ⟨⟨h, hL⟩, hfr⟩ := h
  refine (upd_link0 hA).at ⟨h.register (fun h => h) hfr, ?_⟩
  have hrep : ∀ x, replies x (s.trace ++ [.registered e]) = replies x s.trace := fun x => by rw [replies_snoc]; simp
  have hass : ∀ x, assigned x (s.trace ++ [.registered e]) = assigned x s.trace := fun x => by rw [assigned_snoc]
  exact { hL with
    ce := fun x l hx => by
      dsimp only at hx
      by_cases hxe : x = e
      · rw [hxe, upd_self] at hx; cases hx; simp
      · rw [upd_ne _ _ hxe] at hx; exact hL.ce x l hx
    fe := fun x l hx => by
      dsimp only at hx
      by_cases hxe : x = e
      · rw [hxe, upd_self] at hx; cases hx; simp
      · rw [upd_ne _ _ hxe] at hx; exact hL.fe x l hx
    kno := by intro x jx hx; dsimp only; rw [hrep]; exact hL.kno x jx hx
    run := by intro a x; dsimp only; rw [hass]; exact hL.run a x
    ans := by intro x; dsimp only; rw [hrep]; exact hL.ans x
    oke := fun i x l hi hx => by
      dsimp only at hx hi
      by_cases hxe : x = e
      · exact absurd (hxe ▸ hL.dreg i x hi) hfr
      · rw [upd_ne _ _ hxe] at hx; exact hL.oke i x l hi hx
    dreg := fun i x hi => List.mem_append_left _ (hL.dreg i x hi)
    oka := by intro x; dsimp only; rw [hrep]; exact hL.oka x }

/-- Finished tasks of an engine are forgotten. -/
theorem Links.scrub (h : Links K X P s) (e : Engine) : Links K X P { s with
    completed := upd s.completed e none
    failed := upd s.failed e none } := { h with
  ce := fun x l hx => by
    dsimp only at hx
    by_cases hxe : x = e
    · rw [hxe, upd_self] at hx; cases hx
    · rw [upd_ne _ _ hxe] at hx; exact h.ce x l hx
  fe := fun x l hx => by
    dsimp only at hx
    by_cases hxe : x = e
    · rw [hxe, upd_self] at hx; cases hx
    · rw [upd_ne _ _ hxe] at hx; exact h.fe x l hx
  oke := fun i x l hi hx => by
    dsimp only at hx hi
    by_cases hxe : x = e
    · rw [hxe, upd_self] at hx; cases hx
    · rw [upd_ne _ _ hxe] at hx; exact h.oke i x l hi hx }

theorem unregisterEngine_link (e : Engine) :
    HoareE (LInv cfg S A) (unregisterEngine e) (fun _ => LInv cfg S A) (VErr cfg S A) := by
  unfold unregisterEngine
  refine HoareE.getS fun s h => ?_
  obtain ⟨h, hL⟩ := h
  cases hi : s.targets.idxOf? e with
  | none => exact HoareE.throwE fun s' hs _ => hs ▸ ⟨h, hL⟩
  | some idx =>
    have hget := idxOf?_get hi
    obtain ⟨hp, hc, hf⟩ := h.reg e (List.mem_of_getElem? hget)
    have hrep : ∀ x, replies x (s.trace ++ [.unregistered e]) = replies x s.trace := fun x => by rw [replies_snoc]; simp
    have hass : ∀ a x, x ∈ assigned a (s.trace ++ [.unregistered e]) → x ∈ assigned a s.trace := fun a x => by rw [assigned_snoc]; exact id
    refine HoareE.emit fun s₁ hs₁ => ?_
    subst hs₁
    refine HoareE.modS fun s₂ hs₂ => ?_
    subst hs₂
    refine HoareE.lookupE (fun hn => absurd hn hp) fun p hp' => ?_
    have hpa : p = assigned e s₁.trace := h.ps e p hp'
    refine HoareE.ite (fun _ => ?_) fun hne => ?_
    · refine HoareE.modS_last fun s₃ hs₃ => ?_
      subst hs₃
      exact ⟨h.unregister (fun h => h) hget (Or.inl ⟨rfl, rfl, rfl⟩), hL.congr rfl rfl rfl rfl rfl rfl rfl rfl rfl rfl hrep hass⟩
    · refine HoareE.lookupE (fun hn => absurd hn hc) fun c hc' => ?_
      refine HoareE.modS fun s₃ hs₃ => ?_
      subst hs₃
      refine HoareE.lookupE (fun hn => absurd hn hf) fun c hf' => ?_
      refine HoareE.modS_last fun s₄ hs₄ => ?_
      subst hs₄
      have := h.unregister (fun h => h) hget (Or.inr ⟨by rw [← hpa]; exact Classical.byContradiction hne, rfl, rfl, rfl⟩)
      exact ⟨this, (hL.scrub e).congr rfl rfl rfl rfl rfl rfl rfl rfl rfl rfl hrep hass⟩

/-- A job is made. -/
theorem Links.newJob {m : MsgId} {j : Job} (h : Links K [] [] s) (hj : s.jobs m = none) (hg : GoodJob j) (hq : m ∉ s.queueMap) (ha : ∀ e, m ∉ assigned e s.trace) :
    Links K [m] [] { s with jobs := upd s.jobs m (some j) } ∧ ∀ d l, s.graph d = some l → m ∉ l := by
  have hl : ∀ d l, s.graph d = some l → m ∉ l := fun d l hd hm => by
    obtain ⟨_, jx, hjx, _⟩ := (h.lis d l hd).2 m hm
    rw [hj] at hjx; cases hjx
  have other : ∀ x, x ≠ m → upd s.jobs m (some j) x = s.jobs x := fun x hx => upd_ne _ _ hx
  refine ⟨{ h with shape := ?_, inq := ?_, lis := ?_, kno := ?_, run := ?_, kk := ?_ }, hl⟩
  all_goals dsimp only
  · intro x jx hx
    by_cases hxm : x = m
    · rw [hxm, upd_self] at hx; cases hx; exact hg
    · rw [other x hxm] at hx; exact h.shape x jx hx
  · intro x hx hn jx hjx
    rw [other x (by simpa using hn)] at hjx
    exact h.inq x hx (by simp) jx hjx
  · intro d l hd
    refine ⟨(h.lis d l hd).1, fun x hx => ?_⟩
    have hxm : x ≠ m := by rintro rfl; exact hl d l hd hx
    obtain ⟨a, b⟩ := (h.lis d l hd).2 x hx
    rw [other x hxm]
    exact ⟨a.imp id (by simp), b⟩
  · intro x jx hx hr hn
    rw [other x (by simpa using hn)] at hx
    exact h.kno x jx hx hr (by simp)
  · intro e x hx jx hjx
    have hxm : x ≠ m := by rintro rfl; exact ha e hx
    rw [other x hxm] at hjx
    exact h.run e x hx jx hjx
  · intro x hx hn
    by_cases hxm : x = m
    · rw [hxm, upd_self] at hn; cases hn
    · rw [other x hxm] at hn; exact h.kk x hx hn

/-- The job made of a submission. -/
def arrived (s : State) (sub : Submission) : Job where
  targets := sub.targets
  after := reduceAfter s sub.after
  follow := sub.follow
  hasTimeout := sub.hasTimeout
  timestamp := sub.timestamp

/-- The state when the dependencies of a submission are looked at. -/
def arriving (s : State) (m : MsgId) (sub : Submission) : State := { s with
  trace := s.trace ++ [.submitted m sub]
  allIds := insertSet m s.allIds
  retries := upd s.retries m (some sub.retries) }

theorem dispatchSubmission_link (hA : LinkAt cfg n) (m : MsgId) (sub : Submission) {s₀ : State} (h : LInv cfg S A s₀) (hfresh : ∀ sub', Obs.submitted m sub' ∉ s₀.trace)
    (hcons : ((sub.after.map fun d => d.success || d.failure).getD true) = true ∧ (sub.follow.success || sub.follow.failure) = true)
    (hg : GoodJob (arrived (arriving s₀ m sub) sub))
    (harr : (validateDep (arriving s₀ m sub) m (arrived (arriving s₀ m sub) sub).after ≠ none ∨ validateDep (arriving s₀ m sub) m sub.follow ≠ none ∨
      Stuck s₀ (arrived (arriving s₀ m sub) sub)) → ∀ d ∈ (arrived (arriving s₀ m sub) sub).dependents, s₀.graph d = none) :
    HoareE (fun s => s = s₀) (dispatchSubmission cfg n m sub) (fun _ => LInv cfg S A) FuelE := by
  unfold dispatchSubmission
  refine HoareE.emit fun s hs => ?_
  subst hs
  refine HoareE.modS fun s₁ hs₁ => ?_
  subst hs₁
  obtain ⟨h, hL⟩ := h
  have h1 := h.submitted (sub := sub) (ids := insertSet m s.allIds) hfresh
  obtain ⟨hj, _, _, _, _⟩ := h.fresh hfresh
  have hu : ∀ sub', Obs.submitted m sub' ∈ s.trace ++ [.submitted m sub] → sub' = sub := fun sub' hh => by
    rcases List.mem_append.mp hh with hh | hh
    · exact absurd hh (hfresh _)
    · simp at hh; exact hh
  refine HoareE.ite (fun hc => ?_) fun _ => ?_
  · exfalso
    rw [hcons.1] at hc; cases hc
  refine HoareE.getS fun s₂ hs₂ => ?_
  refine HoareE.ite (fun hc => ?_) fun _ => ?_
  · exfalso
    dsimp only at hc
    rw [hcons.2] at hc; cases hc
  have hs₂' : s₂ = arriving s m sub := hs₂
  clear hs₂
  subst hs₂'
  refine HoareE.setJob fun s₃ hs₃ => ?_
  obtain ⟨h2, ht2, hq2⟩ := h1.newJob (m := m) (sub := sub) (j := arrived (arriving s m sub) sub) rfl hj (by simp [upd]) (by simp) hu rfl rfl (fun hd => hd.elim)
  subst hs₃
  have hrep : ∀ x, replies x (s.trace ++ [.submitted m sub]) = replies x s.trace := fun x => by rw [replies_snoc]; simp
  have hass : ∀ a x, x ∈ assigned a (s.trace ++ [.submitted m sub]) → x ∈ assigned a s.trace := fun a x => by rw [assigned_snoc]; exact id
  have hL1 : Links [] [] [] (arriving s m sub) := { hL with
    lis := fun d l hd => ⟨by show d ∈ insertSet m s.allIds; simp [(hL.lis d l hd).1], (hL.lis d l hd).2⟩
    kno := by intro x jx hx hr hn d hd; show d ∈ insertSet m s.allIds; simp [hL.kno x jx hx (by rw [← hrep]; exact hr) hn d hd]
    run := fun a x hx => hL.run a x (hass a x hx)
    ans := fun x hx => hL.ans x (by rw [← hrep]; exact hx)
    dreg := fun i a hi => List.mem_append_left _ (hL.dreg i a hi)
    oka := fun x hx => by rw [show (arriving s m sub).trace = s.trace ++ [.submitted m sub] from rfl, hrep]; exact hL.oka x hx }
  obtain ⟨hL2, hno⟩ := hL1.newJob (m := m) (j := arrived (arriving s m sub) sub) hj hg hq2 h2.una
  have hjm : ({ arriving s m sub with jobs := upd (arriving s m sub).jobs m (some (arrived (arriving s m sub) sub)) } : State).jobs m = some (arrived (arriving s m sub) sub) := upd_self _ _ _
  have hgok : (validateDep (arriving s m sub) m (arrived (arriving s m sub) sub).after ≠ none ∨ validateDep (arriving s m sub) m sub.follow ≠ none ∨
      Stuck s (arrived (arriving s m sub) sub)) → Gok m { arriving s m sub with jobs := upd (arriving s m sub).jobs m (some (arrived (arriving s m sub) sub)) } := by
    intro hh j' hj' d hd
    rw [hjm] at hj'; cases hj'
    exact Or.inl (harr hh d hd)
  split
  · rename_i why hv
    refine HoareE.addQueueMap fun s₄ hs₄ => ?_
    subst hs₄
    refine fail_link hA _ h2 ?_ (hgok ?_)
    · exact (hL2.addMap (m := m)).mono (fun _ h => h) (by simp)
    · by_cases ha : validateDep (arriving s m sub) m (arrived (arriving s m sub) sub).after = none
      · right; left
        intro hn
        have ha' : validateDep (arriving s m sub) m (reduceAfter (arriving s m sub) sub.after) = none := ha
        rw [ha', hn] at hv
        cases hv
      · exact Or.inl ha
  · rename_i hv
    have hva : validateDep (arriving s m sub) m (reduceAfter (arriving s m sub) sub.after) = none ∧ validateDep (arriving s m sub) m sub.follow = none := by
      cases ha : validateDep (arriving s m sub) m (reduceAfter (arriving s m sub) sub.after) with
      | some w => rw [ha] at hv; cases hv
      | none => rw [ha] at hv; exact ⟨rfl, hv⟩
    have known : ∀ (d : Dep), validateDep (arriving s m sub) m d = none → ∀ x ∈ d.ids, x ∈ (arriving s m sub).allIds := by
      intro d hd x hx
      unfold validateDep at hd
      split at hd
      · rename_i hnil; rw [hnil] at hx; cases hx
      split at hd
      · cases hd
      · rename_i hinv
        unfold invalidDep at hinv
        simp only [Bool.or_eq_true, not_or, Bool.not_eq_true, Bool.not_eq_eq_eq_not, Bool.not_false, List.isEmpty_iff] at hinv
        refine Classical.byContradiction fun hnx => ?_
        have hmem : x ∈ difference d.ids (arriving s m sub).allIds := by
          unfold difference
          exact List.mem_filter.mpr ⟨hx, by simpa using hnx⟩
        have := hinv.2
        simp [List.isEmpty_iff] at this
        rw [this] at hmem; cases hmem
    have hL3 : Links [] [] [] { arriving s m sub with jobs := upd (arriving s m sub).jobs m (some (arrived (arriving s m sub) sub)) } := by
      refine hL2.release hq2 hno fun _ j' hj' d hd => ?_
      rw [hjm] at hj'; cases hj'
      rcases mem_dependents hd with hd | hd
      · exact known _ hva.1 d hd
      · exact known _ hva.2 d hd
    refine HoareE.ite (fun hchk => ?_) fun _ => saveUnmet_link h2 ht2 hL3
    have hafter : (∀ d ∈ (arrived (arriving s m sub) sub).after.ids, d ∈ (arriving s m sub).allDone) ∨ Hardy (arrived (arriving s m sub) sub) := by
      rcases hg.one with ⟨ho, _⟩ | ho
      · exact Or.inl (check_done hchk ho (fun x hx => (hL.cd x hx).1) hL.fd)
      · exact Or.inr ho
    refine HoareE.bind (maybeRun_link hA h2 ht2 hq2 hL3 hjm hafter fun hst => hgok (Or.inr (Or.inr hst))) fun b => ?_
    cases b with
    | true => exact HoareE.ite (fun _ => HoareE.pure fun _ h => ⟨h.2, h.1⟩) fun h => absurd rfl h
    | false =>
      refine HoareE.ite (fun h => by cases h) fun _ => ?_
      refine HoareE.getS fun s₅ hs₅ => ?_
      exact HoareE.ite (fun hf => saveUnmet_link (hs₅.2.1 hf).1 (hs₅.2.1 hf).2 hs₅.1) fun hf => HoareE.pure fun s h => h ▸ ⟨hs₅.2.2 (Classical.byContradiction hf), hs₅.1⟩

theorem jobTimeout_link (hA : LinkAt cfg n) (m : MsgId) (tid : Nat) :
    HoareE (LInv cfg S A) (jobTimeout cfg n m tid) (fun _ => LInv cfg S A) (VErr cfg S A) := by
  unfold jobTimeout
  refine HoareE.getJob (fun s h _ _ => h) fun s j h hj => ?_
  refine HoareE.ite (fun _ => HoareE.pure fun s' hs => hs ▸ h) fun _ => ?_
  refine HoareE.getS fun s₁ hs₁ => ?_
  subst hs₁
  exact HoareE.ite (fun _ => ((hA.fail' m _ rfl).conseq (fun _ h => h) (fun _ _ h => h) (fun _ _ h => FuelE.weak h)).at h) fun _ => HoareE.pure fun s' hs => hs ▸ h

theorem handleUnmet_link (hA : LinkAt cfg n) {e : Engine} {m : MsgId} {c : Cause} {p : List MsgId} {s₀ : State} (hp : s₀.pending e = some p) (hm : m ∈ p)
    (h : InHand cfg False (ltop S A) m { s₀ with pending := upd s₀.pending e (some (p.filter (· ≠ m))) })
    (ht : TgtOk { s₀ with pending := upd s₀.pending e (some (p.filter (· ≠ m))) } m) (hq : m ∉ s₀.queueMap) (hL : Links [] [] [] s₀)
    (hrun : ∀ j, s₀.jobs m = some j → (∀ d ∈ j.dependents, d ∈ s₀.allDone) ∨ Hardy j) :
    HoareE (fun s => s = s₀) (handleUnmet cfg n e m c) (fun _ => LInv cfg S A) FuelE := by
  obtain ⟨j, hj, hjr⟩ := h.job
  unfold handleUnmet
  refine HoareE.getS fun s hs => ?_
  subst hs
  refine HoareE.lookupE (fun hn => by rw [hp] at hn; cases hn) fun p' hp' => ?_
  rw [hp] at hp'
  cases hp'
  refine HoareE.ite (fun hh => absurd hm hh) fun _ => ?_
  refine HoareE.modS fun s₂ hs₂ => ?_
  subst hs₂
  refine HoareE.getJob (fun s hs hn => by subst hs; rw [hj] at hn; cases hn) fun s₃ j' hs₃ hj' => ?_
  subst hs₃
  rw [hj] at hj'
  cases hj'
  have hj₂ : s₂.jobs m = some j := hj
  refine HoareE.emit fun s₄ hs₄ => ?_
  subst hs₄
  refine HoareE.setJob fun s₅ hs₅ => ?_
  subst hs₅
  have h4 := (h.retried (e := e) (c := c)).setJob (j' := { j with blacklist := insertSet e j.blacklist }) hj hjr ⟨rfl, rfl⟩ fun _ h => h
  have ht4 : TgtOk { s₂ with
      pending := upd s₂.pending e (some (p.filter (· ≠ m)))
      trace := s₂.trace ++ [.retry e m c]
      jobs := upd s₂.jobs m (some { j with blacklist := insertSet e j.blacklist }) } m := by
    intro j' hj' hr' sub hs
    simp only [upd_self, Option.some.injEq] at hj'
    subst hj'
    exact ht j hj hjr sub (by simpa using hs)
  have hrep : ∀ x, replies x (s₂.trace ++ [.retry e m c]) = replies x s₂.trace := fun x => by rw [replies_snoc]; simp
  have hass : ∀ a x, x ∈ assigned a (s₂.trace ++ [.retry e m c]) → x ∈ assigned a s₂.trace := fun a x => by rw [assigned_snoc]; exact id
  have hL4 : Links [] [] [] { s₂ with
      pending := upd s₂.pending e (some (p.filter (· ≠ m)))
      trace := s₂.trace ++ [.retry e m c]
      jobs := upd s₂.jobs m (some { j with blacklist := insertSet e j.blacklist }) } :=
    (hL.setJob (m := m) (j := j) (j' := { j with blacklist := insertSet e j.blacklist }) hj rfl rfl id).congr rfl rfl rfl rfl rfl rfl rfl rfl rfl rfl hrep hass
  have hdone : ¬ Hardy j → Gok m { s₂ with
      pending := upd s₂.pending e (some (p.filter (· ≠ m)))
      trace := s₂.trace ++ [.retry e m c]
      jobs := upd s₂.jobs m (some { j with blacklist := insertSet e j.blacklist }) } := fun hh =>
    hL4.gok_done (upd_self _ _ _) ((hrun j hj).resolve_right hh)
  have tail : HoareE (LInv cfg S A) (do
      if cfg.hwm ≠ 0 then
        let s ← getS
        match s.targets.idxOf? e with
        | none => pure ()
        | some idx =>
          if s.loads.getD idx 0 = (cfg.hwm : Int) - 1 then updateGraph cfg n none) (fun _ => LInv cfg S A) FuelE := by
    refine HoareE.ite (fun _ => ?_) fun _ => HoareE.pure fun _ h => h
    refine HoareE.getS fun s hs => ?_
    cases s.targets.idxOf? e with
    | none => exact HoareE.pure fun s' h => h ▸ hs
    | some idx => exact HoareE.ite (fun _ => (upd_link0 hA).at hs) fun _ => HoareE.pure fun s' h => h ▸ hs
  refine HoareE.ite (fun hset => ?_) fun _ => ?_
  · refine HoareE.addQueueMap fun s₆ hs₆ => ?_
    subst hs₆
    refine HoareE.bind (fail_link hA .impossible h4 ((hL4.addMap (m := m)).mono (fun _ h => h) (by simp)) (hdone fun hh => ?_)) fun _ => tail
    have := hh.1
    rw [this] at hset
    unfold setEq subset at hset
    simp only [Bool.and_eq_true, List.all_eq_true] at hset
    have := hset.1 e (by simp)
    simp at this
  · have hhardy : Hardy j → Hardy { j with blacklist := insertSet e j.blacklist } := fun hh => hh
    refine HoareE.bind (maybeRun_link hA h4 ht4 hq hL4 (upd_self _ _ _) ((hrun j hj).imp (fun hh d hd => hh d (mem_dependents_iff.mpr (Or.inl hd))) hhardy)
      fun hst => hdone fun hh => (hhardy hh).not_stuck hst) fun b => ?_
    cases b with
    | true => exact HoareE.ite (fun _ => tail.pre fun _ h => ⟨h.2, h.1⟩) fun h => absurd rfl h
    | false =>
      refine HoareE.ite (fun h => by cases h) fun _ => ?_
      refine HoareE.getS fun s₆ hs₆ => ?_
      refine HoareE.ite (fun hf => ?_) fun hf => ?_
      · exact HoareE.bind (saveUnmet_link (hs₆.2.1 hf).1 (hs₆.2.1 hf).2 hs₆.1) fun _ => tail
      · exact tail.pre fun s h => h ▸ ⟨hs₆.2.2 (Classical.byContradiction hf), hs₆.1⟩

/-- A result arrives. -/
theorem Links.relay {m : MsgId} {e : Engine} {ok : Bool} {s' : State} (h : Links K X [] s) (hX : m ∉ X) (hj : s'.jobs = s.jobs) (hg : s'.graph = s.graph)
    (hq : s'.queueMap = s.queueMap) (hi : s'.allIds = s.allIds) (ht : s'.trace = s.trace ++ [.relay e m ok]) (hd : s'.allDone = insertSet m s.allDone)
    (hds : s'.destinations = upd s.destinations m (some e)) (hc : ∀ x ∈ s'.allCompleted, x = m ∨ x ∈ s.allCompleted) (hf : ∀ x ∈ s'.allFailed, x = m ∨ x ∈ s.allFailed)
    (hcf : m ∈ s'.allCompleted ∨ m ∈ s'.allFailed) (hcm : ∀ x ∈ s.allCompleted, x ∈ s'.allCompleted) (hfm : ∀ x ∈ s.allFailed, x ∈ s'.allFailed)
    (hce : ∀ a l, s'.completed a = some l → ∀ x ∈ l, x = m ∨ ∃ l', s.completed a = some l' ∧ x ∈ l')
    (hfe : ∀ a l, s'.failed a = some l → ∀ x ∈ l, x = m ∨ ∃ l', s.failed a = some l' ∧ x ∈ l')
    (hreg : Obs.registered e ∈ s.trace) (hok : ∀ l, s'.completed e = some l → m ∈ s'.allCompleted → m ∈ l)
    (hkeep : ∀ a l, s'.completed a = some l → ∃ l', s.completed a = some l' ∧ ∀ x ∈ l', x ∈ l) : Links K X [m] s' := by
  have hass : ∀ a, assigned a (s.trace ++ [.relay e m ok]) = assigned a s.trace := fun a => by rw [assigned_snoc]
  have hrep : ∀ x, x ≠ m → replies x (s.trace ++ [.relay e m ok]) = replies x s.trace := fun x hx => by
    rw [replies_snoc]; simp [Ne.symm hx]
  have hrepm : replies m (s.trace ++ [.relay e m ok]) ≠ 0 := by rw [replies_snoc]; simp
  have grow : ∀ x, x ∈ s.allDone → x ∈ s'.allDone := fun x hx => by rw [hd]; simp [hx]
  have me : m ∈ s'.allDone := by rw [hd]; simp
  refine ⟨by rw [hj]; exact h.shape, ?_, ?_, ?_, ?_, ?_, ?_, ?_, ?_, ?_, ?_, by rw [hj]; exact h.kk, fun d hdd => ?_, fun i a l hia hal hi' => ?_, fun i a hia => ?_, fun x hx => ?_⟩
  rotate_right 4
  · rw [hd] at hdd
    rcases (mem_insertSet _ _ _).mp hdd with rfl | hdd
    · exact hcf
    · exact (h.dcf d hdd).imp (hcm d) (hfm d)
  · rw [hds] at hia
    by_cases him : i = m
    · rw [him, upd_self] at hia; cases hia
      rw [him] at hi' ⊢
      exact hok l hal hi'
    · rw [upd_ne _ _ him] at hia
      obtain ⟨l', h1, h2⟩ := hkeep a l hal
      exact h2 i (h.oke i a l' hia h1 ((hc i hi').resolve_left him))
  · rw [hds] at hia
    rw [ht]
    refine List.mem_append_left _ ?_
    by_cases him : i = m
    · rw [him, upd_self] at hia; cases hia
      exact hreg
    · rw [upd_ne _ _ him] at hia
      exact h.dreg i a hia
  · rw [ht]
    by_cases hxm : x = m
    · rw [hxm]; exact hrepm
    · rw [hrep x hxm]; exact h.oka x ((hc x hx).resolve_left hxm)
  · intro d hdd
    rw [hd] at hdd
    rw [hg]
    rcases (mem_insertSet _ _ _).mp hdd with hdd | hdd
    · right; simp [hdd]
    · rcases h.done d hdd with a | a
      · exact Or.inl a
      · cases a
  · intro d hdd
    rw [hds]
    rcases hc d hdd with rfl | hdd
    · exact ⟨me, by rw [upd_self]; simp⟩
    · refine ⟨grow d (h.cd d hdd).1, ?_⟩
      by_cases hdm : d = m
      · rw [hdm, upd_self]; simp
      · rw [upd_ne _ _ hdm]; exact (h.cd d hdd).2
  · intro d hdd
    rcases hf d hdd with rfl | hdd
    · exact me
    · exact grow d (h.fd d hdd)
  · intro a l hl x hx
    rcases hce a l hl x hx with rfl | ⟨l', h1, h2⟩
    · exact me
    · exact grow x (h.ce a l' h1 x h2)
  · intro a l hl x hx
    rcases hfe a l hl x hx with rfl | ⟨l', h1, h2⟩
    · exact me
    · exact grow x (h.fe a l' h1 x h2)
  · intro x hx hn j hjx d hdd hnd
    rw [hq] at hx; rw [hj] at hjx; rw [hg]
    exact h.inq x hx hn j hjx d hdd fun hh => hnd (grow d hh)
  · rw [hg, hi, hq, hj]; exact h.lis
  · intro x j hjx hr hn
    rw [ht] at hr
    rw [hj] at hjx
    rw [hi]
    have hxm : x ≠ m := by rintro rfl; exact hrepm hr
    rw [hrep x hxm] at hr
    exact h.kno x j hjx hr hn
  · intro a x hx j hjx
    rw [ht, hass] at hx
    rw [hj] at hjx
    exact (h.run a x hx j hjx).imp (fun hh d hdd => grow d (hh d hdd)) id
  · intro x hx
    by_cases hxm : x = m
    · rw [hxm]; exact me
    · rw [ht, hrep x hxm] at hx
      exact grow x (h.ans x hx)

theorem handleResult_link (hA : LinkAt cfg n) {e : Engine} {m : MsgId} {ok : Bool} {p : List MsgId} {s₀ : State} {r : MsgId → Option Nat} (hp : s₀.pending e = some p) (hm : m ∈ p)
    (h : InHand cfg False (ltop S A) m { s₀ with
      pending := upd s₀.pending e (some (p.filter (· ≠ m)))
      retries := r })
    (ht : TgtOk { s₀ with
      pending := upd s₀.pending e (some (p.filter (· ≠ m)))
      retries := r } m) (hq : m ∉ s₀.queueMap) (hr : s₀.retries = upd r m none)
    (hc : s₀.completed e ≠ none) (hf : s₀.failed e ≠ none) (hL : Links [] [] [] s₀) (hreg : Obs.registered e ∈ s₀.trace) (hnc : m ∉ s₀.allCompleted) :
    HoareE (fun s => s = s₀) (handleResult cfg n e m ok) (fun _ => LInv cfg S A) FuelE := by
  have ins : ∀ (f : Engine → Option (List MsgId)) l x, f x ≠ none → upd f e (some l) x ≠ none := fun f l x hx => by
    unfold upd; split
    · simp
    · exact hx
  have insl : ∀ (f : Engine → Option (List MsgId)) c, f e = some c → ∀ a l, upd f e (some (insertSet m c)) a = some l → ∀ x ∈ l, x = m ∨ ∃ l', f a = some l' ∧ x ∈ l' := by
    intro f c hc a l hl x hx
    by_cases hae : a = e
    · rw [hae, upd_self] at hl; cases hl
      rw [hae]
      rcases (mem_insertSet _ _ _).mp hx with hx | hx
      · exact Or.inl hx
      · exact Or.inr ⟨c, hc, hx⟩
    · rw [upd_ne _ _ hae] at hl; exact Or.inr ⟨l, hl, hx⟩
  unfold handleResult
  refine HoareE.emit fun s hs => ?_
  subst hs
  refine HoareE.getS fun s₁ hs₁ => ?_
  subst hs₁
  refine HoareE.lookupE (fun hn => by rw [show ({ s with trace := s.trace ++ [.relay e m ok] } : State).pending = s.pending from rfl, hp] at hn; cases hn) fun p' hp' => ?_
  rw [show ({ s with trace := s.trace ++ [.relay e m ok] } : State).pending = s.pending from rfl, hp] at hp'
  cases hp'
  refine HoareE.ite (fun hh => absurd hm hh) fun _ => ?_
  refine HoareE.modS fun s₂ hs₂ => ?_
  subst hs₂
  refine HoareE.ite (fun _ => ?_) fun _ => ?_
  · refine HoareE.lookupE (fun hn => absurd hn hc) fun c hc' => ?_
    refine HoareE.modS fun s₃ hs₃ => ?_
    subst hs₃
    refine HoareE.modS fun s₄ hs₄ => ?_
    subst hs₄
    refine (upd_link hA _).at ⟨h.relay (e := e) (ok := ok) (comp := upd s.completed e (some (insertSet m c))) (fai := s.failed) (alf := s.allFailed)
      ht hq (ins _ _) (fun _ h => h) (fun _ h => Or.inl h) (fun _ h => h) rfl rfl rfl rfl rfl rfl rfl hr rfl rfl rfl rfl rfl rfl, ?_, by simp⟩
    exact hL.relay (e := e) (m := m) (ok := ok) (by simp) rfl rfl rfl rfl rfl rfl rfl (fun x hx => (mem_insertSet _ _ _).mp hx) (fun x hx => Or.inr hx)
      (Or.inl (by simp)) (fun x hx => by simp [hx]) (fun x hx => hx) (insl _ c hc') (fun a l hl x hx => Or.inr ⟨l, hl, hx⟩)
      hreg (fun l hl _ => by dsimp only at hl; rw [upd_self] at hl; cases hl; simp)
      (fun a l hl => by
        dsimp only at hl
        by_cases hae : a = e
        · rw [hae, upd_self] at hl; cases hl; rw [hae]; exact ⟨c, hc', fun x hx => by simp [hx]⟩
        · rw [upd_ne _ _ hae] at hl; exact ⟨l, hl, fun _ hx => hx⟩)
  · refine HoareE.lookupE (fun hn => absurd hn hf) fun c hc' => ?_
    refine HoareE.modS fun s₃ hs₃ => ?_
    subst hs₃
    refine HoareE.modS fun s₄ hs₄ => ?_
    subst hs₄
    refine (upd_link hA _).at ⟨h.relay (e := e) (ok := ok) (comp := s.completed) (fai := upd s.failed e (some (insertSet m c))) (alf := insertSet m s.allFailed)
      ht hq (fun _ h => h) (ins _ _) (fun x h => ?_) (fun x h => ?_) rfl rfl rfl rfl rfl rfl rfl hr rfl rfl rfl rfl rfl rfl, ?_, by simp⟩
    · exact ((mem_insertSet _ _ _).mp h).symm
    · exact (mem_insertSet _ _ _).mpr (Or.inr h)
    · exact hL.relay (e := e) (m := m) (ok := ok) (by simp) rfl rfl rfl rfl rfl rfl rfl (fun x hx => Or.inr hx) (fun x hx => (mem_insertSet _ _ _).mp hx)
        (Or.inr (by simp)) (fun x hx => hx) (fun x hx => by simp [hx]) (fun a l hl x hx => Or.inr ⟨l, hl, hx⟩) (insl _ c hc')
        hreg (fun l _ hh => absurd hh hnc) (fun a l hl => ⟨l, hl, fun _ hx => hx⟩)

theorem dispatchResult_link (hA : LinkAt cfg n) {e : Engine} {m : MsgId} {ok dm : Bool} {o : Obs} {A' : List MsgId} {s₀ : State} (hh : LInv cfg S A s₀)
    (ho : ReplyObs o e m) (hm : m ∈ assigned e s₀.trace) (hA' : ∀ e' ∈ S, ∀ x ∈ assigned e' (s₀.trace ++ [o]), x ∈ A') :
    HoareE (fun s => s = { s₀ with trace := s₀.trace ++ [o] }) (dispatchResult cfg n e m ok dm) (fun _ => LInv cfg S A') FuelE := by
  obtain ⟨h, hL⟩ := hh
  obtain ⟨hmq, hmr, j, hj, hjr⟩ := h.asg m e hm
  have hret := h.ret m j hj hmr
  have hrun := hL.run e m hm
  obtain ⟨hc, hf⟩ := h.dead e (fun hh => by rw [hh] at hm; cases hm)
  obtain ⟨p, hp⟩ : ∃ p, s₀.pending e = some p := by
    cases hp : s₀.pending e with
    | none => rw [h.pn e hp] at hm; cases hm
    | some p => exact ⟨p, rfl⟩
  have hmp : m ∈ p := by rw [h.ps e p hp]; exact hm
  have hrep : ∀ x, replies x (s₀.trace ++ [o]) = replies x s₀.trace := fun x => by
    rw [replies_snoc]
    rcases ho with ⟨_, _, rfl⟩ | rfl <;> rfl
  have hass : ∀ a x, x ∈ assigned a (s₀.trace ++ [o]) → x ∈ assigned a s₀.trace := fun a x hx => by
    rw [assigned_snoc] at hx
    rcases ho with ⟨_, _, rfl⟩ | rfl
    all_goals
      dsimp only at hx
      split at hx
      · exact List.mem_of_mem_erase hx
      · exact hx
  unfold dispatchResult
  refine HoareE.getS fun s hs => ?_
  have rest : HoareE (fun s => s = recvBase s₀ o e) (if dm = true then do
      let r ← lookupE (s₀.retries m)
      if !ok ∧ r > 0 then
        modS fun s => { s with retries := upd s.retries m (some (r - 1)) }
        handleUnmet cfg n e m .failure
      else
        modS fun s => { s with retries := upd s.retries m none }
        handleResult cfg n e m ok
    else handleUnmet cfg n e m .unmet) (fun _ => LInv cfg S A') FuelE := by
    have hrb : (recvBase s₀ o e).retries = s₀.retries := by simp
    have hpb : (recvBase s₀ o e).pending = s₀.pending := by simp
    have hqb : (recvBase s₀ o e).queueMap = s₀.queueMap := by simp
    have hcb : (recvBase s₀ o e).completed = s₀.completed := by simp
    have hfb : (recvBase s₀ o e).failed = s₀.failed := by simp
    have hjb : (recvBase s₀ o e).jobs = s₀.jobs := by simp
    have hdb : (recvBase s₀ o e).allDone = s₀.allDone := by unfold recvBase; dsimp only; split <;> rfl
    have hLb : Links [] [] [] (recvBase s₀ o e) := by
      have e1 : (recvBase s₀ o e).trace = s₀.trace ++ [o] := by unfold recvBase; dsimp only; split <;> rfl
      refine hL.congr hjb hdb ?_ ?_ ?_ ?_ hcb hfb hqb ?_ (by rw [e1]; exact hrep) (by rw [e1]; exact hass)
      all_goals (unfold recvBase; dsimp only; split <;> rfl)
    have hrunb : ∀ j, (recvBase s₀ o e).jobs m = some j → (∀ d ∈ j.dependents, d ∈ (recvBase s₀ o e).allDone) ∨ Hardy j := by
      rw [hjb, hdb]; exact hrun
    refine HoareE.ite (fun _ => ?_) fun _ => ?_
    · refine HoareE.lookupE (fun hn => absurd hn hret) fun r hr => ?_
      refine HoareE.ite (fun _ => ?_) fun _ => ?_
      · refine HoareE.modS fun s₁ hs₁ => ?_
        subst hs₁
        obtain ⟨h1, h2, h3⟩ := h.recv (m := m) (e := e) (o := o) (p := p) (r := upd s₀.retries m (some (r - 1))) (A' := A') rfl (fun h => h) ho hm hp
          (fun x hx => upd_ne _ _ hx) (by simp [upd]) hA'
        refine handleUnmet_link hA (p := p) (by rw [← hp, ← hpb]) hmp ?_ ?_ (by simpa [hqb] using hmq)
          (hLb.congr rfl rfl rfl rfl rfl rfl rfl rfl rfl rfl (fun _ => rfl) (fun _ _ h => h)) hrunb
        · have : recvState s₀ o e m p (upd s₀.retries m (some (r - 1))) = { recvBase s₀ o e with
            retries := upd (recvBase s₀ o e).retries m (some (r - 1))
            pending := upd (recvBase s₀ o e).pending e (some (p.filter (· ≠ m))) } := by
            simp only [recvState, hrb, hpb]
          rw [this] at h1; exact h1
        · have : recvState s₀ o e m p (upd s₀.retries m (some (r - 1))) = { recvBase s₀ o e with
            retries := upd (recvBase s₀ o e).retries m (some (r - 1))
            pending := upd (recvBase s₀ o e).pending e (some (p.filter (· ≠ m))) } := by
            simp only [recvState, hrb, hpb]
          rw [this] at h2; exact h2
      · refine HoareE.modS fun s₁ hs₁ => ?_
        subst hs₁
        obtain ⟨h1, h2, h3⟩ := h.recv (m := m) (e := e) (o := o) (p := p) (r := s₀.retries) (A' := A') rfl (fun h => h) ho hm hp
          (fun x hx => rfl) hret hA'
        refine handleResult_link hA (p := p) (r := s₀.retries) (by rw [← hp, ← hpb]) hmp ?_ ?_ (by simpa [hqb] using hmq) (by rw [hrb]) (by rw [← hcb] at hc; exact hc) (by rw [← hfb] at hf; exact hf)
          (hLb.congr rfl rfl rfl rfl rfl rfl rfl rfl rfl rfl (fun _ => rfl) (fun _ _ h => h)) ?_ ?_
        · have : recvState s₀ o e m p s₀.retries = { recvBase s₀ o e with
            retries := s₀.retries
            pending := upd (recvBase s₀ o e).pending e (some (p.filter (· ≠ m))) } := by
            simp only [recvState, hpb]
          rw [this] at h1; exact h1
        · have : recvState s₀ o e m p s₀.retries = { recvBase s₀ o e with
            retries := s₀.retries
            pending := upd (recvBase s₀ o e).pending e (some (p.filter (· ≠ m))) } := by
            simp only [recvState, hpb]
          rw [this] at h2; exact h2
        · have e1 : (recvBase s₀ o e).trace = s₀.trace ++ [o] := by unfold recvBase; dsimp only; split <;> rfl
          show _ ∈ (recvBase s₀ o e).trace
          rw [e1]
          refine List.mem_append_left _ (Classical.byContradiction fun hn => ?_)
          rw [(h.fre e hn).1] at hp; cases hp
        · have e1 : (recvBase s₀ o e).allCompleted = s₀.allCompleted := by unfold recvBase; dsimp only; split <;> rfl
          show m ∉ (recvBase s₀ o e).allCompleted
          rw [e1]
          exact fun hh => hL.oka m hh hmr
    · obtain ⟨h1, h2, h3⟩ := h.recv (m := m) (e := e) (o := o) (p := p) (r := s₀.retries) (A' := A') rfl (fun h => h) ho hm hp
          (fun x hx => rfl) hret hA'
      have : recvState s₀ o e m p s₀.retries = { recvBase s₀ o e with
            pending := upd (recvBase s₀ o e).pending e (some (p.filter (· ≠ m))) } := by
        simp only [recvState, hpb]
        rw [← hrb]
      rw [this] at h1 h2
      exact handleUnmet_link hA (p := p) (by rw [← hp, ← hpb]) hmp h1 h2 (by simpa [hqb] using hmq) hLb hrunb
  subst hs
  cases hi : ({ s₀ with trace := s₀.trace ++ [o] } : State).targets.idxOf? e with
  | none =>
    have : recvBase s₀ o e = { s₀ with trace := s₀.trace ++ [o] } := by unfold recvBase; simp only [hi]
    rw [this] at rest
    exact rest
  | some idx =>
    have : recvBase s₀ o e = { s₀ with
        trace := s₀.trace ++ [o]
        loads := s₀.loads.modify idx (· - 1) } := by unfold recvBase; simp only [hi]
    rw [this] at rest
    refine HoareE.modS fun s' hs => ?_
    subst hs
    exact rest

/-- The tasks left on the dead engine. -/
theorem Inv.lleft {A' : List MsgId} (h : Inv cfg False (ltop S A) s) (hA : ∀ e ∈ S, ∀ x ∈ assigned e s.trace, x ∈ A') : Inv cfg False (ltop S A') s := { h with
  sin := fun e he => by
    obtain ⟨a, b, c, d, _⟩ := h.sin e he
    exact ⟨a, b, c, d, hA e he⟩ }

theorem strandedLoop_link (hA : LinkAt cfg n) (e : Engine) (ms : List MsgId) : ∀ q, Enough L u (q + ms.length) n →
    HoareE (fun s => LInv cfg [e] ms s ∧ FInv L u q s) (strandedLoop cfg n e ms) (fun _ => LInv cfg [e] []) (fun _ _ => False) := by
  induction ms with
  | nil => intro q _; exact HoareE.pure fun _ h => h.1
  | cons m ms ih =>
    intro q hn
    simp only [List.length_cons] at hn
    have ih' := ih (q + 1) (by rw [Nat.add_right_comm, Nat.add_assoc]; exact hn)
    unfold strandedLoop
    refine HoareE.getS fun s h => ?_
    obtain ⟨hh, hF⟩ := h
    obtain ⟨h, hL⟩ := hh
    obtain ⟨a1, a2, a3, a4, a5⟩ := h.sin e (by simp [ltop])
    refine HoareE.lookupE (fun hn => absurd hn a4) fun p hp => ?_
    have hpa := h.ps e p hp
    refine HoareE.ite (fun hm => ?_) fun hm => ?_
    · rw [hpa] at hm
      refine HoareE.emit fun s₁ hs₁ => ?_
      subst hs₁
      refine HoareE.bind (R := fun _ s => LInv cfg [e] ms s ∧ FInv L u (q + 1) s) ?_ fun _ => ih'
      have hF' : FInv L u q { s₁ with trace := s₁.trace ++ [.stranded e m] } := ⟨hF.ids, hF.grn, hF.pen, hF.len, hF.un, hF.ql⟩
      refine logErrorsE_pres (((dispatchResult_link hA (e := e) (m := m) (ok := false) (dm := true) (A' := ms) ⟨h, hL⟩ (Or.inr rfl) hm ?_).and
        ((dispatchResult_fuel (hn.mono (Nat.le_refl _) (by omega)) e m false true).at hF')).conseq (fun s hs => ⟨hs, hs⟩) (fun _ _ h => h)
          (fun _ _ h => absurd h.1 h.2.1))
      intro e' he' x hx
      simp only [List.mem_singleton] at he'
      subst he'
      rw [assigned_snoc] at hx
      simp only [if_true] at hx
      have hnd := h.nod e'
      have hxm : x ≠ m := fun hh => by
        rw [hh] at hx
        exact (hnd.mem_erase_iff.mp hx).1 rfl
      have := a5 x (List.mem_of_mem_erase hx)
      rcases List.mem_cons.mp this with h1 | h1
      · exact absurd h1 hxm
      · exact h1
    · refine ih'.at ⟨⟨h.lleft ?_, hL⟩, hF.up⟩
      intro e' he' x hx
      simp only [List.mem_singleton] at he'
      subst he'
      have := a5 x hx
      rcases List.mem_cons.mp this with h1 | h1
      · rw [h1, ← hpa] at hx; exact absurd hx hm
      · exact h1

/-- Handling of the dead engine starts. -/
theorem Inv.lstrand {e : Engine} (h : Inv cfg False (ltop [] A) s) (he : e ∈ s.strandTimers) :
    Inv cfg False (ltop [e] (assigned e s.trace)) { s with strandTimers := s.strandTimers.erase e } := { h with
  tim := fun x hx ht => by
    rcases h.tim x hx ht with a | a
    · by_cases hxe : x = e
      · right; simp [ltop, hxe]
      · left; exact (List.mem_erase_of_ne hxe).mpr a
    · cases a
  stt := fun x hx => by
    obtain ⟨a, b, c⟩ := h.stt x (List.mem_of_mem_erase hx)
    refine ⟨a, fun hh => ?_, c⟩
    simp [ltop] at hh
    subst hh
    exact (h.stn.mem_erase_iff.mp hx).1 rfl
  stn := h.stn.sublist List.erase_sublist
  sin := fun x hx => by
    simp [ltop] at hx
    subst hx
    obtain ⟨a, b, c, d, f⟩ := h.stt x he
    exact ⟨a, c, d, f, fun _ h => h⟩
  fre := fun x hx => by
    obtain ⟨a, b, c⟩ := h.fre x hx
    exact ⟨a, b, fun hh => c (List.mem_of_mem_erase hh)⟩ }

/-- ... and ends. -/
theorem Inv.lscrub {e : Engine} (h : Inv cfg False (ltop [e] []) s) : Inv cfg False (ltop [] []) { s with
    completed := upd s.completed e none
    failed := upd s.failed e none } := by
  obtain ⟨a1, a2, a3, a4, a5⟩ := h.sin e (by simp [ltop])
  have hnil : assigned e s.trace = [] := List.eq_nil_iff_forall_not_mem.mpr fun x hx => by cases a5 x hx
  exact { h with
    reg := fun x hx => by
      have hxe : x ≠ e := fun hh => a1 (hh ▸ hx)
      obtain ⟨a, b, c⟩ := h.reg x hx
      exact ⟨a, by dsimp only; rw [upd_ne _ _ hxe]; exact b, by dsimp only; rw [upd_ne _ _ hxe]; exact c⟩
    dead := fun x hx => by
      have hxe : x ≠ e := fun hh => hx (hh ▸ hnil)
      obtain ⟨b, c⟩ := h.dead x hx
      exact ⟨by dsimp only; rw [upd_ne _ _ hxe]; exact b, by dsimp only; rw [upd_ne _ _ hxe]; exact c⟩
    tim := fun x hx ht => by
      have hxe : x ≠ e := fun hh => hx (hh ▸ hnil)
      rcases h.tim x hx ht with a | a
      · exact Or.inl a
      · simp [ltop] at a; exact absurd a hxe
    stt := fun x hx => by
      obtain ⟨a, b, c, d, f⟩ := h.stt x hx
      have hxe : x ≠ e := fun hh => b (by simp [ltop, hh])
      exact ⟨a, by simp [ltop], by dsimp only; rw [upd_ne _ _ hxe]; exact c, by dsimp only; rw [upd_ne _ _ hxe]; exact d, f⟩
    sin := fun x hx => by cases hx }

theorem handleStranded_link (hA : LinkAt cfg n) (e : Engine) (hn : Enough L u (q + L) n) {s₀ : State} (hh : LInv cfg [] A s₀) (he : e ∈ s₀.strandTimers) (hF : FInv L u q s₀) :
    HoareE (fun s => s = { s₀ with strandTimers := s₀.strandTimers.erase e }) (handleStranded cfg n e) (fun _ s => LInv cfg [] [] s ∧ assigned e s.trace = []) (fun _ _ => False) := by
  obtain ⟨h, hL⟩ := hh
  unfold handleStranded
  refine HoareE.getS fun s hs => ?_
  subst hs
  obtain ⟨_, _, hc, hf, hp⟩ := h.stt e he
  refine HoareE.lookupE (fun hn => absurd hn hp) fun p hp' => ?_
  have hpa := h.ps e p hp'
  obtain ⟨a, b⟩ := hF.pen e p hp'
  have hl : p.length ≤ L := Nat.le_trans (nodup_length_le a b) hF.len
  have h1 := h.lstrand he
  rw [← hpa] at h1
  refine HoareE.bind ((strandedLoop_link hA e p q (hn.mono (Nat.le_refl _) (by omega))).at ⟨⟨h1, hL.congr rfl rfl rfl rfl rfl rfl rfl rfl rfl rfl (fun _ => rfl) (fun _ _ h => h)⟩, ⟨hF.ids, hF.grn, hF.pen, hF.len, hF.un, hF.ql⟩⟩) fun _ => ?_
  refine HoareE.getS fun s₁ hh₁ => ?_
  obtain ⟨h₁, hL₁⟩ := hh₁
  obtain ⟨a1, a2, a3, a4, a5⟩ := h₁.sin e (by simp [ltop])
  refine HoareE.lookupE (fun hn => absurd hn a2) fun c hc => ?_
  refine HoareE.modS fun s₃ hs₃ => ?_
  subst hs₃
  refine HoareE.lookupE (fun hn => absurd hn a3) fun f hf => ?_
  refine HoareE.modS_last fun s hs => ?_
  subst hs
  exact ⟨⟨h₁.lscrub, hL₁.scrub e⟩, List.eq_nil_iff_forall_not_mem.mpr fun x hx => by cases a5 x hx⟩

/-- What is assumed of a submission when it arrives in state `s`. -/
structure Arrives (s : State) (m : MsgId) (sub : Submission) : Prop where
  cons : ((sub.after.map fun d => d.success || d.failure).getD true) = true ∧ (sub.follow.success || sub.follow.failure) = true
  good : GoodJob (arrived (arriving s m sub) sub)
  clean : (validateDep (arriving s m sub) m (arrived (arriving s m sub) sub).after ≠ none ∨ validateDep (arriving s m sub) m sub.follow ≠ none ∨
      Stuck s (arrived (arriving s m sub) sub)) → ∀ d ∈ (arrived (arriving s m sub) sub).dependents, s.graph d = none

theorem handle_link (hA : LinkAt cfg n) (s : State) (ev : Event) (h : LInv cfg [] [] s) (hF : FOk s) (hn : fuelFor s ≤ n) (hfr : FreshIn s ev)
    (hd : ∀ m sub, ev = .submit m sub → Arrives s m sub) (hp : ∀ e m ok dm, ev = .result e m ok dm → m ∈ assigned e s.trace) :
    HoareE (fun s' => s' = s) (handle cfg n ev) (fun _ => LInv cfg [] []) (VErr cfg [] []) := by
  have hE := enough_fuelFor s hn
  have hE0 : ∀ q, q ≤ s.queue.length + s.allIds.length → Enough s.allIds.length s.allIds.length q n := fun q hq =>
    (hE.mono (by omega) (by omega)).monoL (by omega)
  unfold handle
  cases ev with
  | submit m sub =>
    obtain ⟨a, b, c⟩ := hd m sub rfl
    exact (dispatchSubmission_link hA m sub h hfr a b c).conseq (fun _ h => h) (fun _ _ h => h) (fun _ _ h => FuelE.weak h)
  | register e => exact ((registerEngine_link hA e).at ⟨h, hfr⟩).conseq (fun _ h => h) (fun _ _ h => h) (fun _ _ h => FuelE.weak h)
  | unregister e => exact (unregisterEngine_link e).at h
  | result e m ok dm =>
    refine HoareE.emit fun s₁ hs₁ => ?_
    subst hs₁
    exact (dispatchResult_link hA h (Or.inl ⟨ok, dm, rfl⟩) (hp e m ok dm rfl) (by simp)).conseq (fun _ h => h) (fun _ _ h => h) (fun _ _ h => FuelE.weak h)
  | strandTimer e =>
    refine HoareE.getS fun s₁ hs₁ => ?_
    subst hs₁
    refine HoareE.ite (fun he => ?_) fun _ => HoareE.pure fun s hs' => hs' ▸ h
    refine HoareE.modS fun s₂ hs₂ => ?_
    subst hs₂
    exact (handleStranded_link hA e (hE0 _ (Nat.le_refl _)) h he hF).conseq (fun _ h => h) (fun _ _ h => h.1) (fun _ _ h => h.elim)
  | jobTimer m tid =>
    refine HoareE.getS fun s₁ hs₁ => ?_
    subst hs₁
    refine HoareE.ite (fun _ => ?_) fun _ => HoareE.pure fun s hs' => hs' ▸ h
    refine HoareE.modS fun s₂ hs₂ => ?_
    subst hs₂
    exact (jobTimeout_link hA m tid).at ⟨{ h.1 with }, h.2.congr rfl rfl rfl rfl rfl rfl rfl rfl rfl rfl (fun _ => rfl) (fun _ _ h => h)⟩

theorem linv_init : LInv cfg [] [] {} := by
  refine ⟨{ (inv_init (cfg := cfg) (D := False)) with fe := fun h => h.elim, lost := fun _ _ _ h => (by cases h), wait := fun _ _ h => (by cases h), rem := fun _ _ _ h => (by cases h) }, ?_⟩
  exact ⟨fun _ _ h => (by cases h), fun _ h => (by cases h), fun _ h => (by cases h), fun _ h => (by cases h), fun _ _ h => (by cases h), fun _ _ h => (by cases h),
    fun _ h => (by cases h), fun _ _ h => (by cases h), fun _ _ h => (by cases h), fun _ _ h => (by cases h), fun _ h => absurd rfl h, fun _ h => (by cases h), fun _ h => (by cases h), fun _ _ _ h => (by cases h), fun _ _ h => (by cases h), fun _ h => (by cases h)⟩

theorem run_link (hC : cfg.hwm = 1) (hP : ∀ tr l, l ≠ [] → cfg.pick tr l < l.length) (evs : List Event) (hf : Fresh evs) (hp : Prompt cfg evs)
    (hd : ∀ p m sub q, evs = p ++ .submit m sub :: q → LInv cfg [] [] (run cfg p) → Arrives (run cfg p) m sub) : LInv cfg [] [] (run cfg evs) := by
  induction evs using snoc_induction with
  | nil => exact linv_init
  | snoc evs ev ih =>
    have h := ih hf.snoc hp.snoc fun p m sub q hq => hd p m sub (q ++ [ev]) (by rw [hq]; simp)
    have hb := run_base cfg evs hf.snoc
    rw [run_snoc]
    have hok := run_ok (cfg := cfg) evs
    have h1 := handle_link (n := fuelFor (run cfg evs)) (linkAt hC hP _) (run cfg evs) ev h hok (Nat.le_refl _) (hf.freshIn hb.1 hb.2)
      (fun m sub hev => hd evs m sub [] (by rw [hev]) h) (fun e m ok dm hev => hp evs e m ok dm [] (by rw [hev]))
    have h2 := handle_fuel (cfg := cfg) (n := fuelFor (run cfg evs)) (run cfg evs) ev hok (Nat.le_refl _)
    exact (h1.and h2).final (fun _ _ h => h.1) (fun _ _ h => h.1 h.2.1) ⟨rfl, rfl⟩

end IPP.Sched
