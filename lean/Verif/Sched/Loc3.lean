import Verif.Sched.Loc2

/-!
# Where every task is: the mutually recursive functions (lemmas)
-/
namespace IPP.Sched

variable {cfg : Config} {D : Prop} {g : Ghost} {s : State}

/-- State after a (non-artificial) exception. -/
def LErr (cfg : Config) (D : Prop) (g : Ghost) : Err → State → Prop := fun e s => e ≠ .fuel → Bad cfg D g s

theorem HoareE.ofHoare {P : State → Prop} {x : M α} {Q : α → State → Prop} {E : State → Prop} (h : Hoare P x Q E) : HoareE P x Q (fun _ => E) :=
  fun s hs => h s hs

theorem removeFromGraph_loc (m : MsgId) (ms : List MsgId) (J : MsgId → Option Job) (Q : List MsgId) (T : List Obs) :
    HoareE (fun s => Inv cfg D g s ∧ s.jobs = J ∧ s.queueMap = Q ∧ s.trace = T) (removeFromGraph m ms)
      (fun _ s => Inv cfg D g s ∧ s.jobs = J ∧ s.queueMap = Q ∧ s.trace = T)
      (fun _ s => ms ≠ [] ∧ Inv cfg D g s ∧ s.jobs = J ∧ s.queueMap = Q ∧ s.trace = T) := by
  induction ms with
  | nil => exact HoareE.pure fun _ h => h
  | cons d ds ih =>
    have ih := ih.conseq (fun _ h => h) (fun _ _ h => h) (fun _ s h => (⟨by simp, h.2⟩ : d :: ds ≠ [] ∧ Inv cfg D g s ∧ s.jobs = J ∧ s.queueMap = Q ∧ s.trace = T))
    unfold removeFromGraph
    refine HoareE.getS fun s h => ?_
    cases hg : s.graph d with
    | none => exact ih.at h
    | some l =>
      refine HoareE.ite (fun _ => ?_) fun _ => ?_
      · refine HoareE.modS fun s' h' => ih.at ?_
        subst h'
        refine ⟨h.1.setGraph _ fun x hx => ?_, h.2⟩
        by_cases hxd : x = d
        · rw [hxd, hg] at hx; cases hx
        · rw [upd_ne _ _ hxd]; exact hx
      · exact HoareE.bind (R := fun _ _ => False) (HoareE.throwE fun s' h' => ⟨by simp, h' ▸ h⟩) fun _ _ h => h.elim

theorem canRun_total (j : Job) (i : Nat) (s₀ : State) (hi : i < s₀.targets.length) (hreg : ∀ e ∈ s₀.targets, s₀.completed e ≠ none ∧ s₀.failed e ≠ none) :
    HoareE (fun s => s = s₀) (canRun cfg j i) (fun _ s => s = s₀) (fun _ _ => False) := by
  unfold canRun
  refine HoareE.getS fun s hs => ?_
  subst hs
  refine HoareE.ite (fun _ => HoareE.pure fun _ h => h) fun _ => ?_
  cases ht : s.targets[i]? with
  | none =>
    rw [List.getElem?_eq_none_iff] at ht
    omega
  | some t =>
    obtain ⟨hc, hf⟩ := hreg t (List.mem_of_getElem? ht)
    refine HoareE.ite (fun _ => HoareE.pure fun _ h => h) fun _ => ?_
    refine HoareE.ite (fun _ => HoareE.pure fun _ h => h) fun _ => ?_
    refine HoareE.lookupE (fun hn _ _ => hc hn) fun _ _ => ?_
    refine HoareE.lookupE (fun hn _ _ => hf hn) fun _ _ => ?_
    exact HoareE.pure fun _ h => h

theorem filterCanRun_total (j : Job) (is : List Nat) (s₀ : State) (hi : ∀ i ∈ is, i < s₀.targets.length)
    (hreg : ∀ e ∈ s₀.targets, s₀.completed e ≠ none ∧ s₀.failed e ≠ none) :
    HoareE (fun s => s = s₀) (filterCanRun cfg j is) (fun _ s => s = s₀) (fun _ _ => False) := by
  induction is with
  | nil => exact HoareE.pure fun _ h => h
  | cons i is ih =>
    unfold filterCanRun
    refine HoareE.bind (canRun_total j i s₀ (hi i (by simp)) hreg) fun b => ?_
    refine HoareE.bind (ih fun x hx => hi x (by simp [hx])) fun r => ?_
    exact HoareE.pure fun _ h => h

theorem available_lt {s : State} {i : Nat} (h : i ∈ availableEngines cfg s) : i < s.targets.length := by
  unfold availableEngines at h
  split at h
  · simpa using h
  · simpa using (List.mem_filter.mp h).1

theorem followImpossible_loc (j : Job) (s₀ : State) :
    HoareE (fun s => s = s₀) (followImpossible j) (fun _ s => s = s₀) (fun _ s => j.follow.ids ≠ [] ∧ s = s₀) := by
  unfold followImpossible
  refine HoareE.getS fun s hs => ?_
  subst hs
  refine HoareE.ite (fun _ => ?_) fun _ => HoareE.pure fun _ h => h
  refine HoareE.bind (R := fun _ s' => s' = s) ?_ fun _ => HoareE.pure fun _ h => h
  cases hids : j.follow.ids with
  | nil => exact HoareE.pure fun _ h => h
  | cons x xs => exact (destsOf_reads _ s).conseq (fun _ h => h) (fun _ _ h => h) fun _ _ h => ⟨by simp, h.2⟩

/-- What `maybe_run` leaves behind. -/
def MayPost (cfg : Config) (D : Prop) (g : Ghost) (m : MsgId) (s₀ : State) (b : Bool) (s : State) : Prop :=
  if b then Inv cfg D g (drop m s) ∧ (m ∈ s.queueMap ↔ m ∈ s₀.queueMap) ∧ ∃ j, s.jobs m = some j
  else (InHand cfg D g m s ∧ TgtOk s m ∧ (m ∈ s.queueMap ↔ m ∈ s₀.queueMap)) ∨ Inv cfg D { g with
    H := g.H ++ [m]
    R := m :: g.R } s

theorem submitTask_loc {s₀ : State} {j : Job} {m : MsgId} {is : List Nat} (hP : D → ∀ tr l, l ≠ [] → cfg.pick tr l < l.length)
    (h : InHand cfg D g m s₀) (ht : TgtOk s₀ m) (hX : g.X = []) (hF : ¬ g.F) (hj : s₀.jobs m = some j)
    (hi : ∀ i ∈ is, ∃ t, s₀.targets[i]? = some t ∧ (j.targets = [] ∨ t ∈ j.targets)) (hne : is = [] → j.targets = [] ∧ s₀.targets ≠ []) :
    HoareE (fun s => s = s₀) (submitTask cfg m is) (fun _ s => MayPost cfg D g m s₀ true s) (LErr cfg D g) := by
  have hw : ¬ D → LErr cfg D g .valueError s₀ := fun hD _ => ⟨hD, h.weaken ht hX⟩
  have hload : s₀.loads = s₀.targets.map (fun e => ((assigned e s₀.trace).length : Int)) := h.inv.load
  unfold submitTask
  refine HoareE.getS fun s hs => ?_
  subst hs
  dsimp only
  split
  · rename_i hidx
    refine HoareE.throwE fun s' hs => hs ▸ hw fun hD => ?_
    split at hidx
    · rename_i hne'
      have := hP hD s.trace (is.map fun i => s.loads.getD i 0) (by simpa using hne')
      rw [List.getElem?_eq_none_iff] at hidx
      rw [List.length_map] at this
      omega
    · cases hidx
  rename_i idx hidx
  have hidx' : (is ≠ [] ∧ idx ∈ is) ∨ (is = [] ∧ idx = cfg.pick s.trace s.loads) := by
    split at hidx
    · rename_i h1; exact Or.inl ⟨h1, List.mem_of_getElem? hidx⟩
    · rename_i h1
      have h1 : is = [] := Classical.byContradiction h1
      cases hidx; exact Or.inr ⟨h1, rfl⟩
  split
  · rename_i hn
    refine HoareE.throwE fun s' hs => hs ▸ hw fun hD => ?_
    rcases hidx' with ⟨_, hmem⟩ | ⟨h1, h2⟩
    · obtain ⟨t, htt, _⟩ := hi idx hmem
      rw [hn] at htt; cases htt
    · have := hP hD s.trace s.loads (by rw [hload]; simpa using (hne h1).2)
      rw [List.getElem?_eq_none_iff] at hn
      have hl : s.loads.length = s.targets.length := by rw [hload, List.length_map]
      omega
  rename_i t htt
  have htg : j.targets = [] ∨ t ∈ j.targets := by
    rcases hidx' with ⟨_, hmem⟩ | ⟨h1, h2⟩
    · obtain ⟨t', ht', h3⟩ := hi idx hmem
      rw [htt] at ht'; cases ht'; exact h3
    · exact Or.inl (hne h1).1
  have hsend := h.send ht htt hF hj htg
  obtain ⟨hp, _, _⟩ := h.inv.reg t (List.mem_of_getElem? htt)
  have hpa : ∀ (s : State), (addJob idx s).pending = s.pending := by
    intro s; unfold addJob; split <;> rfl
  refine HoareE.emit fun s₂ h₂ => ?_
  subst h₂
  refine HoareE.modS fun s₃ h₃ => ?_
  subst h₃
  refine HoareE.lookupE (fun hn _ _ => absurd hn hp) fun p hp' => HoareE.modS_last fun s' hs => ?_
  subst hs
  have heq : ({ addJob idx { s₂ with trace := s₂.trace ++ [Obs.send t m] } with
      pending := upd (addJob idx { s₂ with trace := s₂.trace ++ [Obs.send t m] }).pending t (some (insertSet m p)) } : State) = sentState s₂ m idx t := by
    unfold sentState
    simp only [hpa, hp']
  rw [heq]
  refine ⟨hsend, by simp, j, by simpa using hj⟩

theorem targetsImpossible_loc {s₀ : State} {j : Job} {m : MsgId} (h : InHand cfg D g m s₀) (ht : TgtOk s₀ m) (hj : s₀.jobs m = some j) {E : Err → State → Prop} :
    HoareE (fun s => s = s₀) (targetsImpossible m j) (fun b s => InHand cfg D g m s ∧ s.queueMap = s₀.queueMap ∧ (b = false → TgtOk s m)) E := by
  unfold targetsImpossible
  refine HoareE.ite (fun hne => ?_) fun _ => HoareE.pure fun s hs => by subst hs; exact ⟨h, rfl, fun _ => ht⟩
  refine HoareE.setJob fun s hs => ?_
  subst hs
  refine HoareE.getS fun s' hs => ?_
  subst hs
  refine HoareE.pure fun s' hs => ?_
  subst hs
  obtain ⟨j', hj', hr⟩ := h.job
  rw [hj] at hj'; cases hj'
  refine ⟨h.setJob hj hr ⟨rfl, rfl⟩ (fun t htt => (List.mem_filter.mp htt).1), rfl, fun hb j' hj' _ sub _ _ => ?_⟩
  simp only [upd_self, Option.some.injEq] at hj'
  subst hj'
  intro hcon
  dsimp only at hcon
  rw [hcon] at hb
  simp at hb

structure LocAt (cfg : Config) (D : Prop) (n : Nat) : Prop where
  fail : ∀ g m why, g.X = [] → HoareE (FailPre cfg D g m) (failUnreachable cfg n m why) (fun _ => Inv cfg D { g with R := m :: g.R }) (LErr cfg D g)
  may : ∀ g m s₀, g.X = [] → InHand cfg D g m s₀ → TgtOk s₀ m → HoareE (fun s => s = s₀) (maybeRun cfg n m) (MayPost cfg D g m s₀) (LErr cfg D g)
  mayF : ∀ g m, g.X = [] → g.F → ¬ D → HoareE (Inv cfg D g) (maybeRun cfg n m) (fun b s => b = false ∧ Inv cfg D g s) (LErr cfg D g)
  job : ∀ g m, g.X = [] → HoareE (Inv cfg D { g with H := g.H ++ [m] }) (processJob cfg n m)
    (fun o s => if o = .keep then Inv cfg D { g with H := g.H ++ [m] } s else Inv cfg D g s) (LErr cfg D g)
  jobF : ∀ g m, g.X = [] → g.F → ¬ D → HoareE (Inv cfg D g) (processJob cfg n m) (fun _ => Inv cfg D g) (LErr cfg D g)
  lq : ∀ g l, g.X = [] → HoareE (Inv cfg D { g with H := g.H ++ l }) (loopQueue cfg n l) (fun _ => Inv cfg D g) (LErr cfg D g)
  lj : ∀ g ms, g.X = [] → (ms ≠ [] → g.F ∧ ¬ D) → HoareE (Inv cfg D g) (loopJobs cfg n ms) (fun _ => Inv cfg D g) (LErr cfg D g)
  upd : ∀ g d, g.X = [] → HoareE (Inv cfg D g) (updateGraph cfg n d) (fun _ => Inv cfg D g) (LErr cfg D g)

theorem Inv.answered {m : MsgId} (h : Inv cfg D g s) (hm : m ∈ g.R) : m ∉ s.queueMap := fun hq => (h.rr m hm).2.1 (h.qm m hq).1

theorem Inv.forget {m : MsgId} (h : Inv cfg D { g with R := m :: g.R } s) : Inv cfg D g s :=
  h.reghost rfl (fun _ h => h) h.fe (fun x hx => List.mem_cons_of_mem _ hx) rfl rfl id

/-- failing a task, whether or not it is waiting -/
theorem LocAt.fail' {n : Nat} (h : LocAt cfg D n) (m : MsgId) (why : Why) (hX : g.X = []) :
    HoareE (Inv cfg D g) (failUnreachable cfg n m why) (fun _ => Inv cfg D g) (LErr cfg D g) := by
  intro s hs
  by_cases hm : m ∈ s.queueMap
  · exact ((h.fail g m why hX).conseq (fun _ h => h) (fun _ _ h => h.forget) (fun _ _ h => h)) s (hs.failPre hX hm)
  · cases n with
    | zero => unfold failUnreachable; exact fun hh => absurd rfl hh
    | succ n =>
      refine (?_ : HoareE (fun s' => s' = s) _ _ _) s rfl
      unfold failUnreachable
      refine HoareE.getS fun s' hs' => ?_
      subst hs'
      exact HoareE.ite (fun _ => HoareE.pure fun s h => h ▸ hs) fun h => absurd hm h

theorem locAt (hC : D ∨ cfg.hwm = 1) (hP : D → ∀ tr l, l ≠ [] → cfg.pick tr l < l.length) (n : Nat) : LocAt cfg D n := by
  induction n with
  | zero =>
    refine ⟨?_, ?_, ?_, ?_, ?_, ?_, ?_, ?_⟩ <;> intros
    · unfold failUnreachable; exact HoareE.throwE fun _ _ h => absurd rfl h
    · unfold maybeRun; exact HoareE.throwE fun _ _ h => absurd rfl h
    · unfold maybeRun; exact HoareE.throwE fun _ _ h => absurd rfl h
    · unfold processJob; exact HoareE.throwE fun _ _ h => absurd rfl h
    · unfold processJob; exact HoareE.throwE fun _ _ h => absurd rfl h
    · unfold loopQueue; exact HoareE.throwE fun _ _ h => absurd rfl h
    · unfold loopJobs; exact HoareE.throwE fun _ _ h => absurd rfl h
    · unfold updateGraph; exact HoareE.throwE fun _ _ h => absurd rfl h
  | succ n ih =>
    refine ⟨?_, ?_, ?_, ?_, ?_, ?_, ?_, ?_⟩
    · -- fail
      intro g m why hX
      unfold failUnreachable
      refine HoareE.getS fun s hs => ?_
      obtain ⟨hm, hr, j, hj, hI⟩ := hs
      refine HoareE.ite (fun h => absurd hm h) fun _ => ?_
      refine HoareE.modS fun s' hs' => ?_
      subst hs'
      refine HoareE.getJob (fun s hs h => by subst hs; rw [show ({ s' with queueMap := s'.queueMap.filter (· ≠ m) } : State).jobs m = s'.jobs m from rfl, hj] at h; cases h) fun s₁ j' hs₁ hj' => ?_
      subst hs₁
      rw [show ({ s' with queueMap := s'.queueMap.filter (· ≠ m) } : State).jobs m = s'.jobs m from rfl, hj] at hj'
      cases hj'
      refine HoareE.setJob fun s₂ hs₂ => ?_
      subst hs₂
      refine HoareE.bind (((removeFromGraph_loc (g := { g with X := [m] }) (cfg := cfg) (D := D) m j.dependents _ _ _).conseq (fun _ h => h) (fun _ _ h => h) ?_).at ⟨hI, rfl, rfl, rfl⟩) fun _ => ?_
      · rintro e s ⟨hne, hI', hJ, hQ, hT⟩ _
        refine ⟨fun hD => hne ?_, ?_⟩
        · have := (hI.dep hD).2 m { j with removed := true } (upd_self _ _ _)
          have h1 : j.after.ids = [] := this.1
          have h2 : j.follow.ids = [] := this.2
          simp [Job.dependents, h1, h2]
        · refine hI'.weaken ?_
          intro x hx
          simp only [List.mem_singleton] at hx
          subst hx
          intro jx hjx hrx
          rw [hJ] at hjx
          dsimp only at hjx
          rw [upd_self] at hjx
          cases hjx; cases hrx
      · unfold failReply
        refine HoareE.bind (R := fun _ => Inv cfg D { g with R := m :: g.R }) ?_ fun _ => ?_
        · refine HoareE.modS fun s h => ?_
          refine HoareE.modS_last fun s'' hs'' => ?_
          subst hs''
          obtain ⟨hI', hJ, hQ, hT⟩ := h
          have := hI'.failReply why rfl ⟨{ j with removed := true }, by rw [hJ]; exact upd_self _ _ _, rfl⟩ (by rw [hQ]; simp) (by rw [hT]; exact hr)
          have hg : ({ g with R := m :: g.R, X := [] } : Ghost) = { g with R := m :: g.R } := by rw [← hX]
          rw [← hg]; exact this
        · exact ih.upd { g with R := m :: g.R } (some m) hX
    · -- may
      intro g m s₀ hX h ht
      have hw : ¬ D → ∀ e, LErr cfg D g e s₀ := fun hD _ _ => ⟨hD, h.weaken ht hX⟩
      obtain ⟨j, hj, hjr⟩ := h.job
      unfold maybeRun
      refine HoareE.getS fun s hs => ?_
      subst hs
      refine HoareE.getJob (fun s' h hn => by subst h; rw [hj] at hn; cases hn) fun s₁ j' hs₁ hj' => ?_
      subst hs₁
      rw [hj] at hj'
      cases hj'
      refine HoareE.ite (fun _ => HoareE.pure fun s' hs => ?_) fun hav => ?_
      · subst hs; exact Or.inl ⟨h, ht, Iff.rfl⟩
      have hF : ¬ g.F := fun hF => hav (h.inv.fe hF)
      have hreg : ∀ e ∈ s₁.targets, s₁.completed e ≠ none ∧ s₁.failed e ≠ none := fun e he => (h.inv.reg e he).2
      have hfail : ∀ s₂, InHand cfg D g m s₂ → HoareE (fun s => s = s₂)
          (addQueueMap m >>= fun _ => failUnreachable cfg n m .impossible >>= fun _ => (pure false : M Bool)) (MayPost cfg D g m s₁) (LErr cfg D g) := by
        intro s₂ h₂
        refine HoareE.addQueueMap fun s₃ h₃ => ?_
        subst h₃
        refine HoareE.bind ((ih.fail { g with H := g.H ++ [m] } m .impossible hX).at (h₂.addMap.failPre (by simp))) fun _ => ?_
        exact HoareE.pure fun _ h => Or.inr h
      refine HoareE.ite (fun _ => ?_) fun hno => ?_
      · refine HoareE.bind ((((HoareE.ofHoare (filterCanRun_spec (cfg := cfg) j s₁ (availableEngines cfg s₁))).and
          (filterCanRun_total (cfg := cfg) j _ s₁ (fun i hi => available_lt hi) hreg))).conseq (fun _ h => ⟨h, h⟩) (fun _ _ h => h.1) (fun _ _ h => h.2.elim)) fun is => ?_
        rintro s ⟨rfl, hidx⟩
        refine (?_ : HoareE (fun s' => s' = s) _ _ _) s rfl
        refine HoareE.ite (fun _ => ?_) fun hne => ?_
        · refine HoareE.bind ((followImpossible_loc j s).conseq (fun _ h => h) (fun _ _ h => h) ?_) fun b => ?_
          · rintro e s' ⟨hids, rfl⟩
            exact hw (fun hD => hids ((h.inv.dep hD).2 m j hj).2) e
          refine HoareE.ite (fun _ => hfail s h) fun _ => ?_
          refine HoareE.bind (targetsImpossible_loc h ht hj) fun b => ?_
          rintro s₂ ⟨h₂, hq₂, ht₂⟩
          refine (?_ : HoareE (fun s' => s' = s₂) _ _ _) s₂ rfl
          refine HoareE.ite (fun _ => hfail s₂ h₂) fun hb => HoareE.pure fun s' hs => ?_
          subst hs
          exact Or.inl ⟨h₂, ht₂ (by simpa using hb), by rw [hq₂]⟩
        · refine HoareE.bind (submitTask_loc hP h ht hX hF hj (fun i hi => ?_) (fun hh => absurd hh hne)) fun _ => HoareE.pure fun _ h => h
          obtain ⟨_, t, a, _, b, _⟩ := hidx.1 i hi
          exact ⟨t, a, b⟩
      · refine HoareE.bind (submitTask_loc hP h ht hX hF hj (by simp) (fun _ => ?_)) fun _ => HoareE.pure fun _ h => h
        simp only [not_or, Classical.not_not] at hno
        refine ⟨hno.2.1, fun hh => hav ?_⟩
        unfold availableEngines
        simp [hh]
    · -- mayF
      intro g m hX hF hD
      unfold maybeRun
      refine HoareE.getS fun s hs => ?_
      refine HoareE.getJob (fun s' h hn _ => ⟨hD, by subst h; exact hs.weaken (by simp [hX])⟩) fun s₁ j' hs₁ hj' => ?_
      subst hs₁
      refine HoareE.ite (fun _ => HoareE.pure fun s' h => ⟨rfl, h ▸ hs⟩) fun hav => absurd (hs.fe hF) hav
    · -- job
      intro g m hX
      unfold processJob
      refine HoareE.getS fun s hs => ?_
      obtain ⟨hna, j, hj, hq⟩ := hs.qin m (by simp)
      refine HoareE.getJob (fun s' h hn => by subst h; rw [hj] at hn; cases hn) fun s₁ j' hs₁ hj' => ?_
      subst hs₁
      rw [hj] at hj'
      cases hj'
      refine HoareE.ite (fun hr => HoareE.pure fun s' h => ?_) fun hr => ?_
      · subst h
        show Inv cfg D g s'
        refine hs.release fun hh => ?_
        obtain ⟨_, j', hj', hr'⟩ := hs.qm m hh
        rw [hj] at hj'; cases hj'; rw [hr] at hr'; cases hr'
      have hr : j.removed = false := by simpa using hr
      obtain ⟨h, ht, hm⟩ := hs.take hX hj hr
      refine HoareE.ite (fun _ => ?_) fun _ => ?_
      · refine HoareE.bind ((ih.fail { g with H := g.H ++ [m] } m .impossible hX).at (hs.failPre hX hm)) fun _ => ?_
        refine HoareE.pure fun s' h' => ?_
        show Inv cfg D g s'
        exact h'.forget.release (h'.answered (by simp))
      · refine HoareE.ite (fun _ => ?_) fun _ => HoareE.pure fun s h => by subst h; exact hs
        refine HoareE.bind (ih.may g m s₁ hX h ht) fun b => ?_
        cases b with
        | false =>
          refine HoareE.ite (fun hh => by cases hh) fun _ => ?_
          refine HoareE.pure fun s' h' => ?_
          show Inv cfg D { g with H := g.H ++ [m] } s'
          rcases h' with ⟨h1, h2, h3⟩ | h1
          · exact h1.putBack (h3.mpr hm) h2
          · exact Inv.forget (g := { g with H := g.H ++ [m] }) (m := m) h1
        | true =>
          refine HoareE.ite (fun _ => ?_) fun hh => absurd rfl hh
          refine HoareE.getS fun s₂ hs₂ => ?_
          obtain ⟨hs₂, hq₂, j₂, hj₂⟩ := hs₂
          refine HoareE.ite (fun hh => absurd (hq₂.mpr hm) hh) fun _ => ?_
          refine HoareE.modS fun s₃ hs₃ => ?_
          subst hs₃
          refine HoareE.getJob (fun s' h hn => by
            subst h
            rw [show ({ s₃ with queueMap := s₃.queueMap.filter (· ≠ m) } : State).jobs m = s₃.jobs m from rfl, hj₂] at hn; cases hn) fun s₄ j' hs₄ hj' => ?_
          subst hs₄
          refine HoareE.bind (((removeFromGraph_loc (g := g) (cfg := cfg) (D := D) m j'.dependents _ _ _).conseq (fun _ h => h) (fun _ _ h => h) ?_).at ⟨hs₂, rfl, rfl, rfl⟩) fun _ => ?_
          · rintro e s ⟨hne, hI', hJ, hQ, hT⟩ _
            refine ⟨fun hD => hne ?_, hI'.weaken (by simp [hX])⟩
            have := (hs₂.dep hD).2 m j' hj'
            simp [Job.dependents, this.1, this.2]
          · refine HoareE.getS fun s₅ hs₅ => ?_
            exact HoareE.ite (fun _ => HoareE.pure fun s h => h ▸ hs₅.1) fun _ => HoareE.pure fun s h => h ▸ hs₅.1
    · -- jobF
      intro g m hX hF hD
      unfold processJob
      refine HoareE.getS fun s hs => ?_
      refine HoareE.getJob (fun s' h hn _ => ⟨hD, by subst h; exact hs.weaken (by simp [hX])⟩) fun s₁ j hs₁ hj => ?_
      subst hs₁
      refine HoareE.ite (fun _ => HoareE.pure fun s h => h ▸ hs) fun hr => ?_
      refine HoareE.ite (fun _ => ?_) fun _ => ?_
      · exact HoareE.bind ((ih.fail' m .impossible hX).at hs) fun _ => HoareE.pure fun _ h => h
      · refine HoareE.ite (fun _ => ?_) fun _ => HoareE.pure fun s h => h ▸ hs
        refine HoareE.bind ((ih.mayF g m hX hF hD).at hs) fun b => ?_
        cases b with
        | true => rintro s₂ ⟨hh, _⟩; cases hh
        | false => exact HoareE.ite (fun hh => by cases hh) fun _ => HoareE.pure fun s h => h.2
    · -- lq
      intro g l hX
      unfold loopQueue
      refine HoareE.getS fun s hs => ?_
      have done : ∀ s', Inv cfg D { g with H := g.H ++ l } s' → Inv cfg D g { s' with queue := l.reverse ++ s'.queue } := fun s' h => by
        refine h.requeue (g' := g) rfl ?_
        show (g.H ++ (l.reverse ++ s'.queue)).Perm (g.H ++ l ++ s'.queue)
        rw [List.append_assoc]
        exact List.Perm.append_left _ (List.Perm.append_right _ (List.reverse_perm l))
      cases hq : s.queue with
      | nil =>
        refine HoareE.modS_last fun s' h => ?_
        subst h
        exact done _ hs
      | cons m qs =>
        refine HoareE.modS fun s' hs' => ?_
        subst hs'
        have h1 : Inv cfg D { g with H := g.H ++ l ++ [m] } { s' with queue := qs } := by
          refine hs.requeue (g' := { g with H := g.H ++ l ++ [m] }) rfl ?_
          show (g.H ++ l ++ [m] ++ qs).Perm (g.H ++ l ++ s'.queue)
          rw [hq]; simp
        refine HoareE.bind ((ih.job { g with H := g.H ++ l } m hX).at h1) fun o => ?_
        cases o with
        | gone => exact ih.lq g l hX
        | keep =>
          refine (ih.lq g (l ++ [m]) hX).pre fun s h => ?_
          rw [← List.append_assoc]; exact h
        | stop => exact HoareE.modS_last fun s'' h => done s'' h
    · -- lj
      intro g ms hX hF
      unfold loopJobs
      cases ms with
      | nil => exact HoareE.pure fun _ h => h
      | cons m ms =>
        obtain ⟨hF, hD⟩ := hF (by simp)
        refine HoareE.bind (ih.jobF g m hX hF hD) fun o => ?_
        cases o with
        | gone => exact ih.lj g ms hX fun _ => ⟨hF, hD⟩
        | keep => exact ih.lj g ms hX fun _ => ⟨hF, hD⟩
        | stop => exact HoareE.pure fun _ h => h
    · -- upd
      intro g d hX
      unfold updateGraph
      refine HoareE.getS fun s hs => ?_
      have rest : ∀ s' ms, Inv cfg D g s' → s'.loads = s.loads → s'.targets = s.targets → (D → ms = []) →
          HoareE (fun s => s = s') (if d = none ∨ cfg.hwm ≠ 0 ∧ (s.loads.any fun l => decide (l = (cfg.hwm : Int) - 1)) = true then loopQueue cfg n []
            else do
              if (ms.any fun m => decide (m ∉ s.queueMap)) = true then throwE .keyError
              loopJobs cfg n (sortByTime (fun m => ((s.jobs m).map Job.timestamp).getD 0) ms)) (fun _ => Inv cfg D g) (LErr cfg D g) := by
        intro s' ms h hl htg hms
        refine HoareE.ite (fun _ => ?_) fun hno => ?_
        · refine (ih.lq g [] hX).at ?_
          rw [List.append_nil]; exact h
        · have hD : ms ≠ [] → ¬ D := fun hne hD => hne (hms hD)
          refine HoareE.ite (fun hany => ?_) fun _ => ?_
          · refine HoareE.bind (R := fun _ _ => False) (HoareE.throwE fun s'' h' _ => ⟨hD ?_, h' ▸ h.weaken (by simp [hX])⟩) fun _ _ h => h.elim
            rintro rfl; simp at hany
          · have hav : ms ≠ [] → availableEngines cfg s' = [] := fun hne => by
              have hw : cfg.hwm = 1 := hC.resolve_left (hD hne)
              simp only [not_or, not_and, hw] at hno
              have hno := hno.2 (by simp)
              unfold availableEngines
              rw [hw, if_neg (by simp), List.filter_eq_nil_iff]
              intro i hi
              simp only [List.mem_range] at hi
              have hload := hs.load
              simp only [List.any_eq_true, not_exists, not_and] at hno
              have hlt : i < s.loads.length := by rw [hload, List.length_map, ← htg]; exact hi
              have hmem : s.loads[i] ∈ s.loads := List.getElem_mem hlt
              have hpos : 0 ≤ s.loads[i] := by
                have hm2 : s.loads[i] ∈ s.targets.map (fun e => ((assigned e s.trace).length : Int)) := by rw [← hload]; exact hmem
                obtain ⟨e, _, he⟩ := List.mem_map.mp hm2
                rw [← he]; omega
              have hne0 := hno _ hmem
              have : s'.loads.getD i 0 = s.loads[i] := by rw [hl, List.getD_eq_getElem?_getD, List.getElem?_eq_getElem hlt]; rfl
              rw [this]
              simp at hne0 ⊢
              omega
            by_cases hne : ms = []
            · subst hne
              exact (ih.lj g _ hX (by simp [sortByTime])).at h
            · refine ((ih.lj { g with F := True } _ hX fun _ => ⟨trivial, hD hne⟩).conseq (fun _ h => h) (fun _ s h => ?_) (fun _ _ h => h)).at ?_
              · exact h.reghost rfl (fun _ h => h) (fun _ => h.fe trivial) (fun _ h => h) rfl rfl id
              · exact h.reghost rfl (fun _ h => h) (fun _ => hav hne) (fun _ h => h) rfl rfl id
      cases d with
      | none => exact rest s [] hs rfl rfl (fun _ => rfl)
      | some d =>
        refine HoareE.modS fun s' h => ?_
        subst h
        refine rest _ _ (hs.setGraph _ fun x hx => ?_) rfl rfl fun hD => ?_
        · simp only [Sched.upd]; split
          · rfl
          · exact hx
        · simp [(hs.dep hD).1 d]

end IPP.Sched
