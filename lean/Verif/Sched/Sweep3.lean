import Verif.Sched.Sweep2
import Verif.Sched.Work2

/-!
# A pass over the queue: the handlers (lemmas)
-/
namespace IPP.Sched

variable {cfg : Config} {s s' s'' : State} {x : MsgId} {n : Nat}

/-- `x` waits: it is in the queue and in the queue map -/
abbrev InQ (s : State) (x : MsgId) : Prop := x ∈ s.queue ∧ x ∈ s.queueMap

theorem HoareE.atEq {α : Type} {f : M α} {S : State} {Q : α → State → Prop} {E : Err → State → Prop} (h : ∀ st, st = S → HoareE (fun x => x = st) f Q E) :
    HoareE (fun x => x = S) f Q E := h S rfl

theorem registerEngine_sweep (e : Engine) (s₀ : State) (hn : Neat s₀) (he : e ∉ s₀.targets) :
    HoareE (fun s => s = s₀) (registerEngine cfg n e) (fun _ s' => ∃ s₁, s₁ = { s₀ with
        trace := s₀.trace ++ [.registered e]
        targets := e :: s₀.targets
        loads := 0 :: s₀.loads
        completed := upd s₀.completed e (some [])
        failed := upd s₀.failed e (some [])
        pending := upd s₀.pending e (some []) } ∧ Env s₁ s' ∧ ∀ x, InQ s₀ x → Due cfg s₁ s' x → Act s₁ s' x) AnyErr := by
  unfold registerEngine
  refine HoareE.emit fun s h => ?_
  subst h
  refine HoareE.modS fun s₁ hs₁ => ?_
  subst hs₁
  refine HoareE.atEq fun st hst => ?_
  have hq : ∀ x, InQ s x → InQ st x := fun x hx => by rw [hst]; exact hx
  have hnst : Neat st := by
    rw [hst]
    exact ⟨by simp [hn.len], List.nodup_cons.mpr ⟨he, hn.nodup⟩, hn.gone⟩
  refine ((sweepAt (cfg := cfg) n).upd none st hnst).conseq (fun _ h => h) (fun _ s' h => ?_) (fun _ _ h => h)
  exact ⟨st, hst, h.1.env, fun x hx hd => h.2.2 (Or.inl rfl) x (hq x hx).1 (hq x hx).2 hd⟩

theorem handleResult_sweep (e : Engine) (m : MsgId) (ok : Bool) (s₀ : State) (hn : Neat s₀) (ht : Tight cfg s₀) :
    HoareE (fun s => s = s₀) (handleResult cfg n e m ok) (fun _ s' => ∃ p c s₁, (if ok = true then s₀.completed e else s₀.failed e) = some c ∧ s₁ = { s₀ with
        trace := s₀.trace ++ [.relay e m ok]
        pending := p
        completed := if ok = true then upd s₀.completed e (some (insertSet m c)) else s₀.completed
        failed := if ok = true then s₀.failed else upd s₀.failed e (some (insertSet m c))
        allCompleted := if ok = true then insertSet m s₀.allCompleted else s₀.allCompleted
        allFailed := if ok = true then s₀.allFailed else insertSet m s₀.allFailed
        allDone := insertSet m s₀.allDone
        destinations := upd s₀.destinations m (some e) } ∧ Env s₁ s' ∧ ∀ x, InQ s₀ x → Due cfg s₁ s' x → Act s₁ s' x) AnyErr := by
  unfold handleResult
  refine HoareE.emit fun s hs => ?_
  subst hs
  refine HoareE.getS fun s₁ hs₁ => ?_
  subst hs₁
  refine HoareE.lookupE (fun _ _ _ => trivial) fun p _ => ?_
  refine HoareE.ite (fun _ => HoareE.bind (R := fun _ _ => False) (HoareE.throwE fun _ _ => trivial) fun _ _ h => h.elim) fun _ => ?_
  refine HoareE.modS fun s₂ hs₂ => ?_
  subst hs₂
  cases ok with
  | true =>
    rw [if_pos rfl]
    refine HoareE.lookupE (fun _ _ _ => trivial) fun c hc => ?_
    refine HoareE.modS fun s₃ hs₃ => ?_
    subst hs₃
    refine HoareE.modS fun s₄ hs₄ => ?_
    subst hs₄
    refine HoareE.atEq fun st hst => ?_
    have hq : ∀ x, InQ s x → InQ st x := fun x hx => by rw [hst]; exact hx
    have hnst : Neat st := by rw [hst]; exact ⟨hn.len, hn.nodup, hn.gone⟩
    have htst : Tight cfg st := by rw [hst]; exact ht
    refine ((sweepAt (cfg := cfg) n).upd (some m) st hnst).conseq (fun _ h => h) (fun _ s' h => ?_) (fun _ _ h => h)
    exact ⟨_, c, st, hc, hst, h.1.env, fun x hx hd => h.2.2 (Or.inr htst) x (hq x hx).1 (hq x hx).2 hd⟩
  | false =>
    rw [if_neg (by simp)]
    refine HoareE.lookupE (fun _ _ _ => trivial) fun c hc => ?_
    refine HoareE.modS fun s₃ hs₃ => ?_
    subst hs₃
    refine HoareE.modS fun s₄ hs₄ => ?_
    subst hs₄
    refine HoareE.atEq fun st hst => ?_
    have hq : ∀ x, InQ s x → InQ st x := fun x hx => by rw [hst]; exact hx
    have hnst : Neat st := by rw [hst]; exact ⟨hn.len, hn.nodup, hn.gone⟩
    have htst : Tight cfg st := by rw [hst]; exact ht
    refine ((sweepAt (cfg := cfg) n).upd (some m) st hnst).conseq (fun _ h => h) (fun _ s' h => ?_) (fun _ _ h => h)
    exact ⟨_, c, st, hc, hst, h.1.env, fun x hx hd => h.2.2 (Or.inr htst) x (hq x hx).1 (hq x hx).2 hd⟩

theorem addToGraph_sweep (m : MsgId) (ds : List MsgId) : ∀ s₀ : State,
    HoareE (fun s => s = s₀) (addToGraph m ds) (fun _ s => ∃ g, s = { s₀ with graph := g }) AnyErr := by
  induction ds with
  | nil => exact fun s₀ => HoareE.pure fun s h => ⟨s₀.graph, h⟩
  | cons d ds ih =>
    intro s₀
    unfold addToGraph
    refine HoareE.modS fun s hs => ?_
    subst hs
    refine (ih _).conseq (fun _ h => h) (fun _ s' h => ?_) (fun _ _ h => h)
    obtain ⟨g, hg⟩ := h
    exact ⟨g, by rw [hg]⟩

/-- a task is put into the queue: nothing changes for the others -/
structure Saved (m : MsgId) (s s' : State) : Prop where
  env : Env s s'
  loads : s'.loads = s.loads
  targets : s'.targets = s.targets
  queue : ∀ x ∈ s.queue, x ∈ s'.queue
  qm : ∀ x, x ∈ s'.queueMap → x = m ∨ x ∈ s.queueMap
  qm' : ∀ x ∈ s.queueMap, x ∈ s'.queueMap
  other : ∀ x, x ≠ m → s'.jobs x = s.jobs x
  job : ∀ j', s'.jobs m = some j' → ∃ j, s.jobs m = some j ∧ j'.removed = j.removed

theorem saveUnmet_sweep (m : MsgId) (s₀ : State) : HoareE (fun s => s = s₀) (saveUnmet m) (fun _ s => Saved m s₀ s) AnyErr := by
  unfold saveUnmet
  refine HoareE.getJob (fun _ _ _ => trivial) fun s₁ j hs₁ hj => ?_
  subst hs₁
  refine HoareE.addQueueMap fun sA hs => ?_
  subst hs
  refine HoareE.modS fun s hs => ?_
  subst hs
  refine HoareE.getS fun s hs => ?_
  subst hs
  refine HoareE.bind (addToGraph_sweep m _ _) fun _ s₃ h₃ => ?_
  obtain ⟨g, rfl⟩ := h₃
  refine (HoareE.ite (fun _ => ?_) fun _ => HoareE.pure fun s' hs => ?_ : HoareE (fun s => s = _) _ _ _) _ rfl
  · refine HoareE.setJob fun s hs => ?_
    subst hs
    refine HoareE.modS_last fun s hs => ?_
    subst hs
    refine ⟨{ Env.refl sA with }, rfl, rfl, fun x hx => ?_, fun x hx => ?_, fun x hx => ?_, fun x hx => upd_ne _ _ hx, fun j' hj' => ?_⟩
    · simp [hx]
    · simpa using hx
    · simp [hx]
    · dsimp only at hj'
      rw [upd_self] at hj'; cases hj'
      exact ⟨j, hj, rfl⟩
  · subst hs
    refine ⟨{ Env.refl sA with }, rfl, rfl, fun x hx => ?_, fun x hx => ?_, fun x hx => ?_, fun x hx => rfl, fun j' hj' => ⟨j', hj', rfl⟩⟩
    · simp [hx]
    · simpa using hx
    · simp [hx]

theorem hasLoad_tight {e : Engine} (h0 : cfg.hwm ≠ 0) (h : HasLoad s e ((cfg.hwm : Int) - 1)) : Tight cfg s :=
  ⟨h0, List.any_eq_true.mpr ⟨_, (List.of_mem_zip h).2, by simp⟩⟩

theorem hasLoad_idx (hn : Neat s) {e : Engine} {l : Int} (h : HasLoad s e l) : ∃ idx, s.targets.idxOf? e = some idx ∧ s.loads.getD idx 0 = l := by
  obtain ⟨k, hk⟩ := List.getElem?_of_mem h
  rw [List.getElem?_zip_eq_some] at hk
  cases hi : s.targets.idxOf? e with
  | none =>
    rw [List.idxOf?_eq_none_iff] at hi
    exact absurd (List.mem_of_getElem? hk.1) hi
  | some idx =>
    have hget := idxOf?_get hi
    have hlt : idx < s.targets.length := (List.getElem?_eq_some_iff.mp hget).1
    have : idx = k := (List.getElem?_inj hlt hn.nodup).mp (hget.trans hk.1.symm)
    subst this
    exact ⟨idx, rfl, by rw [List.getD_eq_getElem?_getD, hk.2]; rfl⟩

theorem handleUnmet_sweep (h0 : cfg.hwm ≠ 0) (e : Engine) (m : MsgId) (cause : Cause) (s₀ : State) (hn : Neat s₀) (hl : HasLoad s₀ e ((cfg.hwm : Int) - 1))
    (hrem : ∀ j, s₀.jobs m = some j → j.removed = false) :
    HoareE (fun s => s = s₀) (handleUnmet cfg n e m cause) (fun _ s' => ∃ p j s₁, s₁ = { s₀ with
        trace := s₀.trace ++ [.retry e m cause]
        pending := p
        jobs := upd s₀.jobs m (some j) } ∧ Env s₁ s' ∧ ∀ x, x ≠ m → InQ s₀ x → Due cfg s₁ s' x → Act s₁ s' x) AnyErr := by
  unfold handleUnmet
  refine HoareE.getS fun s hs => ?_
  subst hs
  refine HoareE.lookupE (fun _ _ _ => trivial) fun p _ => ?_
  refine HoareE.ite (fun _ => HoareE.bind (R := fun _ _ => False) (HoareE.throwE fun _ _ => trivial) fun _ _ h => h.elim) fun _ => ?_
  refine HoareE.modS fun s₁ hs₁ => ?_
  subst hs₁
  refine HoareE.getJob (fun _ _ _ => trivial) fun s₂ j hs₂ hj => ?_
  subst hs₂
  refine HoareE.emit fun s hs => ?_
  subst hs
  refine HoareE.setJob fun s hs => ?_
  subst hs
  have hjr := hrem j hj
  -- the state in which the scheduler begins to decide
  generalize hS : ({ s₁ with
      pending := upd s₁.pending e (some (p.filter (· ≠ m)))
      trace := s₁.trace ++ [.retry e m cause]
      jobs := upd s₁.jobs m (some { j with blacklist := insertSet e j.blacklist }) } : State) = S
  have hjS : S.jobs m = some { j with blacklist := insertSet e j.blacklist } := by rw [← hS]; exact upd_self _ _ _
  have hnS : Neat S := by
    rw [← hS]
    refine ⟨hn.len, hn.nodup, fun x jx hx hr => ?_⟩
    dsimp only at hx
    by_cases hxm : x = m
    · rw [hxm, upd_self] at hx; cases hx
      exact absurd hr (by simp [hjr])
    · rw [upd_ne _ _ hxm] at hx; exact hn.gone x jx hx hr
  have hlS : HasLoad S e ((cfg.hwm : Int) - 1) := by rw [← hS]; exact hl
  have hqS : ∀ x, InQ s₁ x → InQ S x := fun x hx => by rw [← hS]; exact hx
  have hfin : ∀ s', (Env S s' ∧ ∀ x, x ≠ m → InQ S x → Due cfg S s' x → Act S s' x) → ∃ p j s₂, s₂ = { s₁ with
      trace := s₁.trace ++ [.retry e m cause]
      pending := p
      jobs := upd s₁.jobs m (some j) } ∧ Env s₂ s' ∧ ∀ x, x ≠ m → InQ s₁ x → Due cfg s₂ s' x → Act s₂ s' x :=
    fun s' h => ⟨_, _, S, hS.symm, h.1, fun x hx hq => h.2 x hx (hqS x hq)⟩
  refine HoareE.conseq (P := fun s => s = S) (P' := fun s => s = S) (E' := AnyErr)
    (Q' := fun _ s' => Env S s' ∧ ∀ x, x ≠ m → InQ S x → Due cfg S s' x → Act S s' x) ?_ (fun _ h => h) (fun _ s' h => hfin s' h) (fun _ _ h => h)
  -- the last step
  have hlast : ∀ s₂, Neat s₂ → Env S s₂ → ((∀ x, x ≠ m → InQ S x → Due cfg S s₂ x → Act S s₂ x) ∨
      (HasLoad s₂ e ((cfg.hwm : Int) - 1) ∧ ∀ x, x ≠ m → InQ S x → (InQ s₂ x ∧ ∀ s', Due cfg S s' x → Due cfg s₂ s' x) ∨ Act S s₂ x)) →
      HoareE (fun s => s = s₂) (if cfg.hwm ≠ 0 then do
        let s ← getS
        match s.targets.idxOf? e with
        | none => Pure.pure ()
        | some idx => if s.loads.getD idx 0 = (cfg.hwm : Int) - 1 then updateGraph cfg n none else Pure.pure ()
        else Pure.pure () : M Unit) (fun _ s' => Env S s' ∧ ∀ x, x ≠ m → InQ S x → Due cfg S s' x → Act S s' x) AnyErr := by
    intro s₂ hn₂ henv hor
    rw [if_pos h0]
    refine HoareE.getS fun s hs => ?_
    subst hs
    rcases hor with hor | ⟨hl2, hor⟩
    · have hpure : HoareE (fun x => x = s) (Pure.pure () : M Unit) (fun _ s' => Env S s' ∧ ∀ x, x ≠ m → InQ S x → Due cfg S s' x → Act S s' x) AnyErr :=
        HoareE.pure fun s' hs => by subst hs; exact ⟨henv, hor⟩
      split
      · exact hpure
      · refine HoareE.ite (fun _ => ?_) fun _ => hpure
        refine ((sweepAt (cfg := cfg) n).upd none s hn₂).conseq (fun _ h => h) (fun _ s' h => ?_) (fun _ _ h => h)
        exact ⟨henv.trans h.1.env, fun x hxm hx hd => (hor x hxm hx (hd.sooner h.1.env)).later h.1.env⟩
    · obtain ⟨idx, hi, hg⟩ := hasLoad_idx hn₂ hl2
      rw [hi]
      dsimp only
      rw [if_pos hg]
      refine ((sweepAt (cfg := cfg) n).upd none s hn₂).conseq (fun _ h => h) (fun _ s' h => ?_) (fun _ _ h => h)
      refine ⟨henv.trans h.1.env, fun x hxm hx hd => ?_⟩
      rcases hor x hxm hx with ⟨h1, h2⟩ | h1
      · exact (h.2.2 (Or.inl rfl) x h1.1 h1.2 (h2 s' hd)).earlier henv
      · exact h1.later h.1.env
  by_cases hse : setEq (insertSet e j.blacklist) j.targets = true
  · rw [if_pos hse]
    refine HoareE.addQueueMap fun s hs => ?_
    subst hs
    refine HoareE.bind ((sweepAt (cfg := cfg) n).fail m .impossible s _ hnS
      ⟨rfl, rfl, rfl, rfl, rfl, rfl, rfl, rfl, rfl, fun x => by simp, fun _ _ => rfl, fun j' hj' => ⟨j', hj', rfl, rfl, rfl⟩⟩) fun _ s₂ h₂ => ?_
    exact hlast s₂ (h₂.1.neat hnS) h₂.1.env (Or.inl fun x _ hx hd => h₂.2.2.2.2 (hasLoad_tight h0 hlS) x hx.1 hx.2 hd) s₂ rfl
  · rw [if_neg hse]
    refine HoareE.bind ((sweepAt (cfg := cfg) n).may m S hnS) fun b s₂ h₂ => ?_
    obtain ⟨g, k, _, hm⟩ := h₂
    have hm := (hm _ hjS).2
    -- what is known of the waiting tasks then
    have hor : ∀ s₃, (s₃ = s₂ ∨ Saved m s₂ s₃) → Neat s₃ → Env S s₃ ∧ ((∀ x, x ≠ m → InQ S x → Due cfg S s₃ x → Act S s₃ x) ∨
        (HasLoad s₃ e ((cfg.hwm : Int) - 1) ∧ ∀ x, x ≠ m → InQ S x → (InQ s₃ x ∧ ∀ s', Due cfg S s' x → Due cfg s₃ s' x) ∨ Act S s₃ x)) := by
      intro s₃ h₃ hn₃
      have henv : Env s₂ s₃ := by
        rcases h₃ with rfl | h₃
        · exact Env.refl _
        · exact h₃.env
      refine ⟨g.env.trans henv, ?_⟩
      rcases hm with hm | hm
      · refine Or.inr ⟨?_, fun x hxm hx => ?_⟩
        · have := hm e (by simp) _ hlS
          rcases h₃ with rfl | h₃
          · exact this
          · unfold HasLoad; rw [h₃.loads, h₃.targets]; exact this
        · rcases (g.tsk x).left hx.2 with a | a
          · left
            have hin : InQ s₃ x := by
              rcases h₃ with rfl | h₃
              · exact ⟨k x hx.1 a, a⟩
              · exact ⟨h₃.queue x (k x hx.1 a), h₃.qm' x a⟩
            refine ⟨hin, fun s' hd => hd.later (g.env.trans henv) ⟨fun jx hjx => ?_, fun _ => Or.inl hin.2⟩ hn₃ hin.2⟩
            obtain ⟨j', h1, h2⟩ := (g.tsk x).job jx hjx
            refine ⟨j', ?_, h2⟩
            rcases h₃ with rfl | h₃
            · exact h1
            · rw [h₃.other x hxm]; exact h1
          · exact Or.inr (a.later henv)
      · refine Or.inl fun x hxm hx hd => ?_
        exact (hm (hasLoad_tight h0 hlS) x hx.1 hx.2 (hd.sooner henv)).later henv
    have hn₂ := g.neat hnS
    have hdone : HoareE (fun s => s = s₂) (if cfg.hwm ≠ 0 then do
        let s ← getS
        match s.targets.idxOf? e with
        | none => Pure.pure ()
        | some idx => if s.loads.getD idx 0 = (cfg.hwm : Int) - 1 then updateGraph cfg n none else Pure.pure ()
        else Pure.pure () : M Unit) (fun _ s' => Env S s' ∧ ∀ x, x ≠ m → InQ S x → Due cfg S s' x → Act S s' x) AnyErr :=
      hlast s₂ hn₂ (hor s₂ (Or.inl rfl) hn₂).1 (hor s₂ (Or.inl rfl) hn₂).2
    cases b with
    | true => exact hdone s₂ rfl
    | false =>
      refine (HoareE.getS fun s hs => ?_ : HoareE (fun s => s = s₂) _ _ _) s₂ rfl
      subst hs
      refine HoareE.ite (fun hna => ?_) fun _ => hdone
      refine HoareE.bind (saveUnmet_sweep m s) fun _ s₃ h₃ => ?_
      have hn₃ : Neat s₃ := by
        refine ⟨by rw [h₃.loads, h₃.targets]; exact hn₂.len, by rw [h₃.targets]; exact hn₂.nodup, fun x jx hx hr hq => ?_⟩
        by_cases hxm : x = m
        · rw [hxm] at hx
          obtain ⟨j', h1, h2⟩ := h₃.job jx hx
          rcases g.rem m j' h1 (h2 ▸ hr) with ⟨j'', h4, h5⟩ | h4
          · rw [hjS] at h4; cases h4
            simp [hjr] at h5
          · exact hna h4
        · rw [h₃.other x hxm] at hx
          exact hn₂.gone x jx hx hr ((h₃.qm x hq).resolve_left hxm)
      have := hor s₃ (Or.inr h₃) hn₃
      exact hlast s₃ hn₃ this.1 this.2 s₃ rfl

/-- What the scheduler knows when it begins to decide, after engine `e` has answered task `m`. -/
inductive Hears (e : Engine) (m : MsgId) (ok dm : Bool) (s S : State) : Prop where
  | relay (c : List MsgId) (hc : (if ok = true then s.completed e else s.failed e) = some c) (htr : S.trace = s.trace ++ [.received e m ok dm, .relay e m ok])
      (ht : S.targets = s.targets) (hj : S.jobs = s.jobs)
      (hco : S.completed = if ok = true then upd s.completed e (some (insertSet m c)) else s.completed)
      (hfa : S.failed = if ok = true then s.failed else upd s.failed e (some (insertSet m c)))
      (hac : S.allCompleted = if ok = true then insertSet m s.allCompleted else s.allCompleted)
      (haf : S.allFailed = if ok = true then s.allFailed else insertSet m s.allFailed)
      (hd : S.destinations = upd s.destinations m (some e)) : Hears e m ok dm s S
  | retry (c : Cause) (htr : S.trace = s.trace ++ [.received e m ok dm, .retry e m c])
      (ht : S.targets = s.targets) (hj : ∀ x, x ≠ m → S.jobs x = s.jobs x) (hco : S.completed = s.completed) (hfa : S.failed = s.failed)
      (hac : S.allCompleted = s.allCompleted) (haf : S.allFailed = s.allFailed) (hd : S.destinations = s.destinations) : Hears e m ok dm s S

theorem hasLoad_finish {idx : Nat} {e : Engine} {l : Int} (hn : Neat s) (hi : s.targets.idxOf? e = some idx) (hl : HasLoad s e l) :
    (e, l - 1) ∈ s.targets.zip (s.loads.modify idx (· - 1)) := by
  obtain ⟨idx', h1, h2⟩ := hasLoad_idx hn hl
  rw [hi] at h1; cases h1
  have ht := idxOf?_get hi
  have hlt : idx < s.targets.length := (List.getElem?_eq_some_iff.mp ht).1
  refine List.mem_of_getElem? (i := idx) ?_
  rw [List.getElem?_zip_eq_some]
  refine ⟨ht, ?_⟩
  rw [List.getElem?_modify]
  have : s.loads[idx]? = some l := by
    rw [List.getD_eq_getElem?_getD] at h2
    rw [List.getElem?_eq_getElem (by rw [hn.len]; exact hlt)] at h2 ⊢
    simpa using h2
  simp [this]

theorem result_sweep (h0 : cfg.hwm ≠ 0) (e : Engine) (m : MsgId) (ok dm : Bool) (s₀ : State) (hn : Neat s₀) (hl : HasLoad s₀ e (cfg.hwm : Int))
    (hrem : ∀ j, s₀.jobs m = some j → j.removed = false) :
    HoareE (fun s => s = s₀) (handle cfg n (.result e m ok dm)) (fun _ s' => ∃ S, Hears e m ok dm s₀ S ∧ Env S s' ∧
      ∀ x, x ≠ m → InQ s₀ x → Due cfg S s' x → Act S s' x) AnyErr := by
  unfold handle
  refine HoareE.emit fun s hs => ?_
  subst hs
  unfold dispatchResult
  refine HoareE.getS fun s₁ hs₁ => ?_
  subst hs₁
  obtain ⟨idx, hi, _⟩ := hasLoad_idx hn hl
  have hfin := hasLoad_finish hn hi hl
  dsimp only
  rw [hi]
  dsimp only
  refine HoareE.modS fun s₂ hs₂ => ?_
  subst hs₂
  have hnm : ∀ (r : MsgId → Option Nat) (st : State), st = { s with
      trace := s.trace ++ [.received e m ok dm]
      loads := s.loads.modify idx (· - 1)
      retries := r } → Neat st ∧ HasLoad st e ((cfg.hwm : Int) - 1) := by
    intro r st hst
    rw [hst]
    exact ⟨⟨by simp [hn.len], hn.nodup, hn.gone⟩, hfin⟩
  -- taken back
  have hun : ∀ (c : Cause) (r : MsgId → Option Nat), HoareE (fun x => x = { s with
      trace := s.trace ++ [.received e m ok dm]
      loads := s.loads.modify idx (· - 1)
      retries := r }) (handleUnmet cfg n e m c) (fun _ s' => ∃ S, Hears e m ok dm s S ∧ Env S s' ∧
      ∀ x, x ≠ m → InQ s x → Due cfg S s' x → Act S s' x) AnyErr := by
    intro c r
    refine HoareE.atEq fun st hst => ?_
    have hq : ∀ x, InQ s x → InQ st x := fun x hx => by rw [hst]; exact hx
    obtain ⟨a, b⟩ := hnm r st hst
    refine (handleUnmet_sweep (n := n) h0 e m c st a b (by rw [hst]; exact hrem)).conseq (fun _ h => h) (fun _ s' h => ?_) (fun _ _ h => h)
    obtain ⟨p, j, S, hS, h1, h2⟩ := h
    refine ⟨S, ?_, h1, fun x hx hi => h2 x hx (hq x hi)⟩
    subst hS hst
    exact .retry c (by simp) rfl (fun x hx => upd_ne _ _ hx) rfl rfl rfl rfl rfl
  refine HoareE.ite (fun _ => ?_) fun _ => hun .unmet s.retries
  refine HoareE.lookupE (fun _ _ _ => trivial) fun r _ => ?_
  refine HoareE.ite (fun _ => ?_) fun _ => ?_
  · refine HoareE.modS fun s₃ hs₃ => ?_
    subst hs₃
    exact hun .failure _
  · refine HoareE.modS fun s₃ hs₃ => ?_
    subst hs₃
    refine HoareE.atEq fun st hst => ?_
    have hq : ∀ x, InQ s x → InQ st x := fun x hx => by rw [hst]; exact hx
    obtain ⟨a, b⟩ := hnm _ st hst
    refine (handleResult_sweep (n := n) e m ok st a (hasLoad_tight h0 b)).conseq (fun _ h => h) (fun _ s' h => ?_) (fun _ _ h => h)
    obtain ⟨p, c, S, hc, hS, h1, h2⟩ := h
    refine ⟨S, ?_, h1, fun x hx hi => h2 x (hq x hi)⟩
    subst hS hst
    exact .relay c hc (by simp) rfl rfl rfl rfl rfl rfl rfl

end IPP.Sched
