import Verif.Sched.Loc3

/-!
# Where every task is: the handlers (lemmas)
-/
namespace IPP.Sched

variable {cfg : Config} {D : Prop} {g : Ghost} {s : State} {n : Nat} {S : List Engine} {A : List MsgId}

/-- The ghosts between handlers (`S`, `A`: while stranded tasks are handled). -/
def top (D : Prop) (S : List Engine) (A : List MsgId) : Ghost where
  full := D
  F := False
  S := S
  A := A
  R := []
  H := []
  X := []

theorem Bad.top (h : Bad cfg D (top D S A) s) : Inv cfg D (top D S A) s :=
  h.2.reghost rfl (fun _ h => h) (fun h => h.elim) (fun _ h => h) rfl rfl h.1

/-- What an exception leaves behind at the top level. -/
def TErr (cfg : Config) (D : Prop) (S : List Engine) (A : List MsgId) : Err → State → Prop := fun e s => e ≠ .fuel → ¬ D ∧ Inv cfg D (top D S A) s

/-- … when it may also be raised because a notification names an unknown engine or task. -/
def UErr (cfg : Config) (D : Prop) (S : List Engine) (A : List MsgId) : Err → State → Prop := fun e s => e ≠ .fuel → Inv cfg D (top D S A) s

theorem TErr.weak {e : Err} (h : TErr cfg D S A e s) : UErr cfg D S A e s := fun hne => (h hne).2

theorem LErr.top {e : Err} (h : LErr cfg D (top D S A) e s) : TErr cfg D S A e s := fun hne => ⟨(h hne).1, (h hne).top⟩

/-- Any graph, if there may be dependencies. -/
theorem Inv.anyGraph (h : Inv cfg D g s) (hD : ¬ D) (gr : MsgId → Option (List MsgId)) : Inv cfg D g { s with graph := gr } := { h with
  dep := fun hd => absurd hd hD }

theorem addToGraph_loc (m : MsgId) (ds : List MsgId) (hds : D → ds = []) (J : MsgId → Option Job) {E : Err → State → Prop} :
    HoareE (fun s => Inv cfg D g s ∧ s.jobs = J) (addToGraph m ds) (fun _ s => Inv cfg D g s ∧ s.jobs = J) E := by
  induction ds with
  | nil => exact HoareE.pure fun _ h => h
  | cons d ds ih =>
    have hD : ¬ D := fun hD => by cases hds hD
    unfold addToGraph
    refine HoareE.modS fun s h => ?_
    exact (ih fun hD' => absurd hD' hD).at ⟨h.1.anyGraph hD _, h.2⟩

theorem saveUnmet_loc {m : MsgId} {s₀ : State} (h : InHand cfg D g m s₀) (ht : TgtOk s₀ m) (hH : g.H = []) {E : Err → State → Prop} :
    HoareE (fun s => s = s₀) (saveUnmet m) (fun _ => Inv cfg D g) E := by
  obtain ⟨j, hj, hjr⟩ := h.job
  unfold saveUnmet
  refine HoareE.getJob (fun s hs hn => by subst hs; rw [hj] at hn; cases hn) fun s j' hs hj' => ?_
  subst hs
  rw [hj] at hj'
  cases hj'
  refine HoareE.addQueueMap fun s₁ hs₁ => ?_
  subst hs₁
  refine HoareE.modS fun s₂ hs₂ => ?_
  subst hs₂
  refine HoareE.getS fun s₃ hs₃ => ?_
  subst hs₃
  have h1 := h.enqueue ht hH
  refine HoareE.bind ((addToGraph_loc (cfg := cfg) (g := g) (D := D) m _ (fun hD => ?_) s₁.jobs).at ⟨h1, rfl⟩) fun _ => ?_
  · have := (h.inv.dep hD).2 m j hj
    simp [this.1, this.2]
  · refine HoareE.ite (fun _ => ?_) fun _ => HoareE.pure fun _ h => h.1
    refine HoareE.setJob fun s h => ?_
    refine HoareE.modS_last fun s' hs' => ?_
    subst hs'
    have := h.1.touch (m := m) (j := j) (j' := { j with timeoutId := j.timeoutId + 1 }) (by rw [h.2]; exact hj) rfl rfl rfl rfl
    exact { this with }

/-- `maybe_run` for a task that is not waiting. -/
theorem maybeRun_top (hL : LocAt cfg D n) {m : MsgId} {s₀ : State} (h : InHand cfg D (top D S A) m s₀) (ht : TgtOk s₀ m) (hq : m ∉ s₀.queueMap) :
    HoareE (fun s => s = s₀) (maybeRun cfg n m) (fun b s => if b then Inv cfg D (top D S A) s else
      (m ∉ s.allFailed → InHand cfg D (top D S A) m s ∧ TgtOk s m) ∧ (m ∈ s.allFailed → Inv cfg D (top D S A) s)) (TErr cfg D S A) := by
  refine (hL.may (top D S A) m s₀ rfl h ht).conseq (fun _ h => h) (fun b s hb => ?_) (fun _ _ h => LErr.top h)
  cases b with
  | true =>
    show Inv cfg D (top D S A) s
    obtain ⟨h1, h2, _⟩ := hb
    rwa [drop_self (fun hh => hq (h2.mp hh))] at h1
  | false =>
    rcases hb with ⟨h1, h2, h3⟩ | h1
    · exact ⟨fun _ => ⟨h1, h2⟩, fun hf => absurd h1.rep (h1.inv.alf m hf)⟩
    · refine ⟨fun hf => absurd (h1.rr m (by simp)).1 hf, fun _ => ?_⟩
      have h2 := Inv.forget (g := { top D S A with H := (top D S A).H ++ [m] }) (m := m) h1
      exact h2.release (h1.answered (by simp))

theorem fail_top (hL : LocAt cfg D n) {m : MsgId} {s₀ : State} (why : Why) (h : InHand cfg D (top D S A) m s₀) :
    HoareE (fun s => s = { s₀ with queueMap := insertSet m s₀.queueMap }) (failUnreachable cfg n m why) (fun _ => Inv cfg D (top D S A)) (TErr cfg D S A) := by
  refine ((hL.fail { top D S A with H := (top D S A).H ++ [m] } m why rfl).conseq (fun _ h => h) (fun _ s hs => ?_) (fun _ _ h => LErr.top h)).at (h.addMap.failPre (by simp))
  exact hs.forget.release (hs.answered (by simp))

theorem upd_top (hL : LocAt cfg D n) (d : Option MsgId) : HoareE (Inv cfg D (top D S A)) (updateGraph cfg n d) (fun _ => Inv cfg D (top D S A)) (TErr cfg D S A) :=
  (hL.upd (top D S A) d rfl).conseq (fun _ h => h) (fun _ _ h => h) (fun _ _ h => LErr.top h)

theorem registerEngine_loc (hL : LocAt cfg D n) (e : Engine) :
    HoareE (fun s => Inv cfg D (top D S A) s ∧ Obs.registered e ∉ s.trace) (registerEngine cfg n e) (fun _ => Inv cfg D (top D S A)) (TErr cfg D S A) := by
  unfold registerEngine
  refine HoareE.emit fun s h => ?_
  refine HoareE.modS fun s₁ hs₁ => ?_
  subst hs₁
  exact (upd_top hL none).at (h.1.register (fun h => h) h.2)

theorem idxOf?_get {l : List Nat} {e i : Nat} (h : l.idxOf? e = some i) : l[i]? = some e := by
  induction l generalizing i with
  | nil => simp at h
  | cons a l ih =>
    rw [List.idxOf?_cons] at h
    split at h
    · rename_i hae
      cases h
      simpa using hae
    · obtain ⟨k, hk, rfl⟩ := Option.map_eq_some_iff.mp h
      simpa using ih hk

theorem unregisterEngine_loc (e : Engine) :
    HoareE (Inv cfg D (top D S A)) (unregisterEngine e) (fun _ => Inv cfg D (top D S A)) (UErr cfg D S A) := by
  unfold unregisterEngine
  refine HoareE.getS fun s h => ?_
  cases hi : s.targets.idxOf? e with
  | none => exact HoareE.throwE fun s' hs _ => hs ▸ h
  | some idx =>
    have hget := idxOf?_get hi
    obtain ⟨hp, hc, hf⟩ := h.reg e (List.mem_of_getElem? hget)
    refine HoareE.emit fun s₁ hs₁ => ?_
    subst hs₁
    refine HoareE.modS fun s₂ hs₂ => ?_
    subst hs₂
    refine HoareE.lookupE (fun hn => absurd hn hp) fun p hp' => ?_
    have hpa : p = assigned e s₁.trace := h.ps e p hp'
    refine HoareE.ite (fun _ => ?_) fun hne => ?_
    · refine HoareE.modS_last fun s₃ hs₃ => ?_
      subst hs₃
      exact h.unregister (fun h => h) hget (Or.inl ⟨rfl, rfl, rfl⟩)
    · refine HoareE.lookupE (fun hn => absurd hn hc) fun c hc' => ?_
      refine HoareE.modS fun s₃ hs₃ => ?_
      subst hs₃
      refine HoareE.lookupE (fun hn => absurd hn hf) fun c hf' => ?_
      refine HoareE.modS_last fun s₄ hs₄ => ?_
      subst hs₄
      have := h.unregister (fun h => h) hget (Or.inr ⟨by rw [← hpa]; exact Classical.byContradiction hne, rfl, rfl, rfl⟩)
      exact this

/-- The submission has no dependencies (and the dependency it has, if any, is not ill-formed). -/
def NoDeps (sub : Submission) : Prop :=
  (∀ d, sub.after = some d → d.ids = [] ∧ (d.success || d.failure) = true) ∧ sub.follow.ids = [] ∧ (sub.follow.success || sub.follow.failure) = true

theorem reduceAfter_noDeps (s : State) {sub : Submission} (h : NoDeps sub) : (reduceAfter s sub.after).ids = [] := by
  cases ha : sub.after with
  | none => rfl
  | some d =>
    have hd : d.ids = [] := (h.1 d ha).1
    unfold reduceAfter
    dsimp only
    split
    · rfl
    · unfold reduceIds
      split
      · dsimp only
        split <;> split <;> simp [hd, difference]
      · exact hd

theorem dispatchSubmission_loc (hL : LocAt cfg D n) (m : MsgId) (sub : Submission) (hD : D → NoDeps sub) :
    HoareE (fun s => Inv cfg D (top D S A) s ∧ ∀ sub', Obs.submitted m sub' ∉ s.trace) (dispatchSubmission cfg n m sub)
      (fun _ => Inv cfg D (top D S A)) (TErr cfg D S A) := by
  unfold dispatchSubmission
  refine HoareE.emit fun s h => ?_
  refine HoareE.modS fun s₁ hs₁ => ?_
  subst hs₁
  obtain ⟨h, hfresh⟩ := h
  have h1 := h.submitted (sub := sub) (ids := insertSet m s.allIds) hfresh
  obtain ⟨hj, _, _, _, _⟩ := h.fresh hfresh
  have hu : ∀ sub', Obs.submitted m sub' ∈ s.trace ++ [.submitted m sub] → sub' = sub := fun sub' hh => by
    rcases List.mem_append.mp hh with hh | hh
    · exact absurd hh (hfresh _)
    · simp at hh; exact hh
  refine HoareE.ite (fun hc => ?_) fun _ => ?_
  · refine HoareE.bind (R := fun _ _ => False) (HoareE.throwE fun s' h' _ => ⟨fun hd => ?_, h' ▸ h1⟩) fun _ _ h => h.elim
    cases ha : sub.after with
    | none => rw [ha] at hc; simp at hc
    | some d =>
      have := ((hD hd).1 d ha).2
      rw [ha] at hc
      simp only [Option.map_some, Option.getD_some] at hc
      rw [this] at hc
      cases hc
  refine HoareE.getS fun s₂ hs₂ => ?_
  refine HoareE.ite (fun hc => ?_) fun _ => ?_
  · refine HoareE.bind (R := fun _ _ => False) (HoareE.throwE fun s' h' _ => ⟨fun hd => ?_, by subst h' hs₂; exact h1⟩) fun _ _ h => h.elim
    simp only at hc
    rw [(hD hd).2.2] at hc
    cases hc
  refine HoareE.setJob fun s₃ hs₃ => ?_
  obtain ⟨h2, ht2, hq2⟩ := h1.newJob (m := m) (sub := sub) (j := { targets := sub.targets, after := reduceAfter s₂ sub.after, follow := sub.follow, hasTimeout := sub.hasTimeout, timestamp := sub.timestamp }) rfl hj (by simp [upd]) (by simp) hu rfl rfl
    (fun hd => ⟨reduceAfter_noDeps s₂ (hD hd), (hD hd).2.1⟩)
  subst hs₃ hs₂
  split
  · refine HoareE.addQueueMap fun s₄ hs₄ => ?_
    subst hs₄
    exact fail_top hL _ h2
  · refine HoareE.ite (fun _ => ?_) fun _ => saveUnmet_loc h2 ht2 rfl
    refine HoareE.bind (maybeRun_top hL h2 ht2 hq2) fun b => ?_
    cases b with
    | true => exact HoareE.ite (fun _ => HoareE.pure fun _ h => h) fun h => absurd rfl h
    | false =>
      refine HoareE.ite (fun h => by cases h) fun _ => ?_
      refine HoareE.getS fun s₅ hs₅ => ?_
      exact HoareE.ite (fun hf => saveUnmet_loc (hs₅.1 hf).1 (hs₅.1 hf).2 rfl) fun hf => HoareE.pure fun s h => h ▸ hs₅.2 (Classical.byContradiction hf)

theorem jobTimeout_loc (hL : LocAt cfg D n) (m : MsgId) (tid : Nat) :
    HoareE (Inv cfg D (top D S A)) (jobTimeout cfg n m tid) (fun _ => Inv cfg D (top D S A)) (UErr cfg D S A) := by
  unfold jobTimeout
  refine HoareE.getJob (fun s h _ _ => h) fun s j h hj => ?_
  refine HoareE.ite (fun _ => HoareE.pure fun s' hs => hs ▸ h) fun _ => ?_
  refine HoareE.getS fun s₁ hs₁ => ?_
  subst hs₁
  exact HoareE.ite (fun _ => ((hL.fail' m _ rfl).conseq (fun _ h => h) (fun _ _ h => h) (fun _ _ h => (LErr.top h).weak)).at h) fun _ => HoareE.pure fun s' hs => hs ▸ h

theorem handleUnmet_loc (hL : LocAt cfg D n) {e : Engine} {m : MsgId} {c : Cause} {p : List MsgId} {s₀ : State} (hp : s₀.pending e = some p) (hm : m ∈ p)
    (h : InHand cfg D (top D S A) m { s₀ with pending := upd s₀.pending e (some (p.filter (· ≠ m))) })
    (ht : TgtOk { s₀ with pending := upd s₀.pending e (some (p.filter (· ≠ m))) } m) (hq : m ∉ s₀.queueMap) :
    HoareE (fun s => s = s₀) (handleUnmet cfg n e m c) (fun _ => Inv cfg D (top D S A)) (TErr cfg D S A) := by
  obtain ⟨j, hj, hjr⟩ := h.job
  unfold handleUnmet
  refine HoareE.getS fun s hs => ?_
  subst hs
  refine HoareE.lookupE (fun hn => by rw [hp] at hn; cases hn) fun p' hp' => ?_
  rw [hp] at hp'
  cases hp'
  refine HoareE.ite (fun hh => absurd hm hh) fun _ => ?_
  refine HoareE.modS fun s₂ hs₂ => ?_
  subst hs₂
  refine HoareE.getJob (fun s hs hn => by subst hs; rw [hj] at hn; cases hn) fun s₃ j' hs₃ hj' => ?_
  subst hs₃
  rw [hj] at hj'
  cases hj'
  refine HoareE.emit fun s₄ hs₄ => ?_
  subst hs₄
  refine HoareE.setJob fun s₅ hs₅ => ?_
  subst hs₅
  have h4 := (h.retried (e := e) (c := c)).setJob (j' := { j with blacklist := insertSet e j.blacklist }) hj hjr ⟨rfl, rfl⟩ fun _ h => h
  have ht4 : TgtOk { s₂ with
      pending := upd s₂.pending e (some (p.filter (· ≠ m)))
      trace := s₂.trace ++ [.retry e m c]
      jobs := upd s₂.jobs m (some { j with blacklist := insertSet e j.blacklist }) } m := by
    intro j' hj' hr' sub hs
    simp only [upd_self, Option.some.injEq] at hj'
    subst hj'
    exact ht j hj hjr sub (by simpa using hs)
  have tail : HoareE (Inv cfg D (top D S A)) (do
      if cfg.hwm ≠ 0 then
        let s ← getS
        match s.targets.idxOf? e with
        | none => pure ()
        | some idx =>
          if s.loads.getD idx 0 = (cfg.hwm : Int) - 1 then updateGraph cfg n none) (fun _ => Inv cfg D (top D S A)) (TErr cfg D S A) := by
    refine HoareE.ite (fun _ => ?_) fun _ => HoareE.pure fun _ h => h
    refine HoareE.getS fun s hs => ?_
    cases s.targets.idxOf? e with
    | none => exact HoareE.pure fun s' h => h ▸ hs
    | some idx => exact HoareE.ite (fun _ => (upd_top hL none).at hs) fun _ => HoareE.pure fun s' h => h ▸ hs
  refine HoareE.ite (fun _ => ?_) fun _ => ?_
  · refine HoareE.addQueueMap fun s₆ hs₆ => ?_
    subst hs₆
    exact HoareE.bind (fail_top hL .impossible h4) fun _ => tail
  · refine HoareE.bind (maybeRun_top hL h4 ht4 hq) fun b => ?_
    cases b with
    | true => exact HoareE.ite (fun _ => tail.pre fun _ h => h) fun h => absurd rfl h
    | false =>
      refine HoareE.ite (fun h => by cases h) fun _ => ?_
      refine HoareE.getS fun s₆ hs₆ => ?_
      refine HoareE.ite (fun hf => ?_) fun hf => ?_
      · exact HoareE.bind (saveUnmet_loc (hs₆.1 hf).1 (hs₆.1 hf).2 rfl) fun _ => tail
      · exact tail.pre fun s h => h ▸ hs₆.2 (Classical.byContradiction hf)

theorem handleResult_loc (hL : LocAt cfg D n) {e : Engine} {m : MsgId} {ok : Bool} {p : List MsgId} {s₀ : State} {r : MsgId → Option Nat} (hp : s₀.pending e = some p) (hm : m ∈ p)
    (h : InHand cfg D (top D S A) m { s₀ with
      pending := upd s₀.pending e (some (p.filter (· ≠ m)))
      retries := r })
    (ht : TgtOk { s₀ with
      pending := upd s₀.pending e (some (p.filter (· ≠ m)))
      retries := r } m) (hq : m ∉ s₀.queueMap) (hr : s₀.retries = upd r m none)
    (hc : s₀.completed e ≠ none) (hf : s₀.failed e ≠ none) :
    HoareE (fun s => s = s₀) (handleResult cfg n e m ok) (fun _ => Inv cfg D (top D S A)) (TErr cfg D S A) := by
  have ins : ∀ (f : Engine → Option (List MsgId)) l x, f x ≠ none → upd f e (some l) x ≠ none := fun f l x hx => by
    unfold upd; split
    · simp
    · exact hx
  unfold handleResult
  refine HoareE.emit fun s hs => ?_
  subst hs
  refine HoareE.getS fun s₁ hs₁ => ?_
  subst hs₁
  refine HoareE.lookupE (fun hn => by rw [show ({ s with trace := s.trace ++ [.relay e m ok] } : State).pending = s.pending from rfl, hp] at hn; cases hn) fun p' hp' => ?_
  rw [show ({ s with trace := s.trace ++ [.relay e m ok] } : State).pending = s.pending from rfl, hp] at hp'
  cases hp'
  refine HoareE.ite (fun hh => absurd hm hh) fun _ => ?_
  refine HoareE.modS fun s₂ hs₂ => ?_
  subst hs₂
  refine HoareE.ite (fun _ => ?_) fun _ => ?_
  · refine HoareE.lookupE (fun hn => absurd hn hc) fun c hc' => ?_
    refine HoareE.modS fun s₃ hs₃ => ?_
    subst hs₃
    refine HoareE.modS fun s₄ hs₄ => ?_
    subst hs₄
    refine (upd_top hL _).at (h.relay (e := e) (ok := ok) (comp := upd s.completed e (some (insertSet m c))) (fai := s.failed) (alf := s.allFailed)
      ht hq (ins _ _) (fun _ h => h) (fun _ h => Or.inl h) (fun _ h => h) rfl rfl rfl rfl rfl rfl rfl hr rfl rfl rfl rfl rfl rfl)
  · refine HoareE.lookupE (fun hn => absurd hn hf) fun c hc' => ?_
    refine HoareE.modS fun s₃ hs₃ => ?_
    subst hs₃
    refine HoareE.modS fun s₄ hs₄ => ?_
    subst hs₄
    refine (upd_top hL _).at (h.relay (e := e) (ok := ok) (comp := s.completed) (fai := upd s.failed e (some (insertSet m c))) (alf := insertSet m s.allFailed)
      ht hq (fun _ h => h) (ins _ _) (fun x h => ?_) (fun x h => ?_) rfl rfl rfl rfl rfl rfl rfl hr rfl rfl rfl rfl rfl rfl)
    · exact ((mem_insertSet _ _ _).mp h).symm
    · exact (mem_insertSet _ _ _).mpr (Or.inr h)

theorem dispatchResult_loc (hL : LocAt cfg D n) {e : Engine} {m : MsgId} {ok dm : Bool} {o : Obs} {A' : List MsgId} {s₀ : State} (h : Inv cfg D (top D S A) s₀)
    (ho : ReplyObs o e m) (hm : m ∈ assigned e s₀.trace) (hA : ∀ e' ∈ S, ∀ x ∈ assigned e' (s₀.trace ++ [o]), x ∈ A') :
    HoareE (fun s => s = { s₀ with trace := s₀.trace ++ [o] }) (dispatchResult cfg n e m ok dm) (fun _ => Inv cfg D (top D S A')) (TErr cfg D S A') := by
  obtain ⟨hmq, hmr, j, hj, hjr⟩ := h.asg m e hm
  have hret := h.ret m j hj hmr
  obtain ⟨hc, hf⟩ := h.dead e (fun hh => by rw [hh] at hm; cases hm)
  obtain ⟨p, hp⟩ : ∃ p, s₀.pending e = some p := by
    cases hp : s₀.pending e with
    | none => rw [h.pn e hp] at hm; cases hm
    | some p => exact ⟨p, rfl⟩
  have hmp : m ∈ p := by rw [h.ps e p hp]; exact hm
  unfold dispatchResult
  refine HoareE.getS fun s hs => ?_
  have rest : HoareE (fun s => s = recvBase s₀ o e) (if dm = true then do
      let r ← lookupE (s₀.retries m)
      if !ok ∧ r > 0 then
        modS fun s => { s with retries := upd s.retries m (some (r - 1)) }
        handleUnmet cfg n e m .failure
      else
        modS fun s => { s with retries := upd s.retries m none }
        handleResult cfg n e m ok
    else handleUnmet cfg n e m .unmet) (fun _ => Inv cfg D (top D S A')) (TErr cfg D S A') := by
    have hrb : (recvBase s₀ o e).retries = s₀.retries := by simp
    have hpb : (recvBase s₀ o e).pending = s₀.pending := by simp
    have hqb : (recvBase s₀ o e).queueMap = s₀.queueMap := by simp
    have hcb : (recvBase s₀ o e).completed = s₀.completed := by simp
    have hfb : (recvBase s₀ o e).failed = s₀.failed := by simp
    refine HoareE.ite (fun _ => ?_) fun _ => ?_
    · refine HoareE.lookupE (fun hn => absurd hn hret) fun r hr => ?_
      refine HoareE.ite (fun _ => ?_) fun _ => ?_
      · refine HoareE.modS fun s₁ hs₁ => ?_
        subst hs₁
        obtain ⟨h1, h2, h3⟩ := h.recv (m := m) (e := e) (o := o) (p := p) (r := upd s₀.retries m (some (r - 1))) (A' := A') rfl (fun h => h) ho hm hp
          (fun x hx => upd_ne _ _ hx) (by simp [upd]) hA
        refine handleUnmet_loc hL (p := p) (by rw [← hp, ← hpb]) hmp ?_ ?_ (by simpa [hqb] using hmq)
        · have : recvState s₀ o e m p (upd s₀.retries m (some (r - 1))) = { recvBase s₀ o e with
            retries := upd (recvBase s₀ o e).retries m (some (r - 1))
            pending := upd (recvBase s₀ o e).pending e (some (p.filter (· ≠ m))) } := by
            simp only [recvState, hrb, hpb]
          rw [this] at h1; exact h1
        · have : recvState s₀ o e m p (upd s₀.retries m (some (r - 1))) = { recvBase s₀ o e with
            retries := upd (recvBase s₀ o e).retries m (some (r - 1))
            pending := upd (recvBase s₀ o e).pending e (some (p.filter (· ≠ m))) } := by
            simp only [recvState, hrb, hpb]
          rw [this] at h2; exact h2
      · refine HoareE.modS fun s₁ hs₁ => ?_
        subst hs₁
        obtain ⟨h1, h2, h3⟩ := h.recv (m := m) (e := e) (o := o) (p := p) (r := s₀.retries) (A' := A') rfl (fun h => h) ho hm hp
          (fun x hx => rfl) hret hA
        refine handleResult_loc hL (p := p) (r := s₀.retries) (by rw [← hp, ← hpb]) hmp ?_ ?_ (by simpa [hqb] using hmq) (by rw [hrb]) (by rw [← hcb] at hc; exact hc) (by rw [← hfb] at hf; exact hf)
        · have : recvState s₀ o e m p s₀.retries = { recvBase s₀ o e with
            retries := s₀.retries
            pending := upd (recvBase s₀ o e).pending e (some (p.filter (· ≠ m))) } := by
            simp only [recvState, hpb]
          rw [this] at h1; exact h1
        · have : recvState s₀ o e m p s₀.retries = { recvBase s₀ o e with
            retries := s₀.retries
            pending := upd (recvBase s₀ o e).pending e (some (p.filter (· ≠ m))) } := by
            simp only [recvState, hpb]
          rw [this] at h2; exact h2
    · obtain ⟨h1, h2, h3⟩ := h.recv (m := m) (e := e) (o := o) (p := p) (r := s₀.retries) (A' := A') rfl (fun h => h) ho hm hp
          (fun x hx => rfl) hret hA
      have : recvState s₀ o e m p s₀.retries = { recvBase s₀ o e with
            pending := upd (recvBase s₀ o e).pending e (some (p.filter (· ≠ m))) } := by
        simp only [recvState, hpb]
        rw [← hrb]
      rw [this] at h1 h2
      exact handleUnmet_loc hL (p := p) (by rw [← hp, ← hpb]) hmp h1 h2 (by simpa [hqb] using hmq)
  subst hs
  cases hi : ({ s₀ with trace := s₀.trace ++ [o] } : State).targets.idxOf? e with
  | none =>
    have : recvBase s₀ o e = { s₀ with trace := s₀.trace ++ [o] } := by unfold recvBase; simp only [hi]
    rw [this] at rest
    exact rest
  | some idx =>
    have : recvBase s₀ o e = { s₀ with
        trace := s₀.trace ++ [o]
        loads := s₀.loads.modify idx (· - 1) } := by unfold recvBase; simp only [hi]
    rw [this] at rest
    refine HoareE.modS fun s' hs => ?_
    subst hs
    exact rest

/-- The tasks left on the dead engine. -/
theorem Inv.left {A' : List MsgId} (h : Inv cfg D (top D S A) s) (hA : ∀ e ∈ S, ∀ x ∈ assigned e s.trace, x ∈ A') : Inv cfg D (top D S A') s := { h with
  sin := fun e he => by
    obtain ⟨a, b, c, d, _⟩ := h.sin e he
    exact ⟨a, b, c, d, hA e he⟩ }

theorem strandedLoop_loc (hL : LocAt cfg D n) (e : Engine) (ms : List MsgId) : ∀ q, Enough L u (q + ms.length) n →
    HoareE (fun s => Inv cfg D (top D [e] ms) s ∧ FInv L u q s) (strandedLoop cfg n e ms) (fun _ => Inv cfg D (top D [e] [])) (fun _ _ => False) := by
  induction ms with
  | nil => intro q _; exact HoareE.pure fun _ h => h.1
  | cons m ms ih =>
    intro q hn
    simp only [List.length_cons] at hn
    have ih' := ih (q + 1) (by rw [Nat.add_right_comm, Nat.add_assoc]; exact hn)
    unfold strandedLoop
    refine HoareE.getS fun s h => ?_
    obtain ⟨h, hF⟩ := h
    obtain ⟨a1, a2, a3, a4, a5⟩ := h.sin e (by simp [top])
    refine HoareE.lookupE (fun hn => absurd hn a4) fun p hp => ?_
    have hpa := h.ps e p hp
    refine HoareE.ite (fun hm => ?_) fun hm => ?_
    · rw [hpa] at hm
      refine HoareE.emit fun s₁ hs₁ => ?_
      subst hs₁
      refine HoareE.bind (R := fun _ s => Inv cfg D (top D [e] ms) s ∧ FInv L u (q + 1) s) ?_ fun _ => ih'
      have hF' : FInv L u q { s₁ with trace := s₁.trace ++ [.stranded e m] } := ⟨hF.ids, hF.grn, hF.pen, hF.len, hF.un, hF.ql⟩
      refine logErrorsE_pres (((dispatchResult_loc hL (e := e) (m := m) (ok := false) (dm := true) (A' := ms) h (Or.inr rfl) hm ?_).and
        ((dispatchResult_fuel (hn.mono (Nat.le_refl _) (by omega)) e m false true).at hF')).conseq (fun s hs => ⟨hs, hs⟩) (fun _ _ h => h)
          (fun _ _ h => ⟨(h.1 h.2.1).2, h.2.2⟩))
      intro e' he' x hx
      simp only [List.mem_singleton] at he'
      subst he'
      rw [assigned_snoc] at hx
      simp only [if_true] at hx
      have hnd := h.nod e'
      have hxm : x ≠ m := fun hh => by
        rw [hh] at hx
        exact (hnd.mem_erase_iff.mp hx).1 rfl
      have := a5 x (List.mem_of_mem_erase hx)
      rcases List.mem_cons.mp this with h1 | h1
      · exact absurd h1 hxm
      · exact h1
    · refine ih'.at ⟨h.left ?_, hF.up⟩
      intro e' he' x hx
      simp only [List.mem_singleton] at he'
      subst he'
      have := a5 x hx
      rcases List.mem_cons.mp this with h1 | h1
      · rw [h1, ← hpa] at hx; exact absurd hx hm
      · exact h1

/-- Handling of the dead engine starts. -/
theorem Inv.strand {e : Engine} (h : Inv cfg D (top D [] A) s) (he : e ∈ s.strandTimers) :
    Inv cfg D (top D [e] (assigned e s.trace)) { s with strandTimers := s.strandTimers.erase e } := { h with
  tim := fun x hx ht => by
    rcases h.tim x hx ht with a | a
    · by_cases hxe : x = e
      · right; simp [top, hxe]
      · left; exact (List.mem_erase_of_ne hxe).mpr a
    · cases a
  stt := fun x hx => by
    obtain ⟨a, b, c⟩ := h.stt x (List.mem_of_mem_erase hx)
    refine ⟨a, fun hh => ?_, c⟩
    simp [top] at hh
    subst hh
    exact (h.stn.mem_erase_iff.mp hx).1 rfl
  stn := h.stn.sublist List.erase_sublist
  sin := fun x hx => by
    simp [top] at hx
    subst hx
    obtain ⟨a, b, c, d, f⟩ := h.stt x he
    exact ⟨a, c, d, f, fun _ h => h⟩
  fre := fun x hx => by
    obtain ⟨a, b, c⟩ := h.fre x hx
    exact ⟨a, b, fun hh => c (List.mem_of_mem_erase hh)⟩ }

/-- ... and ends. -/
theorem Inv.scrub {e : Engine} (h : Inv cfg D (top D [e] []) s) : Inv cfg D (top D [] []) { s with
    completed := upd s.completed e none
    failed := upd s.failed e none } := by
  obtain ⟨a1, a2, a3, a4, a5⟩ := h.sin e (by simp [top])
  have hnil : assigned e s.trace = [] := List.eq_nil_iff_forall_not_mem.mpr fun x hx => by cases a5 x hx
  exact { h with
    reg := fun x hx => by
      have hxe : x ≠ e := fun hh => a1 (hh ▸ hx)
      obtain ⟨a, b, c⟩ := h.reg x hx
      exact ⟨a, by dsimp only; rw [upd_ne _ _ hxe]; exact b, by dsimp only; rw [upd_ne _ _ hxe]; exact c⟩
    dead := fun x hx => by
      have hxe : x ≠ e := fun hh => hx (hh ▸ hnil)
      obtain ⟨b, c⟩ := h.dead x hx
      exact ⟨by dsimp only; rw [upd_ne _ _ hxe]; exact b, by dsimp only; rw [upd_ne _ _ hxe]; exact c⟩
    tim := fun x hx ht => by
      have hxe : x ≠ e := fun hh => hx (hh ▸ hnil)
      rcases h.tim x hx ht with a | a
      · exact Or.inl a
      · simp [top] at a; exact absurd a hxe
    stt := fun x hx => by
      obtain ⟨a, b, c, d, f⟩ := h.stt x hx
      have hxe : x ≠ e := fun hh => b (by simp [top, hh])
      exact ⟨a, by simp [top], by dsimp only; rw [upd_ne _ _ hxe]; exact c, by dsimp only; rw [upd_ne _ _ hxe]; exact d, f⟩
    sin := fun x hx => by cases hx }

theorem handleStranded_loc (hL : LocAt cfg D n) (e : Engine) (hn : Enough L u (q + L) n) {s₀ : State} (h : Inv cfg D (top D [] A) s₀) (he : e ∈ s₀.strandTimers) (hF : FInv L u q s₀) :
    HoareE (fun s => s = { s₀ with strandTimers := s₀.strandTimers.erase e }) (handleStranded cfg n e) (fun _ s => Inv cfg D (top D [] []) s ∧ assigned e s.trace = []) (fun _ _ => False) := by
  unfold handleStranded
  refine HoareE.getS fun s hs => ?_
  subst hs
  obtain ⟨_, _, hc, hf, hp⟩ := h.stt e he
  refine HoareE.lookupE (fun hn => absurd hn hp) fun p hp' => ?_
  have hpa := h.ps e p hp'
  obtain ⟨a, b⟩ := hF.pen e p hp'
  have hl : p.length ≤ L := Nat.le_trans (nodup_length_le a b) hF.len
  have h1 := h.strand he
  rw [← hpa] at h1
  refine HoareE.bind ((strandedLoop_loc hL e p q (hn.mono (Nat.le_refl _) (by omega))).at ⟨h1, ⟨hF.ids, hF.grn, hF.pen, hF.len, hF.un, hF.ql⟩⟩) fun _ => ?_
  refine HoareE.getS fun s₁ h₁ => ?_
  obtain ⟨a1, a2, a3, a4, a5⟩ := h₁.sin e (by simp [top])
  refine HoareE.lookupE (fun hn => absurd hn a2) fun c hc => ?_
  refine HoareE.modS fun s₃ hs₃ => ?_
  subst hs₃
  refine HoareE.lookupE (fun hn => absurd hn a3) fun f hf => ?_
  refine HoareE.modS_last fun s hs => ?_
  subst hs
  exact ⟨h₁.scrub, List.eq_nil_iff_forall_not_mem.mpr fun x hx => by cases a5 x hx⟩

end IPP.Sched
