import Verif.Sched.LocProps

/-!
# How often a task is started (lemmas for `TriesProps.lean`)
-/
namespace IPP.Sched

/-! ## replies, real or made up, in one step -/

/-- a reply of an engine, or one made up for a dead engine -/
def isBack : Obs → Bool
  | .received .. => true
  | .stranded .. => true
  | _ => false

/-- The trace is an extension of `tr` without such replies. -/
def Still (tr : List Obs) (s : State) : Prop := ∃ r, s.trace = tr ++ r ∧ ∀ o ∈ r, isBack o = false

theorem Still.congr {tr : List Obs} {s s' : State} (h : Still tr s) (ht : s'.trace = s.trace) : Still tr s' := by
  obtain ⟨r, h1, h2⟩ := h
  exact ⟨r, ht ▸ h1, h2⟩

theorem Still.emit {tr : List Obs} {s s' : State} {o : Obs} (h : Still tr s) (ht : s'.trace = s.trace ++ [o]) (ho : isBack o = false) : Still tr s' := by
  obtain ⟨r, h1, h2⟩ := h
  refine ⟨r ++ [o], by rw [ht, h1]; simp, fun x hx => ?_⟩
  rcases List.mem_append.mp hx with hx | hx
  · exact h2 x hx
  · simp at hx; exact hx ▸ ho

theorem still_closed (cfg : Config) (ev : Event) (tr : List Obs) (hev : ∀ e m ok dm, ev ≠ .result e m ok dm) (hev' : ∀ e, ev ≠ .strandTimer e) : Closed cfg ev (Still tr) := by
  have hr : ∀ {s o e m ok dm}, ¬ IsReply ev s o e m ok dm := by
    intro s o e m ok dm ho
    rcases ho with ⟨_, h⟩ | ⟨_, _, _, h, _⟩
    · exact absurd h (hev _ _ _ _)
    · exact absurd h (hev' _)
  intro s s' hm h
  cases hm with
  | book hs => exact h.congr hs.trace
  | fail s' m why hs hok => exact Still.emit (s := s') (h.congr hs.trace) (o := .fail m why) rfl rfl
  | send m j idx target => exact h.emit (o := .send target m) (by simp) rfl
  | register e hev => exact h.emit (o := .registered e) rfl rfl
  | unregister e idx hev hidx => exact h.emit (o := .unregistered e) rfl rfl
  | strand e he => exact h.congr rfl
  | submit m sub hev => exact h.emit (o := .submitted m sub) rfl rfl
  | submitJob m sub j hev => exact h.emit (o := .submitted m sub) rfl rfl
  | recv e m ok dm o ho => exact (hr ho).elim
  | recvDec e m o r ho => exact (hr ho).elim
  | recvRetry e m o r s' ho hr' ht => exact (hr ho).elim
  | recvUnmet e m ok o s' ho ht => exact (hr ho).elim
  | recvRelay e m ok o r ho => exact (hr ho).elim
  | popPending => exact h.congr rfl
  | complete => exact h.congr rfl
  | failedBy => exact h.congr rfl

theorem dispatchResult_still (cfg : Config) (n : Nat) (tr : List Obs) (e : Engine) (m : MsgId) (ok dm : Bool) :
    Hoare (Still tr) (dispatchResult cfg n e m ok dm) (fun _ => Still tr) (Still tr) := by
  have hI := still_closed cfg (.jobTimer 0 0) tr (by simp) (by simp)
  have unmet : ∀ c, Hoare (Still tr) (handleUnmet cfg n e m c) (fun _ => Still tr) (Still tr) := by
    intro c s h
    refine handleUnmet_pres hI n e m c s (fun _ => h) (fun s' hs' => ?_) s rfl
    obtain ⟨p, j, _, _, _, rfl⟩ := takeBack_some hs'
    exact h.emit rfl rfl
  have res : Hoare (Still tr) (handleResult cfg n e m ok) (fun _ => Still tr) (Still tr) := by
    intro s h
    exact handleResult_pres hI n e m ok s (h.emit rfl rfl) s rfl
  unfold dispatchResult
  refine Hoare.getS fun s h => ?_
  dsimp only
  have rest : Hoare (Still tr) (if dm = true then
        lookupE (s.retries m) >>= fun r =>
          if (!ok) = true ∧ r > 0 then
            modS (fun s => { s with retries := upd s.retries m (some (r - 1)) }) >>= fun _ => handleUnmet cfg n e m .failure
          else
            modS (fun s => { s with retries := upd s.retries m none }) >>= fun _ => handleResult cfg n e m ok
       else handleUnmet cfg n e m .unmet) (fun _ => Still tr) (Still tr) := by
    refine Hoare.ite (fun _ => ?_) fun _ => unmet _
    refine Hoare.lookupE (fun _ s h => h) fun r hr => ?_
    refine Hoare.ite (fun _ => ?_) fun _ => ?_
    · exact Hoare.modS fun s h => (unmet _).pre fun s' h' => h' ▸ h.congr rfl
    · exact Hoare.modS fun s h => res.pre fun s' h' => h' ▸ h.congr rfl
  split
  · exact rest.pre fun s' h' => h' ▸ h
  · refine Hoare.modS fun s' h' => rest.pre fun s'' h'' => ?_
    subst h'' h'
    exact h.congr rfl

/-- an observation that `m` was stranded -/
def isStrandedOf (m : MsgId) : Obs → Bool
  | .stranded _ m' => m' = m
  | _ => false

/-- `tr` is extended by no replies of engines, and by at most `ms.count m` made up replies for each `m`, all for `e` -/
def Strands (e : Engine) (tr : List Obs) (ms : List MsgId) (s : State) : Prop :=
  ∃ r, s.trace = tr ++ r ∧ (∀ o ∈ r, isReceived o = false) ∧ (∀ m, r.countP (isStrandedOf m) ≤ ms.count m) ∧ ∀ e' m, Obs.stranded e' m ∈ r → e' = e

theorem strandedLoop_strands (cfg : Config) (n : Nat) (e : Engine) (ms : List MsgId) : ∀ (done : List MsgId) (tr : List Obs),
    Hoare (Strands e tr done) (strandedLoop cfg n e ms) (fun _ => Strands e tr (done ++ ms)) (Strands e tr (done ++ ms)) := by
  induction ms with
  | nil => intro done tr; exact Hoare.pure fun s h => by simpa using h
  | cons m ms ih =>
    intro done tr
    have mono : ∀ s, Strands e tr done s → Strands e tr (done ++ m :: ms) s := by
      rintro s ⟨r, h1, h2, h3, h4⟩
      refine ⟨r, h1, h2, fun x => Nat.le_trans (h3 x) ?_, h4⟩
      rw [List.count_append]; exact Nat.le_add_right _ _
    have mono1 : ∀ s, Strands e tr done s → Strands e tr (done ++ [m]) s := by
      rintro s ⟨r, h1, h2, h3, h4⟩
      refine ⟨r, h1, h2, fun x => Nat.le_trans (h3 x) ?_, h4⟩
      rw [List.count_append]; exact Nat.le_add_right _ _
    have ih' := ih (done ++ [m]) tr
    rw [List.append_assoc] at ih'
    unfold strandedLoop
    refine Hoare.getS fun s h => ?_
    refine Hoare.lookupE (fun _ s' h' => mono s' (h' ▸ h)) fun lost hl => ?_
    dsimp only
    refine Hoare.ite (fun _ => ?_) fun _ => ih'.pre fun s' h' => mono1 _ (h' ▸ h)
    obtain ⟨r, h1, h2, h3, h4⟩ := h
    unfold emit
    refine Hoare.modS fun s₁ hs₁ => ?_
    subst hs₁
    refine Hoare.bind (R := fun _ => Strands e tr (done ++ [m])) ?_ (fun _ => ih')
    intro s₂ hs₂
    subst hs₂
    have hst := dispatchResult_still cfg n (s₁.trace ++ [.stranded e m]) e m false true { s₁ with trace := s₁.trace ++ [.stranded e m] } ⟨[], by simp, by simp⟩
    have fin : Still (s₁.trace ++ [.stranded e m]) ((dispatchResult cfg n e m false true { s₁ with trace := s₁.trace ++ [.stranded e m] }).2) := by
      rcases hx : dispatchResult cfg n e m false true { s₁ with trace := s₁.trace ++ [.stranded e m] } with ⟨a, s''⟩
      rw [hx] at hst
      cases a <;> exact hst
    show Strands e tr (done ++ [m]) _
    obtain ⟨r', k1, k2⟩ := fin
    refine ⟨r ++ [.stranded e m] ++ r', by rw [k1, h1]; simp, ?_, ?_, ?_⟩
    · intro o ho
      rcases List.mem_append.mp ho with ho | ho
      · rcases List.mem_append.mp ho with ho | ho
        · exact h2 o ho
        · simp at ho; subst ho; rfl
      · have := k2 o ho
        cases o <;> simp_all [isBack, isReceived]
    · intro x
      have hz : r'.countP (isStrandedOf x) = 0 := by
        rw [List.countP_eq_zero]
        intro o ho
        have := k2 o ho
        cases o <;> simp_all [isBack, isStrandedOf]
      rw [List.countP_append, List.countP_append, hz, List.count_append]
      have := h3 x
      simp only [List.countP_cons, List.countP_nil, isStrandedOf, List.count_cons, List.count_nil, decide_eq_true_eq, beq_iff_eq]
      omega
    · intro e' m' ho
      rcases List.mem_append.mp ho with ho | ho
      · rcases List.mem_append.mp ho with ho | ho
        · exact h4 _ _ ho
        · simp at ho; exact ho.1
      · have := k2 _ ho; simp [isBack] at this

theorem Strands.still {e : Engine} {tr : List Obs} {ms : List MsgId} {s s' : State} (h : Strands e tr ms s) (ht : s'.trace = s.trace) : Strands e tr ms s' := by
  obtain ⟨r, h1, h2⟩ := h
  exact ⟨r, ht ▸ h1, h2⟩

theorem handleStranded_strands (cfg : Config) (n : Nat) (e : Engine) (s₀ : State) :
    Hoare (fun s => s = s₀) (handleStranded cfg n e) (fun _ => Strands e s₀.trace ((s₀.pending e).getD [])) (Strands e s₀.trace ((s₀.pending e).getD [])) := by
  unfold handleStranded
  have h0 : ∀ ms, Strands e s₀.trace ms s₀ := fun ms => ⟨[], by simp, by simp, by simp, by simp⟩
  refine Hoare.getS fun s h => ?_
  subst h
  refine Hoare.lookupE (fun _ s' h' => h' ▸ h0 _) fun lost hl => ?_
  have hg : (s.pending e).getD [] = lost := by simp [hl]
  rw [hg]
  refine Hoare.bind (R := fun _ => Strands e s.trace lost) ?_ fun _ => ?_
  · have := strandedLoop_strands cfg n e lost [] s.trace
    simp only [List.nil_append] at this
    exact this.pre fun s' h' => h' ▸ h0 _
  · refine Hoare.getS fun s₁ h₁ => ?_
    refine Hoare.lookupE (fun _ s' h' => h' ▸ h₁) fun c hc => ?_
    refine Hoare.modS fun s₂ h₂ => ?_
    refine Hoare.lookupE (fun _ s' h' => ?_) fun f hf => ?_
    · subst h' h₂; exact h₁.still rfl
    · refine Hoare.modS_last fun s' h' => ?_
      subst h' h₂; exact h₁.still rfl

/-- What one event adds to the trace, as far as replies are concerned. -/
inductive Adds (cfg : Config) (s : State) (ev : Event) : Prop
  | reply (e : Engine) (m : MsgId) (ok dm : Bool) (h : ev = .result e m ok dm) (r : List Obs) (ht : (step cfg s ev).trace = s.trace ++ .received e m ok dm :: r)
      (hr : ∀ o ∈ r, isBack o = false)
  | strand (e : Engine) (h : ev = .strandTimer e) (he : e ∈ s.strandTimers) (hs : Strands e s.trace ((s.pending e).getD []) (step cfg s ev))
  | quiet (hq : ∀ e m ok dm, ev ≠ .result e m ok dm) (r : List Obs) (ht : (step cfg s ev).trace = s.trace ++ r) (hr : ∀ o ∈ r, isBack o = false)

theorem adds (cfg : Config) (s : State) (ev : Event) (hf : FreshIn s ev) : Adds cfg s ev := by
  by_cases hev : ∃ e m ok dm, ev = .result e m ok dm
  · obtain ⟨e, m, ok, dm, rfl⟩ := hev
    have : Still (s.trace ++ [.received e m ok dm]) (step cfg s (.result e m ok dm)) := by
      refine Hoare.final (P := fun s' => s' = s) (I := Still (s.trace ++ [.received e m ok dm])) ?_ rfl
      show Hoare _ (emit _ >>= fun _ => dispatchResult cfg _ e m ok dm) _ _
      unfold emit
      refine Hoare.modS fun s h => (dispatchResult_still cfg _ _ e m ok dm).pre fun s' h' => ?_
      subst h' h
      exact ⟨[], by simp, by simp⟩
    obtain ⟨r, h1, h2⟩ := this
    exact .reply e m ok dm rfl r (by rw [h1]; simp) h2
  · by_cases hst : ∃ e, ev = .strandTimer e
    · obtain ⟨e, rfl⟩ := hst
      by_cases he : e ∈ s.strandTimers
      · refine .strand e rfl he ?_
        have h2 := (handleStranded_strands cfg (fuelFor s) e { s with strandTimers := s.strandTimers.erase e }).final (s := { s with strandTimers := s.strandTimers.erase e }) rfl
        have : step cfg s (.strandTimer e) = (handleStranded cfg (fuelFor s) e { s with strandTimers := s.strandTimers.erase e }).2 := by
          show ((if e ∈ s.strandTimers then (do modS (fun s => { s with strandTimers := s.strandTimers.erase e }); handleStranded cfg (fuelFor s) e) else pure () : M Unit) s).2 = _
          rw [if_pos he]
          rfl
        rw [this]
        exact h2
      · have : step cfg s (.strandTimer e) = s := by
          show ((if e ∈ s.strandTimers then (do modS (fun s => { s with strandTimers := s.strandTimers.erase e }); handleStranded cfg (fuelFor s) e) else pure () : M Unit) s).2 = _
          rw [if_neg he]
          rfl
        exact .quiet (by simp) [] (by rw [this]; simp) (by simp)
    · have hn : ∀ e m ok dm, ev ≠ .result e m ok dm := fun e m ok dm h => hev ⟨e, m, ok, dm, h⟩
      obtain ⟨r, h1, h2⟩ := step_pres (still_closed cfg ev s.trace hn (fun e h => hst ⟨e, h⟩)) s ⟨[], by simp, by simp⟩ hf
      exact .quiet hn r h1 h2

/-! ## the engines that hold a task -/

/-- the engines that hold task `m`: it was sent to them, and not answered or given up since -/
def holders (m : MsgId) (tr : List Obs) : List Engine := tr.foldl (fun l o => match o with
  | .send e m' => if m' = m then l ++ [e] else l
  | .received e m' _ _ => if m' = m then l.erase e else l
  | .stranded e m' => if m' = m then l.erase e else l
  | _ => l) []

theorem holders_snoc (m : MsgId) (tr : List Obs) (o : Obs) : holders m (tr ++ [o]) = (match o with
  | .send e m' => if m' = m then holders m tr ++ [e] else holders m tr
  | .received e m' _ _ => if m' = m then (holders m tr).erase e else holders m tr
  | .stranded e m' => if m' = m then (holders m tr).erase e else holders m tr
  | _ => holders m tr) := by
  simp only [holders, List.foldl_append, List.foldl_cons, List.foldl_nil]

theorem count_holders (m : MsgId) (e : Engine) (tr : List Obs) : (holders m tr).count e = (assigned e tr).count m := by
  induction tr using snoc_induction with
  | nil => rfl
  | snoc tr o ih =>
    rw [holders_snoc, assigned_snoc]
    cases o with
    | send e' m' =>
      dsimp only
      by_cases h1 : m' = m <;> by_cases h2 : e' = e <;> simp [h1, h2, List.count_append, ih]
    | received e' m' ok dm =>
      dsimp only
      by_cases h1 : m' = m <;> by_cases h2 : e' = e <;> simp [h1, h2, List.count_erase, ih]
    | stranded e' m' =>
      dsimp only
      by_cases h1 : m' = m <;> by_cases h2 : e' = e <;> simp [h1, h2, List.count_erase, ih]
    | _ => exact ih

end IPP.Sched
