import Verif.Client.Output
/-!
# What a user may rely on about collected output (property C60)
-/
namespace IPP.Output
variable {I : Type} [DecidableEq I]

/-! ### lists of messages -/

theorem pubs_append (m : I) (a b : List (Ev I)) : pubs m (a ++ b) = pubs m a ++ pubs m b := by simp [pubs]
theorem replies_append (m : I) (a b : List (Ev I)) : replies m (a ++ b) = replies m a ++ replies m b := by simp [replies]
theorem run_append (a : List (Ev I)) (e : Ev I) : run (a ++ [e]) = step (run a) e := by simp [run]

theorem silent_eq : silentReply = Kind.noOutput := by
  funext k; cases k <;> rfl

/-! ### bookkeeping -/

/-- the objects in the client's table are allocated and not shared -/
structure Wf (s : St I) : Prop where
  lt : ∀ m r, s.metadata m = some r → r < s.next
  inj : ∀ m m' r, s.metadata m = some r → s.metadata m' = some r → m = m'

theorem wf_touch {s : St I} (h : Wf s) (m : I) : Wf (touch s m).1 := by
  unfold touch
  split
  · exact h
  · constructor
    · intro m' r hr
      simp only [set] at hr ⊢
      split at hr
      · cases hr; omega
      · have := h.lt m' r hr; omega
    · intro m1 m2 r h1 h2
      simp only [set] at h1 h2
      split at h1
      · split at h2
        · simp_all
        · cases h1; exact absurd (h.lt _ _ h2) (by omega)
      · split at h2
        · cases h2; exact absurd (h.lt _ _ h1) (by omega)
        · exact h.inj _ _ _ h1 h2

theorem touch_spec (s : St I) (m : I) : (touch s m).1.metadata m = some (touch s m).2 := by
  unfold touch
  split
  · assumption
  · simp [set]

theorem wf_cleanup {s : St I} (h : Wf s) (m : I) : Wf (cleanup s m) := by
  constructor
  · intro m' r hr
    simp only [cleanup, set] at hr ⊢
    split at hr
    · cases hr
    · exact h.lt _ _ hr
  · intro m1 m2 r h1 h2
    simp only [cleanup, set] at h1 h2
    split at h1
    · cases h1
    · split at h2
      · cases h2
      · exact h.inj _ _ _ h1 h2

theorem wf_resolveOutput {s : St I} (h : Wf s) (m : I) : Wf (resolveOutput s m) := by
  unfold resolveOutput
  split
  · dsimp only
    split
    · apply wf_cleanup; exact ⟨h.lt, h.inj⟩
    · exact ⟨h.lt, h.inj⟩
  · exact h

theorem wf_resolveResult {s : St I} (h : Wf s) (m : I) (b : Bool) : Wf (resolveResult s m b) := by
  unfold resolveResult
  split
  · dsimp only
    split
    · apply wf_cleanup; exact ⟨h.lt, h.inj⟩
    · exact ⟨h.lt, h.inj⟩
  · exact h

theorem wf_foldl_cleanup (ms : List I) : ∀ {s : St I}, Wf s → Wf (ms.foldl cleanup s) := by
  induction ms with
  | nil => intro s h; exact h
  | cons m ms ih => intro s h; exact ih (wf_cleanup h m)

theorem wf_step {s : St I} (h : Wf s) (e : Ev I) : Wf (step s e) := by
  cases e with
  | send m =>
    have := wf_touch (s := { s with outstanding := set s.outstanding m true, history := set s.history m true, futures := set s.futures m true, outputFutures := set s.outputFutures m true }) ⟨h.lt, h.inj⟩ m
    exact ⟨this.lt, this.inj⟩
  | iopub own m p =>
    simp only [step, iopub]
    split
    · exact h
    · split
      · exact h
      · exact h
      · exact wf_resolveOutput h m
      · have := wf_touch h m
        exact ⟨this.lt, this.inj⟩
  | reply ex m k =>
    simp only [step, reply]
    split
    · exact h
    · apply wf_resolveResult
      have ht := wf_touch (s := { s with outstanding := set s.outstanding m false }) ⟨h.lt, h.inj⟩ m
      split
      · apply wf_resolveOutput; exact ⟨ht.lt, ht.inj⟩
      · exact ⟨ht.lt, ht.inj⟩
  | popResult m => exact ⟨h.lt, h.inj⟩
  | purge ms =>
    simp only [step, purge]
    split
    · exact h
    · exact wf_foldl_cleanup ms h

theorem wf_run (evs : List (Ev I)) : Wf (run evs) := by
  have : ∀ (evs : List (Ev I)) (s : St I), Wf s → Wf (evs.foldl step s) := by
    intro evs
    induction evs with
    | nil => intro s h; exact h
    | cons e evs ih => intro s h; exact ih _ (wf_step h e)
  exact this evs _ ⟨by simp, by simp⟩

/-! ### one request -/

/-- the request is still in the client's caches -/
structure Live (s : St I) (m : I) (r : Nat) : Prop where
  held : s.held m = some r
  table : s.metadata m = some r
  fut : s.futures m = true
  out : s.outputFutures m = true
  lt : r < s.next

/-- the request is no longer in the caches; its `AsyncResult` still holds the object, and nobody else does -/
structure Gone (s : St I) (m : I) (r : Nat) : Prop where
  held : s.held m = some r
  table : ∀ m', s.metadata m' ≠ some r
  fut : s.futures m = false
  out : s.outputFutures m = false
  lt : r < s.next

theorem setObj_ne {h : Nat → Md} {r x : Nat} {v : Md} (hne : x ≠ r) : setObj h r v x = h x := by simp [setObj, hne]
theorem setObj_eq {h : Nat → Md} {r : Nat} {v : Md} : setObj h r v r = v := by simp [setObj]
theorem set_eq {α} {f : I → α} {m : I} {v : α} : set f m v m = v := by simp [set]
theorem set_ne {α} {f : I → α} {m x : I} {v : α} (h : x ≠ m) : set f m v x = f x := by simp [set, h]

/-- what an event leaves alone about request `m` -/
structure Same (s s' : St I) (m : I) (r : Nat) : Prop where
  held : s'.held m = s.held m
  fut : s'.futures m = s.futures m
  out : s'.outputFutures m = s.outputFutures m
  outst : s'.outstanding m = s.outstanding m
  hist : s'.history m = s.history m
  res : s'.resDone m = s.resDone m
  outD : s'.outDone m = s.outDone m
  obj : s'.heap r = s.heap r
  le : s.next ≤ s'.next
  table : s'.metadata m = s.metadata m
  others : ∀ m', s.metadata m' ≠ some r → s'.metadata m' ≠ some r

theorem Same.refl (s : St I) (m : I) (r : Nat) : Same s s m r := ⟨rfl, rfl, rfl, rfl, rfl, rfl, rfl, rfl, Nat.le_refl _, rfl, fun _ h => h⟩

theorem Same.trans {s1 s2 s3 : St I} {m : I} {r : Nat} (a : Same s1 s2 m r) (b : Same s2 s3 m r) : Same s1 s3 m r where
  held := b.held.trans a.held
  fut := b.fut.trans a.fut
  out := b.out.trans a.out
  outst := b.outst.trans a.outst
  hist := b.hist.trans a.hist
  res := b.res.trans a.res
  outD := b.outD.trans a.outD
  obj := b.obj.trans a.obj
  le := Nat.le_trans a.le b.le
  table := b.table.trans a.table
  others := fun m' h => b.others m' (a.others m' h)

theorem same_touch (s : St I) {m m' : I} (hm : m ≠ m') {r : Nat} (hr : r < s.next) : Same s (touch s m').1 m r := by
  unfold touch
  split
  · exact Same.refl s m r
  · refine ⟨rfl, rfl, rfl, rfl, rfl, rfl, rfl, ?_, Nat.le_succ _, ?_, ?_⟩
    · exact setObj_ne (by omega)
    · exact set_ne hm
    · intro x hx
      simp only [set]
      split
      · intro e; cases e; omega
      · exact hx

theorem same_cleanup (s : St I) {m m' : I} (hm : m ≠ m') (r : Nat) : Same s (cleanup s m') m r := by
  refine ⟨rfl, set_ne hm, set_ne hm, rfl, rfl, rfl, rfl, rfl, Nat.le_refl _, set_ne hm, ?_⟩
  intro x hx
  simp only [cleanup, set]
  split
  · simp
  · exact hx

theorem same_resolveOutput (s : St I) {m m' : I} (hm : m ≠ m') (r : Nat) : Same s (resolveOutput s m') m r := by
  unfold resolveOutput
  split
  · dsimp only
    have h1 : Same s { s with outDone := set s.outDone m' true } m r := ⟨rfl, rfl, rfl, rfl, rfl, rfl, set_ne hm, rfl, Nat.le_refl _, rfl, fun _ h => h⟩
    split
    · exact h1.trans (same_cleanup _ hm r)
    · exact h1
  · exact Same.refl s m r

theorem same_resolveResult (s : St I) {m m' : I} (hm : m ≠ m') (r : Nat) (b : Bool) : Same s (resolveResult s m' b) m r := by
  unfold resolveResult
  split
  · dsimp only
    have h1 : Same s { s with resDone := set s.resDone m' true } m r := ⟨rfl, rfl, rfl, rfl, rfl, set_ne hm, rfl, rfl, Nat.le_refl _, rfl, fun _ h => h⟩
    split
    · exact h1.trans (same_cleanup _ hm r)
    · exact h1
  · exact Same.refl s m r

/-- the event is about request `m` -/
def about (m : I) : Ev I → Bool
  | .send m' => m' = m
  | .iopub own m' _ => own && (m' = m)
  | .reply _ m' _ => m' = m
  | .popResult _ => false
  | .purge ms => m ∈ ms

theorem same_purge (ms : List I) (m : I) (hm : m ∉ ms) (r : Nat) : ∀ s : St I, Same s (ms.foldl cleanup s) m r := by
  induction ms with
  | nil => intro s; exact Same.refl s m r
  | cons a ms ih =>
    intro s
    exact (same_cleanup s (fun e => hm (by simp [e])) r).trans (ih (fun h => hm (List.mem_cons_of_mem _ h)) _)

/-- an event about other requests changes nothing -/
theorem same_step (s : St I) (e : Ev I) {m : I} (he : about m e = false) {r : Nat} (hr : r < s.next)
    (hown : ∀ m', s.metadata m' = some r → m' = m) : Same s (step s e) m r := by
  cases e with
  | send m' =>
    simp only [about, decide_eq_false_iff_not] at he
    have hm : m ≠ m' := fun h => he h.symm
    have h1 : Same s { s with outstanding := set s.outstanding m' true, history := set s.history m' true, futures := set s.futures m' true, outputFutures := set s.outputFutures m' true } m r :=
      ⟨rfl, set_ne hm, set_ne hm, set_ne hm, set_ne hm, rfl, rfl, rfl, Nat.le_refl _, rfl, fun _ h => h⟩
    have h2 := h1.trans (same_touch _ hm hr)
    exact ⟨(set_ne hm).trans h2.held, h2.fut, h2.out, h2.outst, h2.hist, h2.res, h2.outD, h2.obj, h2.le, h2.table, h2.others⟩
  | iopub own m' p =>
    simp only [step, iopub]
    split
    · exact Same.refl s m r
    · rename_i ho
      have ho' : own = true := by cases own <;> simp_all
      subst ho'
      simp only [about, Bool.true_and, decide_eq_false_iff_not] at he
      have hm : m ≠ m' := fun h => he h.symm
      split
      · exact Same.refl s m r
      · exact Same.refl s m r
      · exact same_resolveOutput s hm r
      · have h2 := same_touch s hm hr
        have hne : r ≠ (touch s m').2 := by
          intro e
          have h3 := touch_spec s m'
          rw [← e] at h3
          by_cases h4 : s.metadata m' = some r
          · exact hm (hown _ h4).symm
          · exact h2.others _ h4 h3
        exact ⟨h2.held, h2.fut, h2.out, h2.outst, h2.hist, h2.res, h2.outD, (setObj_ne hne).trans h2.obj, h2.le, h2.table, h2.others⟩
  | reply ex m' k =>
    simp only [about, decide_eq_false_iff_not] at he
    have hm : m ≠ m' := fun h => he h.symm
    simp only [step, reply]
    split
    · exact Same.refl s m r
    · have h1 : Same s { s with outstanding := set s.outstanding m' false } m r := ⟨rfl, rfl, rfl, set_ne hm, rfl, rfl, rfl, rfl, Nat.le_refl _, rfl, fun _ h => h⟩
      have h2 := h1.trans (same_touch _ hm hr)
      refine Same.trans ?_ (same_resolveResult _ hm r _)
      have h3 : Same s { (touch { s with outstanding := set s.outstanding m' false } m').1 with results := set (touch { s with outstanding := set s.outstanding m' false } m').1.results m' true } m r := ⟨h2.held, h2.fut, h2.out, h2.outst, h2.hist, h2.res, h2.outD, h2.obj, h2.le, h2.table, h2.others⟩
      split
      · exact h3.trans (same_resolveOutput _ hm r)
      · exact h3
  | popResult m' => exact ⟨rfl, rfl, rfl, rfl, rfl, rfl, rfl, rfl, Nat.le_refl _, rfl, fun _ h => h⟩
  | purge ms =>
    simp only [about, decide_eq_false_iff_not] at he
    simp only [step, purge]
    split
    · exact Same.refl s m r
    · exact same_purge ms m he r s

/-- what is true of a request after its submission: `post` is what has happened since -/
structure Inv (m : I) (post : List (Ev I)) (s : St I) (r : Nat) : Prop where
  wf : Wf s
  hist : s.history m = true
  outst : s.outstanding m = (replies m post).isEmpty
  res : s.resDone m = !(replies m post).isEmpty
  sound : s.outDone m = true → idle m post = true ∨ (replies m post).any Kind.noOutput = true
  state : (Live s m r ∧ ¬ (s.resDone m = true ∧ s.outDone m = true) ∧ (idle m post = true → s.outDone m = true) ∧
      (∀ k, (replies m post).head? = some k → k.noOutput = true → s.outDone m = true)) ∨
    (Gone s m r ∧ s.resDone m = true ∧ (s.outDone m = true ∨ purged m post = true))

theorem idle_append (m : I) (a b : List (Ev I)) : idle m (a ++ b) = (idle m a || idle m b) := by simp [idle, pubs_append]
theorem purged_append (m : I) (a b : List (Ev I)) : purged m (a ++ b) = (purged m a || purged m b) := by simp [purged]

theorem Inv.own {m : I} {post : List (Ev I)} {s : St I} {r : Nat} (h : Inv m post s r) : ∀ m', s.metadata m' = some r → m' = m := by
  intro m' hm'
  rcases h.state with ⟨hl, _⟩ | ⟨hg, _⟩
  · exact h.wf.inj _ _ _ hm' hl.table
  · exact absurd hm' (hg.table m')

theorem Inv.lt {m : I} {post : List (Ev I)} {s : St I} {r : Nat} (h : Inv m post s r) : r < s.next := by
  rcases h.state with ⟨hl, _⟩ | ⟨hg, _⟩
  · exact hl.lt
  · exact hg.lt

/-- events that are not about the request -/
theorem Inv.other {m : I} {post : List (Ev I)} {s : St I} {r : Nat} (h : Inv m post s r) {e : Ev I} (he : about m e = false) :
    Inv m (post ++ [e]) (step s e) r ∧ (step s e).heap r = s.heap r := by
  have hs := same_step s e he h.lt h.own
  have hp : pubs m [e] = [] := by
    cases e with
    | iopub own m' p => cases own <;> simp_all [pubs, about]
    | _ => simp [pubs]
  have hr : replies m [e] = [] := by
    cases e with
    | reply ex m' k => simp_all [replies, about]
    | _ => simp [replies]
  have hi : idle m (post ++ [e]) = idle m post := by simp [idle, pubs_append, hp]
  have hr' : replies m (post ++ [e]) = replies m post := by simp [replies_append, hr]
  have hpu : purged m (post ++ [e]) = purged m post := by
    rw [purged_append]
    have : purged m [e] = false := by
      cases e with
      | purge ms => simp_all [purged, about]
      | _ => simp [purged]
    simp [this]
  refine ⟨⟨wf_step h.wf e, hs.hist.trans h.hist, ?_, ?_, ?_, ?_⟩, hs.obj⟩
  · rw [hs.outst, hr', h.outst]
  · rw [hs.res, hr', h.res]
  · rw [hs.outD, hi, hr']; exact h.sound
  · rw [hi, hr', hpu, hs.outD, hs.res]
    rcases h.state with ⟨hl, h2⟩ | ⟨hg, h2⟩
    · exact .inl ⟨⟨hs.held.trans hl.held, hs.table.trans hl.table, hs.fut.trans hl.fut, hs.out.trans hl.out, Nat.lt_of_lt_of_le hl.lt hs.le⟩, h2⟩
    · exact .inr ⟨⟨hs.held.trans hg.held, fun m' => hs.others m' (hg.table m'), hs.fut.trans hg.fut, hs.out.trans hg.out, Nat.lt_of_lt_of_le hg.lt hs.le⟩, h2⟩

/-- the state after a request has become complete -/
theorem gone_cleanup {s : St I} {m : I} {r : Nat} (hw : Wf s) (hl : Live s m r) : Gone (cleanup s m) m r := by
  refine ⟨hl.held, ?_, set_eq, set_eq, hl.lt⟩
  intro m' h
  simp only [cleanup, set] at h
  split at h
  · cases h
  · rename_i hne
    exact hne (hw.inj _ _ _ h hl.table)

/-- output of a request that is in the caches -/
theorem Inv.live_pub {m : I} {post : List (Ev I)} {s : St I} {r : Nat} (h : Inv m post s r) (hl : Live s m r) {p : Pub} (hp : ∀ b, p ≠ .status b) :
    Inv m (post ++ [.iopub true m p]) (step s (.iopub true m p)) r ∧ (step s (.iopub true m p)).heap r = (s.heap r).add p := by
  have hstep : step s (.iopub true m p) = { s with heap := setObj s.heap r ((s.heap r).add p) } := by
    simp only [step, iopub]
    cases p <;> simp_all [touch, hl.table]
  have hi : idle m (post ++ [.iopub true m p]) = idle m post := by simp [idle, pubs_append, pubs, hp]
  have hr' : replies m (post ++ [.iopub true m p]) = replies m post := by simp [replies_append, replies]
  have hpu : purged m (post ++ [.iopub true m p]) = purged m post := by simp [purged]
  rw [hstep]
  refine ⟨⟨⟨h.wf.lt, h.wf.inj⟩, h.hist, hr' ▸ h.outst, hr' ▸ h.res, hi ▸ hr' ▸ h.sound, ?_⟩, setObj_eq⟩
  rw [hi, hr', hpu]
  rcases h.state with ⟨hl, h2⟩ | ⟨hg, h2⟩
  · exact .inl ⟨⟨hl.held, hl.table, hl.fut, hl.out, hl.lt⟩, h2⟩
  · exact .inr ⟨⟨hg.held, hg.table, hg.fut, hg.out, hg.lt⟩, h2⟩

theorem Inv.live_busy {m : I} {post : List (Ev I)} {s : St I} {r : Nat} (h : Inv m post s r) (hl : Live s m r) :
    Inv m (post ++ [.iopub true m (.status false)]) (step s (.iopub true m (.status false))) r ∧ (step s (.iopub true m (.status false))).heap r = s.heap r := by
  have hstep : step s (.iopub true m (.status false)) = s := by
    simp [step, iopub, hl.table]
  have hi : idle m (post ++ [.iopub true m (.status false)]) = idle m post := by simp [idle, pubs_append, pubs]
  have hr' : replies m (post ++ [.iopub true m (.status false)]) = replies m post := by simp [replies_append, replies]
  have hpu : purged m (post ++ [.iopub true m (.status false)]) = purged m post := by simp [purged]
  rw [hstep]
  exact ⟨⟨h.wf, h.hist, hr' ▸ h.outst, hr' ▸ h.res, hi ▸ hr' ▸ h.sound, by rw [hi, hr', hpu]; exact h.state⟩, rfl⟩

theorem Inv.live_idle {m : I} {post : List (Ev I)} {s : St I} {r : Nat} (h : Inv m post s r) (hl : Live s m r) :
    Inv m (post ++ [.iopub true m (.status true)]) (step s (.iopub true m (.status true))) r ∧ (step s (.iopub true m (.status true))).heap r = s.heap r := by
  have hstep : step s (.iopub true m (.status true)) = resolveOutput s m := by
    simp [step, iopub, hl.table]
  have hi : idle m (post ++ [.iopub true m (.status true)]) = true := by simp [idle, pubs_append, pubs]
  have hr' : replies m (post ++ [.iopub true m (.status true)]) = replies m post := by simp [replies_append, replies]
  have hnl : ¬ (s.resDone m = true ∧ s.outDone m = true) := by
    rcases h.state with ⟨_, h2, _⟩ | ⟨hg, _⟩
    · exact h2
    · exact absurd hl.table (hg.table m)
  rw [hstep]
  have hwf := wf_resolveOutput h.wf m
  by_cases ho : s.outDone m = true
  · have he : resolveOutput s m = s := by simp [resolveOutput, ho]
    rw [he]
    refine ⟨⟨h.wf, h.hist, hr' ▸ h.outst, hr' ▸ h.res, fun _ => .inl hi, .inl ⟨hl, hnl, fun _ => ho, fun _ _ _ => ho⟩⟩, rfl⟩
  · by_cases hres : s.resDone m = true
    · have he : resolveOutput s m = cleanup { s with outDone := set s.outDone m true } m := by simp [resolveOutput, ho, hl.out, hres]
      rw [he] at hwf ⊢
      have hg := gone_cleanup (s := { s with outDone := set s.outDone m true }) ⟨h.wf.lt, h.wf.inj⟩ ⟨hl.held, hl.table, hl.fut, hl.out, hl.lt⟩
      refine ⟨⟨hwf, h.hist, hr' ▸ h.outst, hr' ▸ h.res, fun _ => .inl hi, .inr ⟨hg, hres, .inl set_eq⟩⟩, rfl⟩
    · have he : resolveOutput s m = { s with outDone := set s.outDone m true } := by simp [resolveOutput, ho, hl.out, hres]
      rw [he] at hwf ⊢
      refine ⟨⟨hwf, h.hist, hr' ▸ h.outst, hr' ▸ h.res, fun _ => .inl hi, .inl ⟨⟨hl.held, hl.table, hl.fut, hl.out, hl.lt⟩, fun hx => hres hx.1, fun _ => set_eq, fun _ _ _ => set_eq⟩⟩, rfl⟩

/-- output of a request that is no longer in the caches -/
theorem Inv.gone_pub {m : I} {post : List (Ev I)} {s : St I} {r : Nat} (h : Inv m post s r) (hg : Gone s m r) (hres : s.resDone m = true)
    (hp : s.outDone m = true ∨ purged m post = true) (p : Pub) :
    Inv m (post ++ [.iopub true m p]) (step s (.iopub true m p)) r ∧ (step s (.iopub true m p)).heap r = s.heap r := by
  have hr' : replies m (post ++ [.iopub true m p]) = replies m post := by simp [replies_append, replies]
  have hpu : purged m (post ++ [.iopub true m p]) = purged m post := by simp [purged]
  have hwf := wf_step h.wf (.iopub true m p)
  have hmono : idle m post = true → idle m (post ++ [.iopub true m p]) = true := by
    intro hx; simp [idle_append, hx]
  have key : ∃ (hp : Nat → Md) (n : Nat) (md : I → Option Nat), step s (.iopub true m p) = { s with heap := hp, next := n, metadata := md } ∧
      hp r = s.heap r ∧ r < n ∧ ∀ m', md m' ≠ some r := by
    simp only [step, iopub]
    rw [if_neg (by simp)]
    split
    · exact ⟨_, _, _, rfl, rfl, hg.lt, hg.table⟩
    · exact ⟨_, _, _, rfl, rfl, hg.lt, hg.table⟩
    · refine ⟨s.heap, s.next, s.metadata, ?_, rfl, hg.lt, hg.table⟩
      simp [resolveOutput, hg.out]
    · simp only [touch]
      cases hm : s.metadata m with
      | some r' =>
        have hne : r ≠ r' := fun e => hg.table m (by rw [hm, e])
        exact ⟨_, _, _, rfl, setObj_ne hne, hg.lt, hg.table⟩
      | none =>
        have hlt := hg.lt
        refine ⟨_, _, _, rfl, (setObj_ne (by dsimp only; omega)).trans (setObj_ne (by omega)), by dsimp only; omega, ?_⟩
        intro m' e
        simp only [set] at e
        split at e
        · cases e; omega
        · exact hg.table m' e
  rcases key with ⟨hp', n, md, hstep, h1, h2, h3⟩
  rw [hstep] at hwf ⊢
  refine ⟨⟨hwf, h.hist, hr' ▸ h.outst, hr' ▸ h.res, ?_, .inr ⟨⟨hg.held, h3, hg.fut, hg.out, h2⟩, hres, hpu ▸ hp⟩⟩, h1⟩
  intro ho
  rcases h.sound ho with h4 | h4
  · exact .inl (hmono h4)
  · exact .inr (hr' ▸ h4)

theorem cleanup_foldl_not_mem {ms : List I} {m : I} (h : m ∈ ms) : ∀ s : St I,
    (ms.foldl cleanup s).metadata m = none ∧ (ms.foldl cleanup s).futures m = false ∧ (ms.foldl cleanup s).outputFutures m = false := by
  induction ms with
  | nil => simp at h
  | cons a ms ih =>
    intro s
    by_cases hm : m ∈ ms
    · exact ih hm _
    · have ha : a = m := by rcases List.mem_cons.1 h with h | h; exact h.symm; exact absurd h hm
      subst ha
      have hs := same_purge ms a hm 0 (cleanup s a)
      exact ⟨hs.table.trans set_eq, hs.fut.trans set_eq, hs.out.trans set_eq⟩

theorem foldl_cleanup_fixed (ms : List I) : ∀ s : St I, (ms.foldl cleanup s).held = s.held ∧ (ms.foldl cleanup s).heap = s.heap ∧ (ms.foldl cleanup s).next = s.next ∧
    (ms.foldl cleanup s).outstanding = s.outstanding ∧ (ms.foldl cleanup s).history = s.history ∧ (ms.foldl cleanup s).resDone = s.resDone ∧
    (ms.foldl cleanup s).outDone = s.outDone ∧ ∀ m r, (ms.foldl cleanup s).metadata m = some r → s.metadata m = some r := by
  induction ms with
  | nil => intro s; simp
  | cons a ms ih =>
    intro s
    rcases ih (cleanup s a) with ⟨h1, h2, h3, h4, h5, h6, h7, h8⟩
    refine ⟨h1, h2, h3, h4, h5, h6, h7, ?_⟩
    intro m r hm
    have := h8 m r hm
    simp only [cleanup, set] at this
    split at this
    · cases this
    · exact this

theorem Inv.purge {m : I} {post : List (Ev I)} {s : St I} {r : Nat} (h : Inv m post s r) {ms : List I} (hm : m ∈ ms) :
    Inv m (post ++ [.purge ms]) (step s (.purge ms)) r ∧ (step s (.purge ms)).heap r = s.heap r := by
  have hr' : replies m (post ++ [.purge ms]) = replies m post := by simp [replies_append, replies]
  have hi : idle m (post ++ [.purge ms]) = idle m post := by simp [idle, pubs_append, pubs]
  have hpu : purged m (post ++ [.purge ms]) = true := by simp [purged, hm]
  have hwf := wf_step h.wf (.purge ms)
  simp only [step, IPP.Output.purge] at hwf ⊢
  split
  · refine ⟨⟨h.wf, h.hist, hr' ▸ h.outst, hr' ▸ h.res, hi ▸ hr' ▸ h.sound, ?_⟩, rfl⟩
    rw [hi, hr', hpu]
    rcases h.state with hx | ⟨hg, h2, _⟩
    · exact .inl hx
    · exact .inr ⟨hg, h2, .inr rfl⟩
  · rename_i ho
    rw [if_neg ho] at hwf
    have hno : s.outstanding m = false := by
      cases hx : s.outstanding m with
      | false => rfl
      | true => exact absurd (List.any_eq_true.2 ⟨m, hm, hx⟩) ho
    have hres : s.resDone m = true := by
      rw [h.outst] at hno
      rw [h.res, hno]; rfl
    rcases foldl_cleanup_fixed ms s with ⟨h1, h2, h3, h4, h5, h6, h7, h8⟩
    rcases cleanup_foldl_not_mem hm s with ⟨c1, c2, c3⟩
    have hheld : s.held m = some r := by
      rcases h.state with ⟨hl, _⟩ | ⟨hg, _⟩
      · exact hl.held
      · exact hg.held
    refine ⟨⟨hwf, h5 ▸ h.hist, by rw [h4, hr']; exact h.outst, by rw [h6, hr']; exact h.res, by rw [h7, hi, hr']; exact h.sound, .inr ⟨⟨h1 ▸ hheld, ?_, c2, c3, h3 ▸ h.lt⟩, h6 ▸ hres, .inr hpu⟩⟩, by rw [h2]⟩
    intro m' e
    have := h.own _ (h8 _ _ e)
    subst this
    rw [c1] at e; cases e

theorem Inv.reply {m : I} {post : List (Ev I)} {s : St I} {r : Nat} (h : Inv m post s r) (ex : Bool) (k : Kind) :
    Inv m (post ++ [.reply ex m k]) (step s (.reply ex m k)) r ∧ (step s (.reply ex m k)).heap r = s.heap r := by
  have hr' : replies m (post ++ [.reply ex m k]) = replies m post ++ [k] := by simp [replies_append, replies]
  have hi : idle m (post ++ [.reply ex m k]) = idle m post := by simp [idle, pubs_append, pubs]
  have hpu : purged m (post ++ [.reply ex m k]) = purged m post := by simp [purged]
  have hwf := wf_step h.wf (.reply ex m k)
  have hsound : s.outDone m = true → idle m (post ++ [.reply ex m k]) = true ∨ (replies m (post ++ [.reply ex m k])).any Kind.noOutput = true := by
    intro ho
    rw [hi, hr']
    rcases h.sound ho with h4 | h4
    · exact .inl h4
    · exact .inr (by rw [List.any_append, h4]; rfl)
  by_cases hstale : ex = false ∧ s.outstanding m = false ∧ s.history m = true ∧ s.results m = false
  · -- the handler raises
    have hstep : step s (.reply ex m k) = s := by simp only [step, IPP.Output.reply]; rw [if_pos hstale]
    have hne : replies m post ≠ [] := by
      intro e
      have := h.outst
      rw [e, hstale.2.1] at this
      cases this
    rw [hstep]
    refine ⟨⟨h.wf, h.hist, ?_, ?_, hsound, ?_⟩, rfl⟩
    · rw [h.outst, hr']
      cases hq : replies m post with
      | nil => exact absurd hq hne
      | cons a l => rfl
    · rw [h.res, hr']
      cases hq : replies m post with
      | nil => exact absurd hq hne
      | cons a l => rfl
    · rw [hi, hpu, hr']
      rcases h.state with ⟨hl, h1, h2, h3⟩ | hx
      · refine .inl ⟨hl, h1, h2, ?_⟩
        intro k' hk'
        apply h3
        cases hq : replies m post with
        | nil => exact absurd hq hne
        | cons a l => rw [hq] at hk'; simpa using hk'
      · exact .inr hx
  · have hstep : step s (.reply ex m k) =
        resolveResult (if k.noOutput then resolveOutput { (touch { s with outstanding := set s.outstanding m false } m).1 with results := set (touch { s with outstanding := set s.outstanding m false } m).1.results m true } m
          else { (touch { s with outstanding := set s.outstanding m false } m).1 with results := set (touch { s with outstanding := set s.outstanding m false } m).1.results m true }) m (s.futures m) := by
      simp only [step, IPP.Output.reply]; rw [if_neg hstale]
    rw [hstep] at hwf ⊢
    have e1 : (replies m (post ++ [.reply ex m k])).isEmpty = false := by rw [hr']; simp
    rcases h.state with ⟨hl, h1, h2, h3⟩ | ⟨hg, hres, hp⟩
    · -- in the caches
      have ht : (touch { s with outstanding := set s.outstanding m false } m).1 = { s with outstanding := set s.outstanding m false } := by
        simp [touch, hl.table]
      rw [ht] at hwf ⊢
      dsimp only at hwf ⊢
      rw [hl.fut] at hwf ⊢
      -- the output future after the first half
      have half : ∃ s1 : St I, (if k.noOutput then resolveOutput { s with outstanding := set s.outstanding m false, results := set s.results m true } m else { s with outstanding := set s.outstanding m false, results := set s.results m true }) = s1 ∧
          ((s1 = { s with outstanding := set s.outstanding m false, results := set s.results m true } ∧ (k.noOutput = false ∨ s.outDone m = true)) ∨
           (s1 = { s with outstanding := set s.outstanding m false, results := set s.results m true, outDone := set s.outDone m true } ∧ k.noOutput = true ∧ s.resDone m = false) ∨
           (s1 = cleanup { s with outstanding := set s.outstanding m false, results := set s.results m true, outDone := set s.outDone m true } m ∧ k.noOutput = true ∧ s.resDone m = true)) := by
        refine ⟨_, rfl, ?_⟩
        by_cases hk : k.noOutput = true
        · rw [if_pos hk]
          by_cases ho : s.outDone m = true
          · exact .inl ⟨by simp [resolveOutput, ho], .inr ho⟩
          · by_cases hres : s.resDone m = true
            · exact .inr (.inr ⟨by simp [resolveOutput, ho, hl.out, hres], hk, hres⟩)
            · exact .inr (.inl ⟨by simp [resolveOutput, ho, hl.out, hres], hk, by simpa using hres⟩)
        · rw [if_neg hk]
          exact .inl ⟨rfl, .inl (by simpa using hk)⟩
      rcases half with ⟨s1, hs1, hcase⟩
      rw [hs1] at hwf ⊢
      have hany : k.noOutput = true → (replies m (post ++ [.reply ex m k])).any Kind.noOutput = true := by
        intro hk; rw [hr']; simp [hk]
      rcases hcase with ⟨rfl, hk⟩ | ⟨rfl, hk, hres⟩ | ⟨rfl, hk, hres⟩
      · by_cases hres : s.resDone m = true
        · -- a second reply
          have he : resolveResult { s with outstanding := set s.outstanding m false, results := set s.results m true } m true = { s with outstanding := set s.outstanding m false, results := set s.results m true } := by simp [resolveResult, hres]
          rw [he] at hwf ⊢
          refine ⟨⟨hwf, h.hist, by rw [e1]; exact set_eq, by rw [e1]; exact hres, hsound, ?_⟩, rfl⟩
          rw [hi, hr']
          refine .inl ⟨⟨hl.held, hl.table, hl.fut, hl.out, hl.lt⟩, h1, h2, ?_⟩
          intro k' hk'
          apply h3
          have hne : replies m post ≠ [] := by
            intro e
            have := h.res
            rw [e, hres] at this
            cases this
          cases hq : replies m post with
          | nil => exact absurd hq hne
          | cons a l => rw [hq] at hk'; simpa using hk'
        · have hempty : replies m post = [] := by
            have := h.res
            cases hq : replies m post with
            | nil => rfl
            | cons a l => rw [hq] at this; exact absurd this hres
          by_cases ho : s.outDone m = true
          · have he : resolveResult { s with outstanding := set s.outstanding m false, results := set s.results m true } m true = cleanup { s with outstanding := set s.outstanding m false, results := set s.results m true, resDone := set s.resDone m true } m := by simp [resolveResult, hres, ho]
            rw [he] at hwf ⊢
            have hg := gone_cleanup (s := { s with outstanding := set s.outstanding m false, results := set s.results m true, resDone := set s.resDone m true }) (r := r) ⟨h.wf.lt, h.wf.inj⟩ ⟨hl.held, hl.table, hl.fut, hl.out, hl.lt⟩
            refine ⟨⟨hwf, h.hist, by rw [e1]; exact set_eq, by rw [e1]; exact set_eq, hsound, .inr ⟨hg, set_eq, .inl ho⟩⟩, rfl⟩
          · have he : resolveResult { s with outstanding := set s.outstanding m false, results := set s.results m true } m true = { s with outstanding := set s.outstanding m false, results := set s.results m true, resDone := set s.resDone m true } := by simp [resolveResult, hres, ho]
            rw [he] at hwf ⊢
            refine ⟨⟨hwf, h.hist, by rw [e1]; exact set_eq, by rw [e1]; exact set_eq, hsound, .inl ⟨⟨hl.held, hl.table, hl.fut, hl.out, hl.lt⟩, fun hx => ho hx.2, by rw [hi]; exact h2, ?_⟩⟩, rfl⟩
            rw [hr', hempty]
            intro k' hk' hk2
            simp only [List.nil_append, List.head?_cons, Option.some.injEq] at hk'
            subst hk'
            rcases hk with hk | hk
            · rw [hk2] at hk; cases hk
            · exact hk
      · have he : resolveResult { s with outstanding := set s.outstanding m false, results := set s.results m true, outDone := set s.outDone m true } m true = cleanup { s with outstanding := set s.outstanding m false, results := set s.results m true, outDone := set s.outDone m true, resDone := set s.resDone m true } m := by simp [resolveResult, hres, set_eq]
        rw [he] at hwf ⊢
        have hg := gone_cleanup (s := { s with outstanding := set s.outstanding m false, results := set s.results m true, outDone := set s.outDone m true, resDone := set s.resDone m true }) (r := r) ⟨h.wf.lt, h.wf.inj⟩ ⟨hl.held, hl.table, hl.fut, hl.out, hl.lt⟩
        refine ⟨⟨hwf, h.hist, by rw [e1]; exact set_eq, by rw [e1]; exact set_eq, fun _ => .inr (hany hk), .inr ⟨hg, set_eq, .inl set_eq⟩⟩, rfl⟩
      · have he : resolveResult (cleanup { s with outstanding := set s.outstanding m false, results := set s.results m true, outDone := set s.outDone m true } m) m true = cleanup { s with outstanding := set s.outstanding m false, results := set s.results m true, outDone := set s.outDone m true } m := by simp [resolveResult, cleanup, hres]
        rw [he] at hwf ⊢
        have hg := gone_cleanup (s := { s with outstanding := set s.outstanding m false, results := set s.results m true, outDone := set s.outDone m true }) (r := r) ⟨h.wf.lt, h.wf.inj⟩ ⟨hl.held, hl.table, hl.fut, hl.out, hl.lt⟩
        refine ⟨⟨hwf, h.hist, by rw [e1]; exact set_eq, by rw [e1]; exact hres, fun _ => .inr (hany hk), .inr ⟨hg, hres, .inl set_eq⟩⟩, rfl⟩
    · -- no longer in the caches
      rw [hg.fut] at hwf ⊢
      have key : ∃ (hp : Nat → Md) (n : Nat) (md : I → Option Nat), (touch { s with outstanding := set s.outstanding m false } m).1 = { s with outstanding := set s.outstanding m false, heap := hp, next := n, metadata := md } ∧
          hp r = s.heap r ∧ r < n ∧ ∀ m', md m' ≠ some r := by
        simp only [touch]
        cases hm : s.metadata m with
        | some r' => exact ⟨_, _, _, rfl, rfl, hg.lt, hg.table⟩
        | none =>
          have hlt := hg.lt
          refine ⟨_, _, _, rfl, setObj_ne (by omega), by omega, ?_⟩
          intro m' e
          simp only [set] at e
          split at e
          · cases e; omega
          · exact hg.table m' e
      rcases key with ⟨hp', n, md, hstep', k1, k2, k3⟩
      rw [hstep'] at hwf ⊢
      dsimp only at hwf ⊢
      have he : ∀ s1 : St I, s1.outputFutures m = false → resolveOutput s1 m = s1 := by intro s1 h1; simp [resolveOutput, h1]
      have he2 : ∀ s1 : St I, resolveResult s1 m false = s1 := by intro s1; simp [resolveResult]
      rw [he2] at hwf ⊢
      have he3 : ∀ s1 : St I, s1.outputFutures m = false → (if k.noOutput then resolveOutput s1 m else s1) = s1 := by
        intro s1 h1; rw [he s1 h1]; simp
      rw [he3 _ (by exact hg.out)] at hwf ⊢
      refine ⟨⟨hwf, h.hist, by rw [e1]; exact set_eq, by rw [e1]; exact hres, hsound, .inr ⟨⟨hg.held, k3, hg.fut, hg.out, k2⟩, hres, hpu ▸ hp⟩⟩, k1⟩

/-! ### before the submission -/

structure Unknown (s : St I) (m : I) : Prop where
  table : s.metadata m = none
  res : s.resDone m = false
  out : s.outDone m = false

theorem unknown_touch {s : St I} {m m' : I} (hm : m ≠ m') (h : Unknown s m) : Unknown (touch s m').1 m := by
  unfold touch
  split
  · exact h
  · exact ⟨(set_ne hm).trans h.table, h.res, h.out⟩

theorem unknown_cleanup {s : St I} {m m' : I} (h : Unknown s m) : Unknown (cleanup s m') m := by
  refine ⟨?_, h.res, h.out⟩
  simp only [cleanup, set]
  split
  · rfl
  · exact h.table

theorem unknown_foldl (ms : List I) {m : I} : ∀ {s : St I}, Unknown s m → Unknown (ms.foldl cleanup s) m := by
  induction ms with
  | nil => intro s h; exact h
  | cons a ms ih => intro s h; exact ih (unknown_cleanup h)

theorem unknown_resolveOutput {s : St I} {m m' : I} (hm : m ≠ m') (h : Unknown s m) : Unknown (resolveOutput s m') m := by
  unfold resolveOutput
  split
  · dsimp only
    have h1 : Unknown { s with outDone := set s.outDone m' true } m := ⟨h.table, h.res, (set_ne hm).trans h.out⟩
    split
    · exact unknown_cleanup h1
    · exact h1
  · exact h

theorem unknown_resolveResult {s : St I} {m m' : I} (hm : m ≠ m') (h : Unknown s m) (b : Bool) : Unknown (resolveResult s m' b) m := by
  unfold resolveResult
  split
  · dsimp only
    have h1 : Unknown { s with resDone := set s.resDone m' true } m := ⟨h.table, (set_ne hm).trans h.res, h.out⟩
    split
    · exact unknown_cleanup h1
    · exact h1
  · exact h

theorem unknown_step {s : St I} {m : I} (h : Unknown s m) (e : Ev I) (he : about m e = false) : Unknown (step s e) m := by
  cases e with
  | send m' =>
    simp only [about, decide_eq_false_iff_not] at he
    have hm : m ≠ m' := fun h => he h.symm
    have := unknown_touch (s := { s with outstanding := set s.outstanding m' true, history := set s.history m' true, futures := set s.futures m' true, outputFutures := set s.outputFutures m' true }) hm ⟨h.table, h.res, h.out⟩
    exact ⟨this.table, this.res, this.out⟩
  | iopub own m' p =>
    simp only [step, iopub]
    split
    · exact h
    · rename_i ho
      have ho' : own = true := by cases own <;> simp_all
      subst ho'
      simp only [about, Bool.true_and, decide_eq_false_iff_not] at he
      have hm : m ≠ m' := fun h => he h.symm
      split
      · exact h
      · exact h
      · exact unknown_resolveOutput hm h
      · have := unknown_touch hm h
        exact ⟨this.table, this.res, this.out⟩
  | reply ex m' k =>
    simp only [about, decide_eq_false_iff_not] at he
    have hm : m ≠ m' := fun h => he h.symm
    simp only [step, IPP.Output.reply]
    split
    · exact h
    · apply unknown_resolveResult hm
      have h1 := unknown_touch (s := { s with outstanding := set s.outstanding m' false }) hm ⟨h.table, h.res, h.out⟩
      split
      · apply unknown_resolveOutput hm; exact ⟨h1.table, h1.res, h1.out⟩
      · exact ⟨h1.table, h1.res, h1.out⟩
  | popResult m' => exact ⟨h.table, h.res, h.out⟩
  | purge ms =>
    simp only [step, IPP.Output.purge]
    split
    · exact h
    · exact unknown_foldl ms h

theorem unknown_run {m : I} : ∀ (pre : List (Ev I)) (s : St I), (∀ e ∈ pre, about m e = false) → Unknown s m → Unknown (pre.foldl step s) m := by
  intro pre
  induction pre with
  | nil => intro s _ h; exact h
  | cons e pre ih => intro s hp h; exact ih _ (fun e' he' => hp e' (by simp [he'])) (unknown_step h e (hp e (by simp)))

/-- right after the submission -/
theorem inv_send {s : St I} {m : I} (hw : Wf s) (h : Unknown s m) : ∃ r, Inv m [] (step s (.send m)) r ∧ (step s (.send m)).heap r = {} := by
  have hwf := wf_step hw (.send m)
  have hs : step s (.send m) = { s with outstanding := set s.outstanding m true, history := set s.history m true, futures := set s.futures m true, outputFutures := set s.outputFutures m true, heap := setObj s.heap s.next {}, next := s.next + 1, metadata := set s.metadata m (some s.next), held := set s.held m (some s.next) } := by
    simp [step, send, touch, h.table]
  rw [hs] at hwf ⊢
  refine ⟨s.next, ⟨hwf, set_eq, set_eq, h.res, ?_, .inl ⟨⟨set_eq, set_eq, set_eq, set_eq, by dsimp only; omega⟩, ?_, ?_, ?_⟩⟩, setObj_eq⟩
  · intro ho; rw [h.out] at ho; cases ho
  · intro hx; rw [h.res] at hx; cases hx.1
  · intro hx; simp [idle, pubs] at hx
  · intro k hk; simp [replies] at hk

/-! ### the life of a request -/

/-- any event after the submission -/
theorem inv_step {m : I} {post : List (Ev I)} {s : St I} {r : Nat} (h : Inv m post s r) {e : Ev I} (he : ∀ m', e = .send m' → m' ≠ m) :
    Inv m (post ++ [e]) (step s e) r ∧ (step s e).heap r = (if s.metadata m = some r then (pubs m [e]).foldl Md.add (s.heap r) else s.heap r) := by
  cases ha : about m e with
  | false =>
    have h1 := h.other ha
    refine ⟨h1.1, h1.2.trans ?_⟩
    have hp : pubs m [e] = [] := by
      cases e with
      | iopub own m' p => cases own <;> simp_all [pubs, about]
      | _ => simp [pubs]
    simp [hp]
  | true =>
    cases e with
    | send m' => simp only [about, decide_eq_true_eq] at ha; exact absurd ha (he m' rfl)
    | iopub own m' p =>
      simp only [about, Bool.and_eq_true, decide_eq_true_eq] at ha
      rcases ha with ⟨rfl, rfl⟩
      have hp : pubs m' [.iopub true m' p] = [p] := by simp [pubs]
      rw [hp]
      rcases h.state with ⟨hl, _⟩ | ⟨hg, h2, h3⟩
      · rw [if_pos hl.table]
        cases p with
        | status b =>
          cases b with
          | false => exact h.live_busy hl
          | true => exact h.live_idle hl
        | _ => exact h.live_pub hl (by intro b; simp)
      · rw [if_neg (hg.table m')]
        exact h.gone_pub hg h2 h3 p
    | reply ex m' k =>
      simp only [about, decide_eq_true_eq] at ha
      subst ha
      have h1 := h.reply ex k
      refine ⟨h1.1, h1.2.trans ?_⟩
      simp [pubs]
    | popResult m' => simp [about] at ha
    | purge ms =>
      simp only [about, decide_eq_true_eq] at ha
      have h1 := h.purge ha
      refine ⟨h1.1, h1.2.trans ?_⟩
      simp [pubs]

/-- a history in which request `m` is submitted once, under an id nobody has used before -/
structure Story (m : I) (pre post : List (Ev I)) : Prop where
  fresh : ∀ e ∈ pre, about m e = false
  once : sends m post = false

theorem Story.prefix {m : I} {pre a b : List (Ev I)} (h : Story m pre (a ++ b)) : Story m pre a := by
  refine ⟨h.fresh, ?_⟩
  have := h.once
  simp only [sends, List.any_append, Bool.or_eq_false_iff] at this
  exact this.1

theorem snoc_induction {α : Type} {P : List α → Prop} (nil : P []) (snoc : ∀ l x, P l → P (l ++ [x])) (l : List α) : P l := by
  have h : ∀ l : List α, P l.reverse := by
    intro l
    induction l with
    | nil => exact nil
    | cons x l ih => rw [List.reverse_cons]; exact snoc _ _ ih
  have := h l.reverse
  rwa [List.reverse_reverse] at this

/-- what is true at any time after the submission -/
theorem inv_run {m : I} {pre : List (Ev I)} : ∀ (post : List (Ev I)), Story m pre post → ∃ r, Inv m post (run (pre ++ .send m :: post)) r ∧
    (run (pre ++ .send m :: post)).held m = some r := by
  intro post
  induction post using snoc_induction with
  | nil =>
    intro h
    have hu : Unknown (run pre) m := unknown_run pre _ h.fresh ⟨rfl, rfl, rfl⟩
    rcases inv_send (wf_run pre) hu with ⟨r, h1, _⟩
    rw [run_append]
    refine ⟨r, h1, ?_⟩
    rcases h1.state with ⟨hl, _⟩ | ⟨hg, _⟩
    · exact hl.held
    · exact hg.held
  | snoc post e ih =>
    intro h
    rcases ih h.prefix with ⟨r, h1, _⟩
    have he : ∀ m', e = .send m' → m' ≠ m := by
      intro m' he hm
      have := h.once
      simp [sends, he, hm] at this
    have h2 := (inv_step h1 he).1
    have hrun : run (pre ++ .send m :: (post ++ [e])) = step (run (pre ++ .send m :: post)) e := by
      rw [← run_append]; simp
    rw [hrun]
    refine ⟨r, h2, ?_⟩
    rcases h2.state with ⟨hl, _⟩ | ⟨hg, _⟩
    · exact hl.held
    · exact hg.held

end IPP.Output
