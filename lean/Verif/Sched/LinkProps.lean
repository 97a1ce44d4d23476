import Verif.Sched.Link3
import Verif.Sched.LocProps

/-!
# C19, C20: no task is lost — with dependencies

`Tracked`: the histories in which the scheduler loses no task.  Either no task has dependencies, or the high water mark is 1 (the default) and
* the dependencies are `Tame`: in particular every dependency with the default flags is, whatever the number of tasks in it, and
* a task that must be refused when it arrives mentions only tasks that are answered, unknown, or that no earlier task mentions (`CleanArrivals`).
Neither can be dropped (`Violations.follow_failed_lost`, `Violations.invalid_dependency_lost`, `Violations.any_target_lost`).
-/
namespace IPP.Sched

/-- The dependencies of the submission are sets; each needs all its tasks or has at most one — or else the task has no targets and its `follow`
does not need several tasks; and `follow` does not accept failures. -/
structure Tame (sub : Submission) : Prop where
  constructible : sub.Constructible
  sets : (∀ a, sub.after = some a → a.ids.Nodup) ∧ sub.follow.ids.Nodup
  simple : ((∀ a, sub.after = some a → a.all = true ∨ a.ids.length ≤ 1) ∧ (sub.follow.all = true ∨ sub.follow.ids.length ≤ 1)) ∨
    (sub.targets = [] ∧ (sub.follow.all = false ∨ sub.follow.ids.length ≤ 1))
  follow : sub.follow.failure = false ∨ sub.follow.ids = []

/-- If a task must be refused when it arrives — its dependencies are invalid or already impossible — then each task it mentions is itself, or
has been answered, or is unknown, or is mentioned by no earlier task. -/
def CleanArrivals (cfg : Config) (evs : List Event) : Prop :=
  ∀ p m sub q, evs = p ++ .submit m sub :: q → ∀ why, why ≠ .timeout → Justified ((run cfg p).trace ++ [.submitted m sub]) m why →
    ∀ d ∈ sub.mentions, d = m ∨ replies d (run cfg p).trace ≠ 0 ∨ (∀ sub', Obs.submitted d sub' ∉ (run cfg p).trace) ∨
      ∀ m' sub', Obs.submitted m' sub' ∈ (run cfg p).trace → d ∉ sub'.mentions

/-- See above. -/
def Tracked (cfg : Config) (evs : List Event) : Prop :=
  InRange cfg ∧ (Independent evs ∨ (cfg.hwm = 1 ∧ (∀ m sub, Event.submit m sub ∈ evs → Tame sub) ∧ CleanArrivals cfg evs))

/-! ### Lemmas -/

theorem sublist_length_le_one {l l' : List MsgId} (h : l.Sublist l') (hl : l'.length ≤ 1) : l.length ≤ 1 := Nat.le_trans h.length_le hl

theorem reduceIds_shape (s : State) (a : Dep) : (reduceIds s a).all = a.all ∧ (reduceIds s a).ids.Sublist a.ids := by
  unfold reduceIds
  split
  · dsimp only
    split <;> split <;> simp [difference]
  · exact ⟨rfl, List.Sublist.refl _⟩

theorem reduceAfter_shape (s : State) (o : Option Dep) : (reduceAfter s o).ids = [] ∨ ∃ a, o = some a ∧ (reduceAfter s o).all = a.all ∧ (reduceAfter s o).ids.Sublist a.ids := by
  unfold reduceAfter
  split
  · exact Or.inl rfl
  · rename_i a
    dsimp only
    split
    · exact Or.inl rfl
    · exact Or.inr ⟨a, rfl, reduceIds_shape s a⟩

theorem Tame.good {sub : Submission} (h : Tame sub) (s : State) : GoodJob (arrived s sub) where
  nd := by
    unfold Job.dependents
    refine List.nodup_append.mpr ⟨h.sets.2, ?_, ?_⟩
    · refine List.Nodup.sublist List.filter_sublist ?_
      show (reduceAfter s sub.after).ids.Nodup
      rcases reduceAfter_shape s sub.after with a | ⟨a, ha, _, hs⟩
      · rw [a]; exact List.nodup_nil
      · exact (h.sets.1 a ha).sublist hs
    · intro x hx y hy hxy
      subst hxy
      have := (List.mem_filter.mp hy).2
      simp at this
      exact this hx
  one := by
    rcases h.simple with ⟨h1, h2⟩ | h1
    · refine Or.inl ⟨?_, h2⟩
      show Single (reduceAfter s sub.after)
      rcases reduceAfter_shape s sub.after with a | ⟨a, ha, hall, hs⟩
      · exact Or.inr (by rw [a]; simp)
      · rcases h1 a ha with h3 | h3
        · exact Or.inl (hall.trans h3)
        · exact Or.inr (sublist_length_le_one hs h3)
    · exact Or.inr h1
  fol := h.follow

theorem Submission.Constructible.wellFormed {sub : Submission} (h : sub.Constructible) :
    ((sub.after.map fun (d : Dep) => d.success || d.failure).getD true) = true ∧ (sub.follow.success || sub.follow.failure) = true := by
  refine ⟨?_, h.2⟩
  cases hsa : sub.after with
  | none => rfl
  | some d => simpa using h.1 d hsa

/-- What the history gives for each arrival. -/
theorem arrives {cfg : Config} {p : List Event} {m : MsgId} {sub : Submission} (hf : Fresh (p ++ [.submit m sub])) (ht : Tame sub)
    (hc : ∀ why, why ≠ .timeout → Justified ((run cfg p).trace ++ [.submitted m sub]) m why →
      ∀ d ∈ sub.mentions, d = m ∨ replies d (run cfg p).trace ≠ 0 ∨ (∀ sub', Obs.submitted d sub' ∉ (run cfg p).trace) ∨
        ∀ m' sub', Obs.submitted m' sub' ∈ (run cfg p).trace → d ∉ sub'.mentions)
    (hL : LInv cfg [] [] (run cfg p)) : Arrives (run cfg p) m sub := by
  refine ⟨ht.constructible.wellFormed, ht.good _, fun hcase => ?_⟩
  have hb := run_base cfg p hf.snoc
  have hfr : ∀ sub, Obs.submitted m sub ∉ (run cfg p).trace := hf.freshIn hb.1 hb.2
  have hinv := run_subInv cfg p hf.snoc
  have hinv' := subInv_closed cfg (.submit m sub) _ _ (.submitJob (run cfg p) m sub (arrived (run cfg p) sub) rfl hfr ⟨rfl, rfl, rfl, rfl⟩ rfl) hinv
  obtain ⟨⟨⟨⟨hl, hji⟩, hpi⟩, hfi⟩, _⟩ := hinv'
  have hjm : upd (run cfg p).jobs m (some (arrived (run cfg p) sub)) m = some (arrived (run cfg p) sub) := upd_self _ _ _
  have hnt : ∀ s d, validateDep s m d ≠ some .timeout := by
    intro s d
    unfold validateDep
    split
    · simp
    · split
      · simp
      · split <;> simp
  have hok : ∃ why, why ≠ .timeout ∧ FailOk { run cfg p with
      trace := (run cfg p).trace ++ [.submitted m sub]
      allIds := insertSet m (run cfg p).allIds
      retries := upd (run cfg p).retries m (some sub.retries)
      jobs := upd (run cfg p).jobs m (some (arrived (run cfg p) sub)) } m why := by
    have hval : ∀ why, ((validateDep (arriving (run cfg p) m sub) m (arrived (run cfg p) sub).after).orElse
        fun _ => validateDep (arriving (run cfg p) m sub) m (arrived (run cfg p) sub).follow) = some why → FailOk { run cfg p with
      trace := (run cfg p).trace ++ [.submitted m sub]
      allIds := insertSet m (run cfg p).allIds
      retries := upd (run cfg p).retries m (some sub.retries)
      jobs := upd (run cfg p).jobs m (some (arrived (run cfg p) sub)) } m why := fun why hw =>
      validate_failOk (s := arriving (run cfg p) m sub) (j := arrived (run cfg p) sub) hjm rfl rfl rfl hw
    cases hva : validateDep (arriving (run cfg p) m sub) m (arrived (run cfg p) sub).after with
    | some why => exact ⟨why, fun h => hnt _ _ (h ▸ hva), hval why (by rw [hva]; rfl)⟩
    | none =>
      cases hvf : validateDep (arriving (run cfg p) m sub) m sub.follow with
      | some why => exact ⟨why, fun h => hnt _ _ (h ▸ hvf), hval why (by rw [hva]; exact hvf)⟩
      | none =>
        refine ⟨.impossible, by simp, arrived (run cfg p) sub, hjm, Or.inr (Or.inr ?_)⟩
        rcases hcase with h | h | h
        · exact absurd hva h
        · exact absurd hvf h
        · exact h
  obtain ⟨why, hnt', hok⟩ := hok
  have hjust := justified_of_failOk hl hji hpi hfi hok
  intro d hd
  have hm : d ∈ sub.mentions := by
    rcases mem_dependents hd with hd | hd
    · exact (reduceAfter_rel (arriving (run cfg p) m sub) sub.after).mentions hd
    · exact List.mem_append_right _ hd
  cases hg : (run cfg p).graph d with
  | none => rfl
  | some l =>
    exfalso
    obtain ⟨hid, _⟩ := hL.2.lis d l hg
    obtain ⟨sub', hs'⟩ := hinv.2.all d hid
    rcases hc why hnt' hjust d hm with h | h | h | h
    · rw [h] at hs'; exact hfr _ hs'
    · rcases hL.2.done d (hL.2.ans d h) with a | a
      · rw [hg] at a; cases a
      · cases a
    · exact h sub' hs'
    · obtain ⟨m', sub'', a, b⟩ := hinv.2.graph d (by rw [hg]; simp)
      exact h m' sub'' a b

theorem Fresh.prefix {p q : List Event} (h : Fresh (p ++ q)) : Fresh p := by
  induction q using snoc_induction with
  | nil => simpa using h
  | snoc q x ih => exact ih (Fresh.snoc (by rw [List.append_assoc]; exact h))

theorem run_linv {cfg : Config} {evs : List Event} (hC : cfg.hwm = 1) (hr : InRange cfg) (hf : Fresh evs) (hp : Prompt cfg evs)
    (ht : ∀ m sub, Event.submit m sub ∈ evs → Tame sub) (hc : CleanArrivals cfg evs) : LInv cfg [] [] (run cfg evs) := by
  refine run_link hC hr evs hf hp fun p m sub q hq hL => arrives ?_ (ht m sub (by rw [hq]; simp)) (hc p m sub q hq) hL
  refine Fresh.prefix (q := q) ?_
  rw [hq] at hf
  simpa using hf

/-! ### `CleanArrivals` for a concrete history can be computed (over-approximating `Justified`) -/

/-- Every arrival mentions only tasks that are answered, unknown or mentioned by no earlier task — or cannot be refused. -/
def cleanFrom (cfg : Config) (p : List Event) : List Event → Prop
  | [] => True
  | ev :: q => (match ev with
      | .submit m sub => (∀ d ∈ sub.mentions, d = m ∨ replies d (run cfg p).trace ≠ 0 ∨ (∀ sub', Obs.submitted d sub' ∉ (run cfg p).trace) ∨
          ∀ m' sub', Obs.submitted m' sub' ∈ (run cfg p).trace → d ∉ sub'.mentions) ∨
          ∀ why, why ≠ .timeout → ¬ Justified ((run cfg p).trace ++ [.submitted m sub]) m why
      | _ => True) ∧ cleanFrom cfg (p ++ [ev]) q

theorem clean_of_from {cfg : Config} (p evs : List Event) (h : cleanFrom cfg p evs) :
    ∀ p' m sub q, evs = p' ++ .submit m sub :: q → ∀ why, why ≠ .timeout → Justified ((run cfg (p ++ p')).trace ++ [.submitted m sub]) m why →
    ∀ d ∈ sub.mentions, d = m ∨ replies d (run cfg (p ++ p')).trace ≠ 0 ∨ (∀ sub', Obs.submitted d sub' ∉ (run cfg (p ++ p')).trace) ∨
      ∀ m' sub', Obs.submitted m' sub' ∈ (run cfg (p ++ p')).trace → d ∉ sub'.mentions := by
  induction evs generalizing p with
  | nil => intro p' m sub q hq; simp at hq
  | cons o evs ih =>
    intro p' m sub q hq
    cases p' with
    | nil =>
      simp only [List.nil_append, List.cons.injEq] at hq
      obtain ⟨rfl, _⟩ := hq
      simp only [List.append_nil]
      intro why hw hj
      rcases h.1 with h1 | h1
      · exact h1
      · exact absurd hj (h1 why hw)
    | cons x p' =>
      simp only [List.cons_append, List.cons.injEq] at hq
      obtain ⟨rfl, hq⟩ := hq
      have := ih (p ++ [o]) h.2 p' m sub q hq
      simpa using this

/-- The tasks that arrived. -/
def arrivals (tr : List Obs) : List (MsgId × Submission) := tr.filterMap fun
  | .submitted m sub => some (m, sub)
  | _ => none

theorem mem_arrivals {tr : List Obs} {m : MsgId} {sub : Submission} : (m, sub) ∈ arrivals tr ↔ Obs.submitted m sub ∈ tr := by
  unfold arrivals
  rw [List.mem_filterMap]
  constructor
  · rintro ⟨o, ho, h⟩
    cases o <;> simp at h
    obtain ⟨rfl, rfl⟩ := h
    exact ho
  · exact fun h => ⟨_, h, rfl⟩

def wrongB (d : Dep) (p : List Obs) (i : MsgId) : Bool := (!d.success && (okIds p).contains i) || (!d.failure && (failIds p).contains i)

theorem wrongB_iff {d : Dep} {p : List Obs} {i : MsgId} : wrongB d p i = true ↔ Wrong d p i := by
  unfold wrongB Wrong
  simp [Bool.or_eq_true]

def hopelessB (d : Dep) (p : List Obs) : Bool := if d.all then d.ids.any (wrongB d p) else !d.ids.isEmpty && d.ids.all (wrongB d p)

theorem hopelessB_of {d : Dep} {p : List Obs} (h : Hopeless d p) : hopelessB d p = true := by
  unfold hopelessB
  rcases h with ⟨ha, i, hi, hw⟩ | ⟨ha, hn, hw⟩
  · rw [ha]
    simp only [if_true]
    exact List.any_eq_true.mpr ⟨i, hi, wrongB_iff.mpr hw⟩
  · rw [ha]
    simp only [Bool.false_eq_true, if_false, Bool.and_eq_true]
    exact ⟨by simpa using hn, List.all_eq_true.mpr fun i hi => wrongB_iff.mpr (hw i hi)⟩

/-- Where the tasks in `ids` ended. -/
def endedAt (ids : List MsgId) (p : List Obs) : List Engine := p.filterMap fun
  | .relay e m _ => if m ∈ ids then some e else none
  | _ => none

theorem mem_endedAt {ids : List MsgId} {p : List Obs} {e : Engine} {m : MsgId} {ok : Bool} (hm : m ∈ ids) (h : Obs.relay e m ok ∈ p) : e ∈ endedAt ids p :=
  List.mem_filterMap.mpr ⟨_, h, by simp [hm]⟩

/-- No reason to refuse task `m`; `p` ends with its arrival. -/
def welcomeB (p : List Obs) (m : MsgId) (sub : Submission) : Bool :=
  (sub.mentions.all fun i => i != m && (arrivals p).any fun x => x.1 == i) && !(sub.after.any fun d => hopelessB d p) && !hopelessB sub.follow p &&
  ((endedAt sub.follow.ids p).all fun x => (endedAt sub.follow.ids p).all fun y => x == y) &&
  (sub.targets.isEmpty || sub.targets.any fun t => decide (p.count (.unregistered t) < p.count (.registered t)) &&
    !p.any fun o => match o with | .retry t' m' _ => t' == t && m' == m | _ => false)

theorem welcomeB_not_justified {p : List Obs} {m : MsgId} {sub : Submission} (hu : ∀ sub', Obs.submitted m sub' ∈ p → sub' = sub) (hb : welcomeB p m sub = true) (why : Why)
    (hw : why ≠ .timeout) : ¬ Justified p m why := by
  rintro ⟨sub', hs, hj⟩
  obtain rfl := hu sub' hs
  unfold welcomeB at hb
  simp only [Bool.and_eq_true] at hb
  obtain ⟨⟨⟨⟨h1, h2⟩, h3⟩, h4⟩, h5⟩ := hb
  have hne : ∀ d, (sub'.after = some d ∨ sub'.follow = d) → hopelessB d p = false := by
    rintro d (h | h)
    · rw [h] at h2; simpa using h2
    · rw [h] at h3; simpa using h3
  cases why with
  | timeout => exact hw rfl
  | invalid =>
    obtain ⟨d, i, hd, hi, hbad⟩ := hj
    have hm : i ∈ sub'.mentions := by
      unfold Submission.mentions
      rcases hd with h | h
      · rw [h]; simp [hi]
      · rw [h]; simp [hi]
    have := List.all_eq_true.mp h1 i hm
    simp only [Bool.and_eq_true, bne_iff_ne, ne_eq, List.any_eq_true, beq_iff_eq] at this
    obtain ⟨hnm, ⟨i', s'⟩, hin, rfl⟩ := this
    rcases hbad with h | h
    · exact hnm h
    · exact h s' (mem_arrivals.mp hin)
  | impossible =>
    rcases hj with ⟨d, hd, hh⟩ | ⟨hall, a, b, ea, eb, oka, okb, ha, hb', hra, hrb, hee⟩ | ⟨htn, ht⟩
    · have := hne d hd
      rw [hopelessB_of hh] at this
      cases this
    · exact hee (by simpa using List.all_eq_true.mp (List.all_eq_true.mp h4 _ (mem_endedAt ha hra)) _ (mem_endedAt hb' hrb))
    · simp only [Bool.or_eq_true, List.isEmpty_iff, List.any_eq_true, Bool.and_eq_true, decide_eq_true_eq] at h5
      rcases h5 with h5 | ⟨t, htt, hreg, hnr⟩
      · exact htn h5
      · rcases ht t htt with ⟨c, hc⟩ | h
        · have : (p.any fun o => match o with | .retry t' m' _ => t' == t && m' == m | _ => false) = true := List.any_eq_true.mpr ⟨_, hc, by simp⟩
          rw [this] at hnr
          cases hnr
        · exact h hreg

/-- The tasks mentioned are answered, unknown, or mentioned by no earlier task. -/
def cleanB (p : List Obs) (m : MsgId) (sub : Submission) : Bool :=
  sub.mentions.all fun d => d == m || replies d p != 0 || ((arrivals p).all fun x => x.1 != d) || (arrivals p).all fun x => !x.2.mentions.contains d

/-- Computable form of `CleanArrivals`. -/
def cleanCheck (cfg : Config) (p : List Event) : List Event → Bool
  | [] => true
  | ev :: q => (match ev with
      | .submit m sub => cleanB (run cfg p).trace m sub || ((arrivals (run cfg p).trace).all (fun x => x.1 != m) && welcomeB ((run cfg p).trace ++ [.submitted m sub]) m sub)
      | _ => true) && cleanCheck cfg (p ++ [ev]) q

theorem cleanFrom_of_check {cfg : Config} (p evs : List Event) (h : cleanCheck cfg p evs = true) : cleanFrom cfg p evs := by
  induction evs generalizing p with
  | nil => trivial
  | cons ev q ih =>
    simp only [cleanCheck, Bool.and_eq_true] at h
    refine ⟨?_, ih _ h.2⟩
    cases ev with
    | submit m sub =>
      have h1 := h.1
      simp only [Bool.or_eq_true, Bool.and_eq_true] at h1
      rcases h1 with h1 | ⟨h1, h2⟩
      · refine Or.inl fun d hd => ?_
        have := List.all_eq_true.mp h1 d hd
        simp only [Bool.or_eq_true, beq_iff_eq, bne_iff_ne, ne_eq, List.all_eq_true] at this
        rcases this with ((a | a) | a) | a
        · exact Or.inl a
        · exact Or.inr (Or.inl a)
        · exact Or.inr (Or.inr (Or.inl fun s' hs => a _ (mem_arrivals.mpr hs) rfl))
        · exact Or.inr (Or.inr (Or.inr fun m' s' hs hd' => by simpa [hd'] using a _ (mem_arrivals.mpr hs)))
      · refine Or.inr fun why hw => welcomeB_not_justified (fun s' hs => ?_) h2 why hw
        simp only [List.mem_append, List.mem_singleton, Obs.submitted.injEq] at hs
        rcases hs with hs | hs
        · have := List.all_eq_true.mp h1 _ (mem_arrivals.mpr hs)
          simp at this
        · exact hs.2
    | _ => trivial

theorem clean_of_check {cfg : Config} {evs : List Event} (h : cleanCheck cfg [] evs = true) : CleanArrivals cfg evs := by
  intro p m sub q hq why hw hj
  simpa using clean_of_from [] evs (cleanFrom_of_check [] evs h) p m sub q hq why hw (by simpa using hj)

/-! ### The theorems -/

/-- C19: no task is ever lost: it was answered (once), or it is on exactly one engine, or it waits in the queue. -/
theorem task_not_lost_partial (cfg : Config) (evs : List Event) (hf : Fresh evs) (ht : Tracked cfg evs) (hp : Prompt cfg evs)
    (m : MsgId) (sub : Submission) (hm : Event.submit m sub ∈ evs) :
    replies m (run cfg evs).trace = 1 ∨ (∃ e, m ∈ assigned e (run cfg evs).trace) ∨ m ∈ (run cfg evs).queue := by
  obtain ⟨hr, hi | ⟨hC, htame, hc⟩⟩ := ht
  · exact task_not_lost_independent cfg evs hf hi hr hp m sub hm
  · obtain ⟨h, _⟩ := run_linv hC hr hf hp htame hc
    have hj := job_exists cfg evs hf m sub (htame m sub hm).constructible.wellFormed hm
    cases hj' : (run cfg evs).jobs m with
    | none => exact absurd hj' hj
    | some j =>
      by_cases h0 : replies m (run cfg evs).trace = 0
      · rcases h.lost trivial m j hj' h0 with a | a | a
        · exact Or.inr (Or.inr (by simpa [ltop] using h.wait trivial m a))
        · exact Or.inr (Or.inl a)
        · cases a
      · have := h.rep m
        exact Or.inl (by omega)

/-- C20: when an engine has died and its stranded tasks are handled, each of them counts as failed; if that exhausts its retries the client has exactly
one reply; if not, the task is on another engine, or waits, or has been answered because it can run nowhere else. -/
theorem stranded_task_resolved_partial (cfg : Config) (evs : List Event) (e : Engine) (hf : Fresh (evs ++ [.strandTimer e])) (ho : Orderly cfg evs)
    (hp : Prompt cfg evs) (hdead : ¬ Registered e (run cfg evs).trace) (m : MsgId) (hm : m ∈ assigned e (run cfg evs).trace) (sub : Submission)
    (hs : Obs.submitted m sub ∈ (run cfg evs).trace) :
    failures m (run cfg evs).trace < failures m (run cfg (evs ++ [.strandTimer e])).trace ∧
    (sub.retries < failures m (run cfg (evs ++ [.strandTimer e])).trace → replies m (run cfg (evs ++ [.strandTimer e])).trace = 1) ∧
    (Tracked cfg evs →
      replies m (run cfg (evs ++ [.strandTimer e])).trace = 1 ∨ m ∈ (run cfg (evs ++ [.strandTimer e])).queue ∨
      ∃ e', e' ≠ e ∧ m ∈ assigned e' (run cfg (evs ++ [.strandTimer e])).trace) := by
  obtain ⟨h1, h2, h3⟩ := stranded_resolved_aux cfg evs e hf ho hp hdead m hm sub hs
  refine ⟨h1, h2, fun ht => h3 fun hsub => ?_⟩
  have mono : ∀ m' sub', Event.submit m' sub' ∈ evs ++ [Event.strandTimer e] → Event.submit m' sub' ∈ evs := by
    intro m' sub' h
    simpa using h
  refine task_not_lost_partial cfg (evs ++ [.strandTimer e]) hf ⟨ht.1, ht.2.imp ?_ ?_⟩ (hp.timer e) m sub (List.mem_append_left _ hsub)
  · exact fun h m' sub' h' => h m' sub' (mono _ _ h')
  · rintro ⟨a, b, c⟩
    refine ⟨a, fun m' sub' h' => b m' sub' (mono _ _ h'), fun p m' sub' q hq => ?_⟩
    rcases List.eq_nil_or_concat q with rfl | ⟨q', y, rfl⟩
    · have := List.append_inj_right' hq rfl
      simp at this
    · have hq' : evs ++ [Event.strandTimer e] = (p ++ .submit m' sub' :: q') ++ [y] := by simpa using hq
      exact c p m' sub' q' (List.append_inj_left' hq' rfl)

/-! ### An example that meets the hypotheses -/

/-- Three engines, hwm = 1.  Task 3 needs both 1 and 2, task 4 one of them, task 5 task 4 and to be where 1 was, task 7 task 3 and to be where 1 and 4 were;
task 6 mentions an unknown task and is refused; engine 8 dies with task 2, which may run nowhere else; task 5 fails and has a retry. -/
def exDeps : List Event :=
  [.register 7, .register 8, .register 9, .submit 1 {}, .submit 2 { targets := [8], retries := 1 },
   .submit 3 { after := some { ids := [1, 2], failure := true } }, .submit 4 { after := some { ids := [1, 2], all := false } },
   .submit 5 { after := some { ids := [4] }, follow := { ids := [1] }, retries := 1 }, .submit 6 { after := some { ids := [5, 99] } },
   .submit 7 { after := some { ids := [3] }, follow := { ids := [1, 4] }, hasTimeout := true }, .submit 10 {},
   .result 9 1 true true, .unregister 8, .strandTimer 8, .result 9 4 true true, .result 7 10 true true, .result 7 3 true true,
   .result 9 5 false true, .jobTimer 7 1]

theorem exDeps_fresh : Fresh exDeps := by unfold Fresh; decide
theorem exDeps_prompt : Prompt (Violations.cfg 1) exDeps := prompt_of_check (by decide)
theorem exDeps_tracked : Tracked (Violations.cfg 1) exDeps := by
  refine ⟨fun _ l h => (schemes_valid l h 0 0).1, Or.inr ⟨rfl, fun m sub h => ?_, clean_of_check (by decide)⟩⟩
  simp only [exDeps, List.mem_cons, Event.submit.injEq, reduceCtorEq, false_or, or_false, List.not_mem_nil] at h
  rcases h with ⟨rfl, rfl⟩ | ⟨rfl, rfl⟩ | ⟨rfl, rfl⟩ | ⟨rfl, rfl⟩ | ⟨rfl, rfl⟩ | ⟨rfl, rfl⟩ | ⟨rfl, rfl⟩ | ⟨rfl, rfl⟩
  case inr.inr.inr.inl => exact ⟨by simp [Submission.Constructible], by simp, Or.inr (by simp), Or.inl rfl⟩
  all_goals exact ⟨by simp [Submission.Constructible], by simp, Or.inl (by simp), Or.inl rfl⟩

set_option maxRecDepth 4000 in
/-- At the end 5 waits (it failed on the only engine where it may run), 7 is on engine 9, the others are answered, each once. -/
example : ([1, 2, 3, 4, 5, 6, 7, 10].map fun m => replies m (run (Violations.cfg 1) exDeps).trace) = [1, 1, 1, 1, 0, 1, 0, 1] ∧
    assigned 9 (run (Violations.cfg 1) exDeps).trace = [7] ∧ (run (Violations.cfg 1) exDeps).queue = [5] := by decide

/-- Before its timer, engine 8 is dead with task 2. -/
example : assigned 8 (run (Violations.cfg 1) (exDeps.take 13)).trace = [2] ∧ ¬ Registered 8 (run (Violations.cfg 1) (exDeps.take 13)).trace := by
  unfold Registered; decide

end IPP.Sched
