import Verif.Hub.ResultProps
import Verif.DB.SqliteProps

/-! # C32: purging -/
namespace IPP.Hub

/-- A record with a result belongs to a message that is no longer pending. -/
structure NoRes (evs : List MEv) (s : Hub) : Prop where
  disj : Disj evs s
  res : ∀ x ∈ s.db, x.2.result.isSome → x.1 ∉ s.pending
  origin : ∀ x ∈ s.db, x.2.result.isSome → ∃ e ∈ evs, x.1 ∈ e.results ∨ x.1 ∈ e.queued

theorem saveReq_result {db : List (Mid × TRec)} {m : Mid} {u : Option Uuid} {x : Mid × TRec} (h : x ∈ saveReq db m u) (hr : x.2.result.isSome) :
    ∃ r, (x.1, r) ∈ db ∧ r.result.isSome := by
  unfold saveReq at h
  split at h
  · rcases mem_updRec h with h | ⟨h1, r, h2, h3⟩
    · exact ⟨x.2, h, hr⟩
    · rw [h3] at hr
      exact ⟨r, by rw [h1]; exact h2, hr⟩
  · rcases List.mem_append.1 h with h | h
    · exact ⟨x.2, h, hr⟩
    · simp at h; subst h; simp [TRec.init] at hr

/-- a record of the strand loop with a result had one, or its message was in the list and pending -/
theorem strand_result (u : Uuid) (ms : List Mid) : ∀ s : Hub, ∀ x ∈ (strandLoop u ms s).db, x.2.result.isSome →
    (∃ r, (x.1, r) ∈ s.db ∧ r.result.isSome) ∨ x.1 ∈ ms ∧ x.1 ∉ (strandLoop u ms s).pending := by
  induction ms with
  | nil => intro s x hx hr; exact .inl ⟨x.2, hx, hr⟩
  | cons m ms ih =>
    intro s x hx hr
    have hsp := strandLoop_spec u (m :: ms) s
    unfold strandLoop at hx hsp ⊢
    split at hx
    · rename_i hp
      rw [if_pos hp] at hsp ⊢
      rcases ih _ x hx hr with ⟨r, h1, h2⟩ | ⟨h1, h2⟩
      · (try dsimp only at h1)
        rcases mem_updRec h1 with h1 | ⟨h3, -⟩
        · exact .inl ⟨r, h1, h2⟩
        · right
          simp only at h3
          refine ⟨by simp [h3], ?_⟩
          intro hc
          have := (strandLoop_spec u ms { s with pending := remFrom s.pending m
                                                 done := addTo s.done m
                                                 db := updRec s.db m (fun x => { x with result := some (.died u), engine := some u }) }).1 _ hc
          exact (mem_remFrom.1 this).2 h3
      · exact .inr ⟨by simp [h1], h2⟩
    · exact .inl ⟨x.2, hx, hr⟩

theorem NoRes.step {evs : List MEv} {s : Hub} (c : MCfg) (h : NoRes evs s) (e : MEv)
    (ho : ∀ x ∈ evs, ∀ m ∈ e.requests, m ∉ x.results ∧ m ∉ x.queued) : NoRes (evs ++ [e]) (mstep c s e) := by
  have hd := h.disj.step c e ho
  have ho0 : ∀ x ∈ s.db, x.2.result.isSome → ∃ e' ∈ evs ++ [e], x.1 ∈ e'.results ∨ x.1 ∈ e'.queued := fun x hx hr => by
    obtain ⟨y, hy, h'⟩ := h.origin x hx hr
    exact ⟨y, by simp [hy], h'⟩
  -- a new request has no result yet
  have hnew : ∀ x ∈ s.db, x.2.result.isSome → x.1 ∉ e.requests := by
    intro x hx hr hm
    obtain ⟨y, hy, h1 | h1⟩ := h.origin x hx hr
    · exact (ho y hy _ hm).1 h1
    · exact (ho y hy _ hm).2 h1
  refine ⟨hd, ?_, ?_⟩
  · -- res
    intro x hx hr
    cases e with
    | reg ev =>
      by_cases hl : ev.Live
      · simp only [mstep, regStep_live c s hl] at hx ⊢
        rw [(noteEffects_pending _ _).2.2.2.1] at hx
        rw [(noteEffects_pending _ _).1]
        exact h.res x hx hr
      · have : ∃ r db, mstep c s (.reg ev) = startHub r db := by
          cases ev <;> first | exact absurd trivial hl | exact ⟨_, _, rfl⟩
        obtain ⟨r, db, hr⟩ := this
        rw [hr]
        simp [startHub]
    | queueRequest u m =>
      simp only [mstep, queueRequest] at hx ⊢
      split at hx
      · rename_i hg; exact h.res x hx hr
      · rename_i e hg
        simp only at hx ⊢
        obtain ⟨r, h1, h2⟩ := saveReq_result hx hr
        rw [mem_addTo]
        rintro (h3 | h3)
        · exact h.res _ h1 h2 h3
        · exact hnew _ h1 h2 (by simp [MEv.requests, h3])
    | queueResult u m r =>
      simp only [mstep, queueResult] at hx ⊢
      split at hx
      · rename_i hg; exact h.res x hx hr
      · rename_i e hg
        by_cases hp : m ∈ s.pending
        · rw [if_pos hp] at hx ⊢
          by_cases hq : m ∈ s.queues e
          · rw [if_pos hq] at hx ⊢
            simp only at hx ⊢
            rw [mem_remFrom]
            rintro ⟨h1, h2⟩
            (try dsimp only at hx)
            rcases mem_updRec hx with hx | ⟨h3, -⟩
            · exact h.res x hx hr h1
            · exact h2 h3
          · rw [if_neg hq] at hx ⊢
            simp only at hx ⊢
            rw [mem_remFrom]
            rintro ⟨h1, h2⟩
            exact h.res x hx hr h1
        · rw [if_neg hp] at hx ⊢
          by_cases hdn : m ∈ s.done
          · rw [if_pos hdn] at hx ⊢
            (try dsimp only at hx)
            rcases mem_updRec hx with hx | ⟨h3, -⟩
            · exact h.res x hx hr
            · rw [h3]; exact hp
          · rw [if_neg hdn] at hx ⊢
            exact h.res x hx hr
    | taskRequest m =>
      simp only [mstep, taskRequest] at hx ⊢
      obtain ⟨r, h1, h2⟩ := saveReq_result hx hr
      rw [mem_addTo]
      rintro (h3 | h3)
      · exact h.res _ h1 h2 h3
      · exact hnew _ h1 h2 (by simp [MEv.requests, h3])
    | taskDestination m u =>
      simp only [mstep, taskDestination] at hx ⊢
      split at hx
      · rename_i hg; exact h.res x hx hr
      · simp only at hx ⊢
        (try dsimp only at hx)
        rcases mem_updRec hx with hx | ⟨h1, r, h2, h3⟩
        · exact h.res x hx hr
        · rw [h3] at hr; rw [h1]; exact h.res (m, r) h2 hr
    | taskResult m r =>
      simp only [mstep] at hx ⊢
      obtain ⟨-, -, h1⟩ := taskResult_cases s m r
      have hdb : ∀ y ∈ (taskResult s m r).db, y ∈ s.db ∨ y.1 = m ∧ m ∈ s.pending := by
        intro y hy
        unfold taskResult at hy
        dsimp only at hy
        split at hy
        · rename_i hp
          (try dsimp only at hy)
          rcases mem_updRec hy with hy | ⟨h3, -⟩
          · left
            revert hy
            split <;> exact id
          · exact .inr ⟨h3, hp⟩
        · exact .inl hy
      rcases h1 with ⟨hp, h1, -⟩ | ⟨hp, h1, -⟩
      · rw [h1]
        rcases hdb x hx with hx | ⟨h3, h4⟩
        · exact h.res x hx hr
        · exact absurd h4 hp
      · rw [h1, mem_remFrom]
        rintro ⟨h5, h6⟩
        rcases hdb x hx with hx | ⟨h3, h4⟩
        · exact h.res x hx hr h5
        · exact h6 h3
    | timer i =>
      simp only [mstep] at hx ⊢
      cases ht : s.timers[i]? with
      | none => simp only [ht] at hx; exact h.res x hx hr
      | some eu =>
        simp only [ht] at hx
        rcases strand_result _ _ _ x hx hr with ⟨r, h1, h2⟩ | ⟨-, h2⟩
        · intro hc
          exact h.res _ h1 h2 ((strandLoop_spec eu.2 (s.queues eu.1) { s with timers := s.timers.eraseIdx i }).1 _ hc)
        · exact h2
    | iopub m t =>
      simp only [mstep, iopub] at hx ⊢
      split at hx
      · rename_i hg
        simp only at hx ⊢
        rcases List.mem_append.1 hx with hx | hx
        · exact h.res x hx hr
        · simp at hx; subst hx; simp at hr
      · simp only at hx ⊢
        (try dsimp only at hx)
        rcases mem_updRec hx with hx | ⟨h1, r, h2, h3⟩
        · exact h.res x hx hr
        · rw [h3] at hr; rw [h1]; exact h.res (m, r) h2 hr
    | resubmit ms news =>
      simp only [mstep] at hx ⊢
      obtain ⟨o, ho'⟩ := Option.isSome_iff_exists.1 hr
      obtain ⟨r, h1, h2⟩ := resubmit_db_result s ms news x hx o ho'
      obtain ⟨-, -, -, h4, h5⟩ := resubmit_spec s ms news
      intro hc
      rcases (h4 x.1).1 hc with hc | ⟨ps, h6, h7⟩
      · exact h.res (x.1, r) h1 (by simp [h2]) hc
      · exact hnew (x.1, r) h1 (by simp [h2]) (h5 ps h6 _ h7)
    | purge w es =>
      simp only [mstep] at hx ⊢
      rw [(purge_spec c s w es).2.2.2.1]
      exact h.res x (purge_sub c s w es x hx) hr
  · -- origin
    intro x hx hr
    cases e with
    | reg ev =>
      by_cases hl : ev.Live
      · simp only [mstep, regStep_live c s hl] at hx ⊢
        rw [(noteEffects_pending _ _).2.2.2.1] at hx
        exact ho0 x hx hr
      · have : ∃ r, mstep c s (.reg ev) = startHub r (if c.persistent then s.db else []) := by
          cases ev <;> first | exact absurd trivial hl | exact ⟨_, rfl⟩
        obtain ⟨r, hr'⟩ := this
        rw [hr'] at hx
        simp only [startHub] at hx
        split at hx
        · exact ho0 x hx hr
        · simp at hx
    | queueRequest u m =>
      simp only [mstep, queueRequest] at hx
      split at hx
      · exact ho0 x hx hr
      · obtain ⟨r, h1, h2⟩ := saveReq_result hx hr
        exact ho0 (x.1, r) h1 h2
    | queueResult u m r =>
      have key : x ∈ s.db ∨ x.1 = m := by
        simp only [mstep, queueResult] at hx
        split at hx
        · exact .inl hx
        · split at hx
          · split at hx
            · (try dsimp only at hx)
              rcases mem_updRec hx with hx | ⟨h3, -⟩
              · exact .inl hx
              · exact .inr h3
            · exact .inl hx
          · split at hx
            · (try dsimp only at hx)
              rcases mem_updRec hx with hx | ⟨h3, -⟩
              · exact .inl hx
              · exact .inr h3
            · exact .inl hx
      rcases key with hx | h3
      · exact ho0 x hx hr
      · exact ⟨.queueResult u m r, by simp, .inl (by simp [MEv.results, h3])⟩
    | taskRequest m =>
      simp only [mstep, taskRequest] at hx
      obtain ⟨r, h1, h2⟩ := saveReq_result hx hr
      exact ho0 (x.1, r) h1 h2
    | taskDestination m u =>
      simp only [mstep, taskDestination] at hx
      split at hx
      · exact ho0 x hx hr
      · (try dsimp only at hx)
        rcases mem_updRec hx with hx | ⟨h1, r, h2, h3⟩
        · exact ho0 x hx hr
        · rw [h3] at hr; rw [h1]; exact ho0 (m, r) h2 hr
    | taskResult m r =>
      have key : x ∈ s.db ∨ x.1 = m := by
        simp only [mstep, taskResult] at hx
        split at hx
        · (try dsimp only at hx)
          rcases mem_updRec hx with hx | ⟨h3, -⟩
          · left
            revert hx
            split <;> exact id
          · exact .inr h3
        · exact .inl hx
      rcases key with hx | h3
      · exact ho0 x hx hr
      · exact ⟨.taskResult m r, by simp, .inl (by simp [MEv.results, h3])⟩
    | timer i =>
      simp only [mstep] at hx
      cases ht : s.timers[i]? with
      | none => simp only [ht] at hx; exact ho0 x hx hr
      | some eu =>
        simp only [ht] at hx
        rcases strand_result _ _ _ x hx hr with ⟨r, h1, h2⟩ | ⟨h1, -⟩
        · exact ho0 (x.1, r) h1 h2
        · obtain ⟨y, hy, h'⟩ := h.disj.queued _ _ h1
          exact ⟨y, by simp [hy], .inr h'⟩
    | iopub m t =>
      simp only [mstep, iopub] at hx
      split at hx
      · rcases List.mem_append.1 hx with hx | hx
        · exact ho0 x hx hr
        · simp at hx; subst hx; simp at hr
      · (try dsimp only at hx)
        rcases mem_updRec hx with hx | ⟨h1, r, h2, h3⟩
        · exact ho0 x hx hr
        · rw [h3] at hr; rw [h1]; exact ho0 (m, r) h2 hr
    | resubmit ms news =>
      simp only [mstep] at hx
      obtain ⟨o, ho'⟩ := Option.isSome_iff_exists.1 hr
      obtain ⟨r, h1, h2⟩ := resubmit_db_result s ms news x hx o ho'
      exact ho0 (x.1, r) h1 (by simp [h2])
    | purge w es =>
      simp only [mstep] at hx
      exact ho0 x (purge_sub c s w es x hx) hr

theorem noRes_run (c : MCfg) (evs : List MEv) (h : Ordered evs) : NoRes evs (mrun c evs) := by
  induction evs using list_snoc_induction with
  | h0 => exact ⟨disj_run c [] h, by simp [mrun, hub0, startHub], by simp [mrun, hub0, startHub]⟩
  | h1 evs e ih =>
    rw [mrun_snoc]
    have h' := List.pairwise_append.1 h
    exact (ih h'.1).step c e (fun x hx m hm => h'.2.2 x hx e (by simp) m hm)

/-! ## the theorems -/

theorem purgeEngines_mem (c : MCfg) (hc : c.sql = true) (engines : List (Eid × Uuid)) (es : List Eid) : ∀ db, (∀ e ∈ es, ∃ u, getKey engines e = some u) →
    (purgeEngines c engines es db).2 = true ∧
    ∀ x, x ∈ (purgeEngines c engines es db).1 ↔ x ∈ db ∧ ¬ (x.2.result.isSome ∧ ∃ e ∈ es, ∃ u, getKey engines e = some u ∧ x.2.engine = some u) := by
  induction es with
  | nil => intro db _; exact ⟨rfl, fun x => by simp [purgeEngines]⟩
  | cons e es ih =>
    intro db hall
    obtain ⟨u, hu⟩ := hall e (by simp)
    unfold purgeEngines
    simp only [hu, hc, if_true]
    obtain ⟨h1, h2⟩ := ih (db.filter (fun x => ¬ (x.2.engine = some u ∧ x.2.result.isSome))) (fun e' he' => hall e' (by simp [he']))
    refine ⟨h1, fun x => ?_⟩
    rw [h2]
    simp only [List.mem_filter, decide_eq_true_eq]
    constructor
    · rintro ⟨⟨h3, h4⟩, h5⟩
      refine ⟨h3, ?_⟩
      rintro ⟨h6, e', he', u', hu', h7⟩
      rcases List.mem_cons.1 he' with rfl | he'
      · rw [hu] at hu'; simp at hu'; subst hu'
        exact h4 ⟨h7, h6⟩
      · exact h5 ⟨h6, e', he', u', hu', h7⟩
    · rintro ⟨h3, h4⟩
      exact ⟨⟨h3, fun h5 => h4 ⟨h5.2, e, by simp, u, hu, h5.1⟩⟩, fun h5 => h4 ⟨h5.1, by
        obtain ⟨e', he', h6⟩ := h5.2
        exact ⟨e', by simp [he'], h6⟩⟩⟩

/-- **C32 (1)** Whatever is purged, and however, the record of a message that is still pending stays as it is. -/
theorem purge_never_pending (c : MCfg) (evs : List MEv) (h : Ordered evs) (w : PurgeIds) (es : List Eid) (m : Mid) (hm : m ∈ (mrun c evs).pending) (r : TRec) :
    (m, r) ∈ (purge c (mrun c evs) w es).1.db ↔ (m, r) ∈ (mrun c evs).db := by
  constructor
  · exact purge_sub c _ w es _
  · intro hr
    have hn : r.result.isSome = false := by
      cases hb : r.result.isSome with
      | false => rfl
      | true => exact absurd hm ((noRes_run c evs h).res (m, r) hr hb)
    have hi : r.result = none := by cases hq : r.result <;> simp_all
    unfold purge
    cases w with
    | all => simp [hr, hi]
    | ids ms =>
      simp only
      split
      · exact hr
      · split
        · exact hr
        · rename_i h1 _
          have hk : m ∉ ms := by
            intro hc
            apply h1
            simp only [List.any_eq_true, decide_eq_true_eq]
            exact ⟨m, hc, hm⟩
          have gen : ∀ (es : List Eid) (db : List (Mid × TRec)), (m, r) ∈ db → (m, r) ∈ (purgeEngines c (mrun c evs).reg.engines es db).1 := by
            intro es
            induction es with
            | nil => intro db hdb; exact hdb
            | cons e es ih =>
              intro db hdb
              unfold purgeEngines
              split
              · exact hdb
              · apply ih
                split
                · simp [hdb, hi]
                · exact hdb
          exact gen es _ (by simp [hr, hk])

/-- **C32 (2)** Purging a list of ids is refused, without any effect, exactly when one of them is pending (or, with SQLite, the list is empty); else it succeeds. -/
theorem purge_ids_accepted_iff (c : MCfg) (s : Hub) (ms : List Mid) :
    ((purge c s (.ids ms) []).2 = true ↔ (∀ m ∈ ms, m ∉ s.pending) ∧ ¬ (c.sql = true ∧ ms = [])) ∧
    ((purge c s (.ids ms) []).2 = false → (purge c s (.ids ms) []).1 = s) := by
  unfold purge
  simp only
  split
  · rename_i h
    simp only [List.any_eq_true, decide_eq_true_eq] at h
    obtain ⟨m, h1, h2⟩ := h
    refine ⟨⟨by simp, fun h3 => absurd h2 (h3.1 m h1)⟩, fun _ => rfl⟩
  · rename_i h
    simp only [List.any_eq_true, decide_eq_true_eq, not_exists, not_and] at h
    split
    · rename_i h2
      refine ⟨⟨by simp, fun h3 => absurd h2 h3.2⟩, fun _ => rfl⟩
    · rename_i h2
      refine ⟨⟨fun _ => ⟨h, h2⟩, fun _ => rfl⟩, ?_⟩
      simp [purgeEngines]

/-- **C32 (3)** An accepted purge of a list of ids removes exactly the records with these ids. -/
theorem purge_ids_exact (c : MCfg) (s : Hub) (ms : List Mid) (h : (purge c s (.ids ms) []).2 = true) (x : Mid × TRec) :
    x ∈ (purge c s (.ids ms) []).1.db ↔ x ∈ s.db ∧ x.1 ∉ ms := by
  have h1 := (purge_ids_accepted_iff c s ms).1.1 h
  unfold purge
  simp only
  rw [if_neg, if_neg h1.2]
  · simp [purgeEngines]
  · simp only [List.any_eq_true, decide_eq_true_eq, not_exists, not_and]
    exact h1.1

/-- **C32 (4)** `purge_results('all')` removes exactly the records that have a result. -/
theorem purge_all_exact (c : MCfg) (s : Hub) (es : List Eid) :
    (purge c s .all es).2 = true ∧ ∀ x : Mid × TRec, x ∈ (purge c s .all es).1.db ↔ x ∈ s.db ∧ x.2.result = none := by
  simp [purge]

/-- **C32 (4b)** A purge that names an engine that is not registered gets an error reply. -/
theorem purge_unknown_engine (c : MCfg) (s : Hub) (ms : List Mid) (es : List Eid) (he : ∃ e ∈ es, getKey s.reg.engines e = none) :
    (purge c s (.ids ms) es).2 = false := by
  have key : ∀ (es : List Eid) (db : List (Mid × TRec)), (∃ e ∈ es, getKey s.reg.engines e = none) → (purgeEngines c s.reg.engines es db).2 = false := by
    intro es
    induction es with
    | nil => intro db h; obtain ⟨e, h, _⟩ := h; cases h
    | cons a es ih =>
      intro db h
      cases ha : getKey s.reg.engines a with
      | none => simp [purgeEngines, ha]
      | some u =>
        simp only [purgeEngines, ha]
        apply ih
        obtain ⟨e, he, hn⟩ := h
        rcases List.mem_cons.1 he with rfl | he
        · rw [ha] at hn; cases hn
        · exact ⟨e, he, hn⟩
  unfold purge
  simp only
  split
  · rfl
  · split
    · rfl
    · exact key es _ he

/-- **C32 (5)** With SQLite, and at least one id, a purge of ids and engines removes exactly the records with these ids and the completed ones of these engines. -/
theorem purge_engines_exact_partial (c : MCfg) (hc : c.sql = true) (s : Hub) (ms : List Mid) (hne : ms ≠ []) (hp : ∀ m ∈ ms, m ∉ s.pending) (es : List Eid)
    (he : ∀ e ∈ es, ∃ u, getKey s.reg.engines e = some u) :
    (purge c s (.ids ms) es).2 = true ∧
    ∀ x, x ∈ (purge c s (.ids ms) es).1.db ↔
      x ∈ s.db ∧ x.1 ∉ ms ∧ ¬ (x.2.result.isSome ∧ ∃ e ∈ es, ∃ u, getKey s.reg.engines e = some u ∧ x.2.engine = some u) := by
  have hcond : ¬ (ms.any (fun m => decide (m ∈ s.pending)) = true) := by
    simp only [List.any_eq_true, decide_eq_true_eq, not_exists, not_and]
    exact hp
  unfold purge
  simp only
  rw [if_neg hcond, if_neg (by simp [hne])]
  obtain ⟨h1, h2⟩ := purgeEngines_mem c hc s.reg.engines es (s.db.filter (fun x => x.1 ∉ ms)) he
  refine ⟨h1, fun x => ?_⟩
  rw [h2]
  simp [and_assoc]

/-- **C32 is violated**: purging the results of engines removes nothing when the hub uses its default in-memory database, whatever it contains. -/
theorem purge_engines_dict_violated (c : MCfg) (hc : c.sql = false) (s : Hub) (es : List Eid) : (purge c s (.ids []) es).1.db = s.db := by
  have gen : ∀ (es : List Eid) (db : List (Mid × TRec)), (purgeEngines c s.reg.engines es db).1 = db := by
    intro es
    induction es with
    | nil => intro db; rfl
    | cons e es ih =>
      intro db
      unfold purgeEngines
      split
      · rfl
      · rw [hc]; exact ih db
  simp [purge, hc, gen]

/-- **C32 is violated**: with SQLite a purge that names only engines is answered with an error and removes nothing. -/
theorem purge_engines_only_sql_violated (c : MCfg) (hc : c.sql = true) (s : Hub) (es : List Eid) : purge c s (.ids []) es = (s, false) := by
  simp [purge, hc]

end IPP.Hub
