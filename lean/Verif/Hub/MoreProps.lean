import Verif.Hub.PurgeProps

/-! # C28, C30: dead engines, stalled registrations, unassigned tasks; C55: `resubmit` -/
namespace IPP.Hub

/-! ## C28: dead engines and stalled registrations -/

/-- C28: when the heart of a registered engine stops, exactly this engine is unregistered, and its removal is announced. -/
theorem stopped_heart_unregisters (evs : List Ev) (h : ∀ e ∈ evs, e.Live) (i : Eid) (u : Uuid) (hm : (i, u) ∈ (run evs).1.engines) :
    (run (evs ++ [.stoppedHeart u])).2 = (run evs).2 ++ [.unregistered u i] ∧
    ∀ x, x ∈ (run (evs ++ [.stoppedHeart u])).1.engines ↔ x ∈ (run evs).1.engines ∧ x ≠ (i, u) := by
  have hi := Inv.runNotes (Inv.fresh none) h
  unfold run at *
  rw [runNotes_append]
  revert hi hm
  generalize (runNotes (fresh none) evs).1 = s
  intro hm hi
  have hn := (List.nodup_append.1 hi.ids).1
  have hu := (List.nodup_append.1 hi.uuids).1
  have hg : getKey s.hearts u = some i := by
    rw [hi.hearts]
    exact getKey_of_mem (by rw [flip_fst]; exact hu) (List.mem_map.2 ⟨_, hm, rfl⟩)
  have hg' : getKey s.engines i = some u := getKey_of_mem hn hm
  simp only [runNotes, step, hg, unregister, hg', List.append_nil, save, mem_delKey, true_and]
  intro x
  constructor
  · rintro ⟨hx, hne⟩
    refine ⟨hx, ?_⟩
    rintro rfl
    exact hne rfl
  · rintro ⟨hx, hne⟩
    refine ⟨hx, ?_⟩
    intro hxi
    apply hne
    have := getKey_of_mem hn (k := x.1) (v := x.2) hx
    rw [hxi, hg'] at this
    cases x
    simp at this hxi
    rw [hxi, this]

/-- C28: a registration whose engine never shows a heartbeat is forgotten when its timer fires: then the engine can try again, and gets an id. -/
theorem stalled_can_retry (evs : List Ev) (h : ∀ e ∈ evs, e.Live) (u : Uuid) (r : Option Eid) (hn : u ∉ (run evs).1.engines.map Prod.snd) :
    ∃ i b, (run (evs ++ [.stall u, .register u r])).2 = (run evs).2 ++ [.granted u i b] := by
  have hi := Inv.runNotes (Inv.fresh none) h
  unfold run at *
  rw [runNotes_append]
  revert hi hn
  generalize (runNotes (fresh none) evs).1 = s
  intro hn hi
  refine ⟨(newEngineId { s with incoming := delKey s.incoming u } r).1, (newEngineId { s with incoming := delKey s.incoming u } r).2.2, ?_⟩
  have h1 : u ∉ s.byIdent.map Prod.fst := by rw [hi.ident, flip_fst]; exact hn
  have h2 : u ∉ (delKey s.incoming u).map Prod.fst := by
    intro hc
    obtain ⟨x, hx, he⟩ := List.mem_map.1 hc
    exact (mem_delKey.1 hx).2 he
  have key : (register { s with incoming := delKey s.incoming u } u r).2 =
      [.granted u (newEngineId { s with incoming := delKey s.incoming u } r).1 (newEngineId { s with incoming := delKey s.incoming u } r).2.2] := by
    unfold register
    dsimp only
    rw [if_neg h1, if_neg h2]
  simp only [runNotes, step, List.nil_append, List.append_nil, key]

/-! ## C30: unassigned tasks -/

/-- the task `m` waits for an engine after `evs`: it was submitted, and since then there was no result for it, no restart, and no registered engine was named for it -/
def Waits (c : MCfg) (m : Mid) (evs : List MEv) : Prop :=
  ∃ pre post, evs = pre ++ .taskRequest m :: post ∧ (∀ r, .taskResult m r ∉ post) ∧ (∀ e ∈ post, e.Live) ∧
    ∀ mid u rest, post = mid ++ .taskDestination m u :: rest → getKey (mrun c (pre ++ .taskRequest m :: mid)).reg.byIdent u = none

theorem waits_snoc (c : MCfg) (m : Mid) (evs : List MEv) (e : MEv) (hne : e ≠ .taskRequest m) :
    Waits c m (evs ++ [e]) ↔ Waits c m evs ∧ (∀ r, e ≠ .taskResult m r) ∧ e.Live ∧ ∀ u, e = .taskDestination m u → getKey (mrun c evs).reg.byIdent u = none := by
  constructor
  · rintro ⟨pre, post, hs, hr, hl, hd⟩
    rcases List.eq_nil_or_concat post with rfl | ⟨post', a, rfl⟩
    · have := List.append_inj' hs rfl
      simp at this
      exact absurd this.2 hne
    · rw [List.concat_eq_append] at *
      have he : evs ++ [e] = (pre ++ .taskRequest m :: post') ++ [a] := by rw [hs]; simp
      obtain ⟨h1, h2⟩ := List.append_inj' he rfl
      simp at h2
      subst h2
      refine ⟨⟨pre, post', h1, fun r hc => hr r (by simp [hc]), fun x hx => hl x (by simp [hx]), ?_⟩, fun r hc => hr r (by simp [hc]), hl e (by simp), ?_⟩
      · intro mid u rest hp
        exact hd mid u (rest ++ [e]) (by rw [hp]; simp)
      · intro u hu
        rw [h1]
        exact hd post' u [] (by rw [hu])
  · rintro ⟨⟨pre, post, rfl, hr, hl, hd⟩, h1, h2, h3⟩
    refine ⟨pre, post ++ [e], by simp, ?_, ?_, ?_⟩
    · intro r hc
      rcases List.mem_append.1 hc with hc | hc
      · exact hr r hc
      · exact h1 r (List.mem_singleton.1 hc).symm
    · intro x hx
      rcases List.mem_append.1 hx with hx | hx
      · exact hl x hx
      · rw [List.mem_singleton.1 hx]; exact h2
    · intro mid u rest hp
      rcases List.eq_nil_or_concat rest with rfl | ⟨rest', a, rfl⟩
      · obtain ⟨g1, g2⟩ := List.append_inj' hp rfl
        simp at g2
        subst g1
        exact h3 u g2
      · rw [List.concat_eq_append] at hp
        have : post ++ [e] = (mid ++ .taskDestination m u :: rest') ++ [a] := by rw [hp]; simp
        exact hd mid u rest' (List.append_inj' this rfl).1

theorem noteEffects_unassigned (ns : List Note) : ∀ s : Hub, (ns.foldl noteEffect s).unassigned = s.unassigned := by
  induction ns with
  | nil => intro s; rfl
  | cons n ns ih => intro s; rw [List.foldl_cons, ih]; cases n <;> rfl

theorem strandLoop_unassigned (u : Uuid) (ms : List Mid) : ∀ s : Hub, (strandLoop u ms s).unassigned = s.unassigned := by
  induction ms with
  | nil => intro s; rfl
  | cons m ms ih =>
    intro s
    simp only [strandLoop]
    split
    · rw [ih]
    · rfl

/-- C30: the unassigned tasks in the queue status are exactly the tasks that wait for an engine. For every history. -/
theorem unassigned_exact (c : MCfg) (evs : List MEv) (m : Mid) : m ∈ (mrun c evs).unassigned ↔ Waits c m evs := by
  induction evs using list_snoc_induction with
  | h0 => constructor
          · intro h; simp [mrun, hub0, startHub] at h
          · rintro ⟨pre, post, h, _⟩; simp at h
  | h1 evs e ih =>
    rw [mrun_snoc]
    by_cases hreq : e = .taskRequest m
    · subst hreq
      constructor
      · intro _; exact ⟨evs, [], by simp, by simp, by simp, by simp⟩
      · intro _; simp [mstep, taskRequest, mem_addTo]
    · rw [waits_snoc c m evs e hreq, ← ih]
      generalize mrun c evs = s
      have keep : ∀ {s' : Hub}, s'.unassigned = s.unassigned → (∀ r, e ≠ .taskResult m r) → e.Live → (∀ u, e ≠ .taskDestination m u) →
          (m ∈ s'.unassigned ↔ m ∈ s.unassigned ∧ (∀ r, e ≠ .taskResult m r) ∧ e.Live ∧ ∀ u, e = .taskDestination m u → getKey s.reg.byIdent u = none) := by
        intro s' h1 h2 h3 h4
        rw [h1]
        exact ⟨fun h => ⟨h, h2, h3, fun u hu => absurd hu (h4 u)⟩, fun h => h.1⟩
      cases e with
      | reg ev =>
        by_cases hl : ev.Live
        · exact keep (by simp only [mstep]; rw [regStep_live c s hl, noteEffects_unassigned]) (by simp) hl (by simp)
        · constructor
          · intro h
            cases ev <;> simp [Ev.Live] at hl <;> simp [mstep, regStep, startHub] at h
          · rintro ⟨-, -, h, -⟩; exact absurd h hl
      | queueRequest u m' => exact keep (by simp only [mstep, queueRequest]; split <;> rfl) (by simp) trivial (by simp)
      | queueResult u m' r =>
        refine keep ?_ (by simp) trivial (by simp)
        simp only [mstep, queueResult]
        split
        · rfl
        · split
          · split <;> rfl
          · split <;> rfl
      | taskRequest m' =>
        have : m ≠ m' := fun hc => hreq (by rw [hc])
        simp [mstep, taskRequest, mem_addTo, this, MEv.Live]
      | taskDestination m' u =>
        simp only [mstep, taskDestination]
        cases hg : getKey s.reg.byIdent u with
        | none =>
          constructor
          · intro h
            refine ⟨h, by simp, trivial, ?_⟩
            rintro u' he
            simp at he
            rw [← he.2]; exact hg
          · exact fun h => h.1
        | some i =>
          simp only [mem_remFrom]
          constructor
          · rintro ⟨h, hne⟩
            refine ⟨h, by simp, trivial, ?_⟩
            intro u' he
            simp at he
            exact absurd he.1.symm hne
          · rintro ⟨h, -, -, hd⟩
            refine ⟨h, ?_⟩
            rintro rfl
            have := hd u rfl
            rw [hg] at this
            cases this
      | taskResult m' r =>
        have hu : (taskResult s m' r).unassigned = remFrom s.unassigned m' := by
          unfold taskResult
          dsimp only
          split
          · split <;> rfl
          · rfl
        simp only [mstep, hu, mem_remFrom]
        constructor
        · rintro ⟨h, hne⟩
          refine ⟨h, ?_, trivial, by simp⟩
          intro r' he
          simp at he
          exact hne he.1.symm
        · rintro ⟨h, hr, -, -⟩
          exact ⟨h, fun hc => hr r (by rw [hc])⟩
      | timer i =>
        refine keep ?_ (by simp) trivial (by simp)
        simp only [mstep]
        cases ht : s.timers[i]? with
        | none => rfl
        | some eu => exact strandLoop_unassigned _ _ _
      | iopub m' t => exact keep (by simp only [mstep, iopub]; split <;> rfl) (by simp) trivial (by simp)
      | resubmit ms news =>
        refine keep ?_ (by simp) trivial (by simp)
        simp only [mstep, resubmit]
        split <;> rfl
      | purge w es =>
        refine keep ?_ (by simp) trivial (by simp)
        simp only [mstep, purge]
        split
        · rfl
        · split
          · rfl
          · split <;> rfl

/-! ## C55: resubmit -/

/-- the database has one record per id -/
theorem db_keys_step (c : MCfg) (s : Hub) (e : MEv) (hn : (s.db.map Prod.fst).Nodup)
    (hf : ∀ ms news, e = .resubmit ms news → news.Nodup ∧ ∀ m ∈ news, m ∉ s.db.map Prod.fst) : ((mstep c s e).db.map Prod.fst).Nodup := by
  have upd : ∀ (db : List (Mid × TRec)) m f, (updRec db m f).map Prod.fst = db.map Prod.fst := by
    intro db m f
    unfold updRec
    rw [List.map_map]
    apply List.map_congr_left
    intro x _
    simp only [Function.comp]
    split
    · rename_i h; exact h.symm
    · rfl
  have app : ∀ (m : Mid) (r : TRec), getKey s.db m = none → ((s.db ++ [(m, r)]).map Prod.fst).Nodup := by
    intro m r hg
    rw [List.map_append, List.nodup_append]
    refine ⟨hn, by simp, ?_⟩
    intro a ha b hb
    simp at hb
    subst hb
    rintro rfl
    exact getKey_none hg ha
  have sav : ∀ m u, ((saveReq s.db m u).map Prod.fst).Nodup := by
    intro m u
    unfold saveReq
    cases hg : getKey s.db m with
    | some r => dsimp only; rw [upd]; exact hn
    | none => exact app m _ hg
  have noteDb : ∀ (ns : List Note) (s : Hub), (ns.foldl noteEffect s).db = s.db := by
    intro ns
    induction ns with
    | nil => intro s; rfl
    | cons n ns ih => intro s; rw [List.foldl_cons, ih]; cases n <;> rfl
  have strandDb : ∀ (u : Uuid) (ms : List Mid) (s : Hub), (strandLoop u ms s).db.map Prod.fst = s.db.map Prod.fst := by
    intro u ms
    induction ms with
    | nil => intro s; rfl
    | cons m ms ih =>
      intro s
      simp only [strandLoop]
      split
      · rw [ih, upd]
      · rfl
  cases e with
  | reg ev =>
    simp only [mstep]
    by_cases hl : ev.Live
    · rw [regStep_live c s hl, noteDb]; exact hn
    · cases ev <;> simp [Ev.Live] at hl <;> simp only [regStep, startHub] <;> split <;> simp [hn]
  | queueRequest u m =>
    simp only [mstep, queueRequest]
    split
    · exact hn
    · exact sav m _
  | queueResult u m r =>
    simp only [mstep, queueResult]
    split
    · exact hn
    · split
      · split
        · dsimp only; rw [upd]; exact hn
        · exact hn
      · split
        · dsimp only; rw [upd]; exact hn
        · exact hn
  | taskRequest m => exact sav m _
  | taskDestination m u =>
    simp only [mstep, taskDestination]
    split
    · exact hn
    · dsimp only; rw [upd]; exact hn
  | taskResult m r =>
    simp only [mstep, taskResult]
    split
    · split
      · dsimp only; rw [upd]; exact hn
      · dsimp only; rw [upd]; exact hn
    · exact hn
  | timer i =>
    simp only [mstep]
    cases ht : s.timers[i]? with
    | none => exact hn
    | some eu => dsimp only; rw [strandDb]; exact hn
  | iopub m t =>
    simp only [mstep, iopub]
    cases hg : getKey s.db m with
    | none => exact app m _ hg
    | some r => dsimp only; rw [upd]; exact hn
  | resubmit ms news =>
    obtain ⟨h1, h2⟩ := hf ms news rfl
    simp only [mstep, resubmit]
    split
    · exact hn
    · dsimp only
      have fold : ∀ (ps : List (Mid × Mid)) (db : List (Mid × TRec)),
          (ps.foldl (fun db (x : Mid × Mid) => updRec db x.1 (fun r => { r with resubmitted := some x.2 })) db).map Prod.fst = db.map Prod.fst := by
        intro ps
        induction ps with
        | nil => intro db; rfl
        | cons p ps ih => intro db; rw [List.foldl_cons, ih, upd]
      rw [fold, List.map_append, List.map_map, List.nodup_append]
      refine ⟨hn, ?_, ?_⟩
      · have : ∀ (a b : List Mid), ((a.zip b).map (Prod.fst ∘ fun (x : Mid × Mid) => (x.2, TRec.init none))).Sublist b := by
          intro a
          induction a with
          | nil => intro b; simp
          | cons x a ih => intro b; cases b with
            | nil => simp
            | cons y b => simpa using (ih b)
        exact h1.sublist (this _ _)
      · intro a ha b hb
        rintro rfl
        obtain ⟨x, hx, rfl⟩ := List.mem_map.1 hb
        exact h2 _ (List.of_mem_zip hx).2 ha
  | purge w es =>
    simp only [mstep]
    have sub : ∀ (engines : List (Eid × Uuid)) (es : List Eid) (db : List (Mid × TRec)), (purgeEngines c engines es db).1.Sublist db := by
      intro engines es
      induction es with
      | nil => intro db; exact List.Sublist.refl _
      | cons e es ih =>
        intro db
        simp only [purgeEngines]
        split
        · exact List.Sublist.refl _
        · refine (ih _).trans ?_
          split
          · exact List.filter_sublist
          · exact List.Sublist.refl _
    unfold purge
    split
    · exact hn.sublist (List.filter_sublist.map _)
    · split
      · exact hn
      · split
        · exact hn
        · exact hn.sublist (((sub _ _ _).trans List.filter_sublist).map _)

/-- ids of resubmitted tasks are new -/
def FreshNews (c : MCfg) (evs : List MEv) : Prop :=
  ∀ pre ms news post, evs = pre ++ .resubmit ms news :: post → news.Nodup ∧ ∀ m ∈ news, m ∉ (mrun c pre).db.map Prod.fst

theorem db_keys (c : MCfg) (evs : List MEv) (h : FreshNews c evs) : ((mrun c evs).db.map Prod.fst).Nodup := by
  induction evs using list_snoc_induction with
  | h0 => simp [mrun, hub0, startHub]
  | h1 evs e ih =>
    rw [mrun_snoc]
    refine db_keys_step c _ e (ih ?_) ?_
    · intro pre ms news post hs
      exact h pre ms news (post ++ [e]) (by rw [hs]; simp)
    · rintro ms news rfl
      exact h evs ms news [] rfl

/-- the records found for a list of different ids -/
theorem found_ids (db : List (Mid × TRec)) (hn : (db.map Prod.fst).Nodup) (ms : List Mid) (hm : ms.Nodup) :
    ((db.filter (fun x => x.1 ∈ ms)).length = ms.length ↔ ∀ m ∈ ms, m ∈ db.map Prod.fst) ∧ (db.filter (fun x => x.1 ∈ ms)).length ≤ ms.length := by
  have e : (db.filter (fun x => decide (x.1 ∈ ms))).map Prod.fst = (db.map Prod.fst).filter (fun k => decide (k ∈ ms)) := by
    rw [List.filter_map]; rfl
  have hl : (db.filter (fun x => x.1 ∈ ms)).length = ((db.map Prod.fst).filter (fun k => decide (k ∈ ms))).length := by
    rw [← e, List.length_map]
  rw [hl]
  have hn' : ((db.map Prod.fst).filter (fun k => decide (k ∈ ms))).Nodup := hn.sublist List.filter_sublist
  have hsub : ∀ k ∈ (db.map Prod.fst).filter (fun k => decide (k ∈ ms)), k ∈ ms := by
    intro k hk; simpa using (List.mem_filter.1 hk).2
  have hle : ∀ (a b : List Mid), a.Nodup → (∀ k ∈ a, k ∈ b) → a.length ≤ b.length := by
    intro a
    induction a with
    | nil => intro b _ _; simp
    | cons x a ih =>
      intro b ha hb
      rw [List.nodup_cons] at ha
      have hx := hb x (by simp)
      have : a.length ≤ (b.erase x).length := ih _ ha.2 (by
        intro k hk
        have hne : k ≠ x := fun hc => ha.1 (hc ▸ hk)
        exact (List.mem_erase_of_ne hne).2 (hb k (by simp [hk])))
      rw [List.length_erase_of_mem hx] at this
      have : b.length ≠ 0 := by intro hc; rw [List.length_eq_zero_iff.1 hc] at hx; simp at hx
      simp only [List.length_cons]
      omega
  refine ⟨⟨?_, ?_⟩, hle _ _ hn' hsub⟩
  · intro heq m hmm
    apply Classical.byContradiction
    intro hc
    have h1 : ∀ k ∈ (db.map Prod.fst).filter (fun k => decide (k ∈ ms)), k ∈ ms.erase m := by
      intro k hk
      have hne : k ≠ m := by rintro rfl; exact hc (List.mem_filter.1 hk).1
      exact (List.mem_erase_of_ne hne).2 (hsub k hk)
    have := hle _ _ hn' h1
    rw [List.length_erase_of_mem hmm, heq] at this
    have : ms.length ≠ 0 := by intro hc; rw [List.length_eq_zero_iff.1 hc] at hmm; simp at hmm
    omega
  · intro hall
    have := hle ms ((db.map Prod.fst).filter (fun k => decide (k ∈ ms))) hm (fun k hk => List.mem_filter.2 ⟨hall k hk, by simpa using hk⟩)
    have := hle _ _ hn' hsub
    omega

/-- C55: a request to resubmit different tasks is refused, and then changes nothing, exactly if one of them has no record. -/
theorem resubmit_refused_iff_partial (c : MCfg) (evs : List MEv) (h : FreshNews c evs) (ms news : List Mid) (hm : ms.Nodup) :
    ((resubmit (mrun c evs) ms news).2 = none ↔ ∃ m ∈ ms, getKey (mrun c evs).db m = none) ∧
    ((resubmit (mrun c evs) ms news).2 = none → (resubmit (mrun c evs) ms news).1 = mrun c evs) := by
  have hn := db_keys c evs h
  revert hn
  generalize mrun c evs = s
  intro hn
  have hf := (found_ids s.db hn ms hm).1
  have hk : (∃ m ∈ ms, getKey s.db m = none) ↔ ¬ ∀ m ∈ ms, m ∈ s.db.map Prod.fst := by
    constructor
    · rintro ⟨m, h1, h2⟩ h3
      exact getKey_none h2 (h3 m h1)
    · intro h1
      apply Classical.byContradiction
      intro h2
      apply h1
      intro m hm
      cases hg : getKey s.db m with
      | none => exact absurd ⟨m, hm, hg⟩ h2
      | some r => exact List.mem_map.2 ⟨_, getKey_some hg, rfl⟩
  rw [hk, ← hf]
  unfold resubmit
  dsimp only
  split
  · rename_i hc; simp [hc]
  · rename_i hc
    have : (s.db.filter (fun x => decide (x.1 ∈ ms))).length = ms.length := Classical.not_not.1 hc
    simp [this]

theorem resub_fold (ps : List (Mid × Mid)) (hn : (ps.map Prod.fst).Nodup) (m : Mid) : ∀ db : List (Mid × TRec),
    getKey (ps.foldl (fun db (x : Mid × Mid) => updRec db x.1 (fun r => { r with resubmitted := some x.2 })) db) m =
      match getKey ps m with
      | some n => (getKey db m).map (fun r => { r with resubmitted := some n })
      | none => getKey db m := by
  induction ps with
  | nil => intro db; rfl
  | cons p ps ih =>
    intro db
    rw [List.map_cons, List.nodup_cons] at hn
    rw [List.foldl_cons, ih hn.2, getKey_updRec]
    by_cases hp : p.1 = m
    · have h1 : getKey (p :: ps) m = some p.2 := by simp [getKey, hp]
      have h2 : getKey ps m = none := by
        cases hg : getKey ps m with
        | none => rfl
        | some n => exact absurd (List.mem_map.2 ⟨_, getKey_some hg, hp.symm⟩) hn.1
      rw [h1, h2]
      simp [hp]
    · have h1 : getKey (p :: ps) m = getKey ps m := by simp [getKey, hp]
      have hp' : ¬ m = p.1 := fun h => hp h.symm
      rw [h1]
      simp [hp']

/-- C55: otherwise every task gets one of the new ids: a fresh record, pending; the old record stays as it was and names the new id; all other records stay. -/
theorem resubmit_exact_partial (c : MCfg) (evs : List MEv) (h : FreshNews c evs) (ms news : List Mid) (hm : ms.Nodup) (hk : ∀ m ∈ ms, ∃ r, getKey (mrun c evs).db m = some r)
    (hf : news.Nodup ∧ ∀ m ∈ news, m ∉ (mrun c evs).db.map Prod.fst) (hlen : news.length = ms.length) :
    ∃ ps, (resubmit (mrun c evs) ms news).2 = some ps ∧ (ps.map Prod.fst).Perm ms ∧ ps.map Prod.snd = news ∧
      (∀ x ∈ ps, x.2 ∈ (resubmit (mrun c evs) ms news).1.pending ∧ getKey (resubmit (mrun c evs) ms news).1.db x.2 = some (.init none) ∧
        getKey (resubmit (mrun c evs) ms news).1.db x.1 = (getKey (mrun c evs).db x.1).map (fun r => { r with resubmitted := some x.2 })) ∧
      (∀ m, m ∉ ms → m ∉ news → getKey (resubmit (mrun c evs) ms news).1.db m = getKey (mrun c evs).db m) ∧
      ∀ m, m ∈ (resubmit (mrun c evs) ms news).1.pending ↔ m ∈ (mrun c evs).pending ∨ m ∈ news := by
  have hn := db_keys c evs h
  revert hn hk hf
  generalize mrun c evs = s
  intro hk hf hn
  have hall : ∀ m ∈ ms, m ∈ s.db.map Prod.fst := by
    intro m hmm
    obtain ⟨r, hr⟩ := hk m hmm
    exact List.mem_map.2 ⟨_, getKey_some hr, rfl⟩
  have hfl := (found_ids s.db hn ms hm).1.2 hall
  have e : (s.db.filter (fun x => decide (x.1 ∈ ms))).map Prod.fst = (s.db.map Prod.fst).filter (fun k => decide (k ∈ ms)) := by
    rw [List.filter_map]; rfl
  have hnf : ((s.db.filter (fun x => decide (x.1 ∈ ms))).map Prod.fst).Nodup := by rw [e]; exact hn.sublist List.filter_sublist
  have hmemf : ∀ k, k ∈ (s.db.filter (fun x => decide (x.1 ∈ ms))).map Prod.fst ↔ k ∈ ms := by
    intro k
    rw [e, List.mem_filter]
    exact ⟨fun h => by simpa using h.2, fun h => ⟨hall k h, by simpa using h⟩⟩
  have hperm : ((s.db.filter (fun x => decide (x.1 ∈ ms))).map Prod.fst).Perm ms := (List.perm_ext_iff_of_nodup hnf hm).2 hmemf
  generalize hids : (s.db.filter (fun x => decide (x.1 ∈ ms))).map Prod.fst = ids at *
  have hlen' : ids.length = news.length := by rw [hlen]; exact hperm.length_eq
  have z1 : (ids.zip news).map Prod.fst = ids := List.map_fst_zip (by omega)
  have z2 : (ids.zip news).map Prod.snd = news := List.map_snd_zip (by omega)
  have hps : (resubmit s ms news) = ({ s with
      pending := (ids.zip news).foldl (fun p (x : Mid × Mid) => addTo p x.2) s.pending,
      db := (ids.zip news).foldl (fun db (x : Mid × Mid) => updRec db x.1 (fun r => { r with resubmitted := some x.2 }))
        (s.db ++ (ids.zip news).map (fun (x : Mid × Mid) => (x.2, TRec.init none))) }, some (ids.zip news)) := by
    unfold resubmit
    dsimp only
    rw [if_neg (by simpa using hfl), hids]
  rw [hps]
  have hz1n : ((ids.zip news).map Prod.fst).Nodup := by rw [z1]; exact hnf
  have newk : ∀ m, getKey ((ids.zip news).map (fun (x : Mid × Mid) => (x.2, TRec.init none))) m = if m ∈ news then some (TRec.init none) else none := by
    intro m
    by_cases hmn : m ∈ news
    · obtain ⟨r, hr⟩ := getKey_map_new (ids.zip news) m (by rw [z2]; exact hmn)
      rw [if_pos hmn, hr]
      obtain ⟨x, hx, he⟩ := List.mem_map.1 (getKey_some hr)
      simp at he
      rw [he.2]
    · rw [if_neg hmn]
      cases hg : getKey ((ids.zip news).map (fun (x : Mid × Mid) => (x.2, TRec.init none))) m with
      | none => rfl
      | some r =>
        have := getKey_some hg
        obtain ⟨x, hx, he⟩ := List.mem_map.1 this
        simp at he
        exact absurd (he.1 ▸ (List.of_mem_zip hx).2) hmn
  have pend : ∀ m, m ∈ (ids.zip news).foldl (fun p (x : Mid × Mid) => addTo p x.2) s.pending ↔ m ∈ s.pending ∨ m ∈ news := by
    intro m; rw [mem_foldl_addTo, z2]
  refine ⟨ids.zip news, rfl, by rw [z1]; exact hperm, z2, ?_, ?_, pend⟩
  · intro x hx
    have hx1 : x.1 ∈ ids := (List.of_mem_zip hx).1
    have hx2 : x.2 ∈ news := (List.of_mem_zip hx).2
    refine ⟨(pend _).2 (.inr hx2), ?_, ?_⟩
    · dsimp only
      rw [resub_fold _ hz1n]
      have hnk : getKey (ids.zip news) x.2 = none := by
        cases hg : getKey (ids.zip news) x.2 with
        | none => rfl
        | some n =>
          have h1 := (List.of_mem_zip (getKey_some hg)).1
          exact absurd (hall _ ((hmemf _).1 h1)) (hf.2 _ hx2)
      have hdn : getKey s.db x.2 = none := by
        cases hg : getKey s.db x.2 with
        | none => rfl
        | some r => exact absurd (List.mem_map.2 ⟨_, getKey_some hg, rfl⟩) (hf.2 _ hx2)
      rw [hnk, getKey_append, hdn, newk, if_pos hx2]
      rfl
    · dsimp only
      rw [resub_fold _ hz1n, getKey_of_mem hz1n (k := x.1) (v := x.2) hx, getKey_append]
      obtain ⟨r, hr⟩ := hk _ ((hmemf _).1 hx1)
      rw [hr]
      rfl
  · intro m h1 h2
    dsimp only
    rw [resub_fold _ hz1n]
    have hnk : getKey (ids.zip news) m = none := by
      cases hg : getKey (ids.zip news) m with
      | none => rfl
      | some n => exact absurd ((hmemf _).1 (List.of_mem_zip (getKey_some hg)).1) h1
    rw [hnk, getKey_append, newk, if_neg h2]
    simp

/-- C55, violated: a task named twice in the list makes the whole request fail, although every task has a record. -/
theorem resubmit_duplicates_violated : (resubmit (mrun ⟨false, false⟩ [.taskRequest 1]) [1, 1] [2, 3]).2 = none ∧ ∃ r, getKey (mrun ⟨false, false⟩ [.taskRequest 1]).db 1 = some r := by
  exact ⟨by decide, ⟨_, rfl⟩⟩

example : (resubmit (mrun ⟨false, false⟩ [.taskRequest 1, .taskRequest 4]) [4, 1] [7, 8]).2 = some [(1, 7), (4, 8)] := by decide
example : Waits ⟨false, false⟩ 4 [.taskRequest 1, .taskRequest 4, .taskResult 1 ⟨0, [], none, false⟩] := (unassigned_exact _ _ _).1 (by decide)
example : ¬ Waits ⟨false, false⟩ 1 [.taskRequest 1, .taskRequest 4, .taskResult 1 ⟨0, [], none, false⟩] := fun h => absurd ((unassigned_exact _ _ _).2 h) (by decide)
example : (run [.register 5 none, .newHeart 5, .register 6 (some 9), .stoppedHeart 5, .stall 6, .register 6 (some 9)]).2 =
    [.granted 5 0 true, .registered 5 0, .granted 6 9 false, .unregistered 5 0, .granted 6 9 false] := by decide

end IPP.Hub
