import Verif.Hub.StatusProps

/-! # C31, C32: stored results, purging -/
namespace IPP.Hub

/-! ## the database as a map -/

section
variable {α : Type}

theorem getKey_append (a b : List (Mid × α)) (m : Mid) : getKey (a ++ b) m = (getKey a m).or (getKey b m) := by
  induction a with
  | nil => simp [getKey]
  | cons x a ih =>
    by_cases hx : x.1 = m
    · simp [getKey, hx]
    · have h1 : getKey (x :: (a ++ b)) m = getKey (a ++ b) m := by simp [getKey, hx]
      have h2 : getKey (x :: a) m = getKey a m := by simp [getKey, hx]
      rw [List.cons_append, h1, h2, ih]

theorem getKey_filter (l : List (Mid × α)) (p : Mid × α → Bool) (m : Mid) (h : ∀ r, p (m, r) = true) : getKey (l.filter p) m = getKey l m := by
  induction l with
  | nil => rfl
  | cons x l ih =>
    by_cases hx : x.1 = m
    · have : p x = true := by obtain ⟨a, b⟩ := x; simp at hx; subst hx; exact h b
      rw [List.filter_cons_of_pos this]; simp [getKey, hx]
    · have h2 : getKey (x :: l) m = getKey l m := by simp [getKey, hx]
      rw [h2, ← ih]
      by_cases hp : p x = true
      · rw [List.filter_cons_of_pos hp]; simp [getKey, hx]
      · rw [List.filter_cons_of_neg hp]

theorem getKey_filter_none (l : List (Mid × α)) (p : Mid × α → Bool) (m : Mid) (h : ∀ r, p (m, r) = false) : getKey (l.filter p) m = none := by
  unfold getKey
  rw [Option.map_eq_none_iff, List.find?_eq_none]
  intro x hx hc
  obtain ⟨-, hp⟩ := List.mem_filter.1 hx
  obtain ⟨a, b⟩ := x
  simp at hc; subst hc
  rw [h b] at hp; simp at hp

end

theorem getKey_updRec (db : List (Mid × TRec)) (m x : Mid) (f : TRec → TRec) :
    getKey (updRec db m f) x = if x = m then (getKey db m).map f else getKey db x := by
  induction db with
  | nil => simp [updRec, getKey]
  | cons y db ih =>
    unfold updRec at *
    rw [List.map_cons]
    by_cases hy : y.1 = m
    · simp only [hy, if_true]
      by_cases hx : x = m
      · subst hx; simp [getKey, hy]
      · have h1 : ∀ (z : TRec) (l : List (Mid × TRec)), getKey ((m, z) :: l) x = getKey l x := by
          intro z l; simp [getKey, Ne.symm hx]
        have h2 : getKey (y :: db) x = getKey db x := by
          have : ¬ y.1 = x := fun hc => hx (hc.symm.trans hy)
          simp [getKey, this]
        rw [h1, h2, ih, if_neg hx, if_neg hx]
    · simp only [hy, if_false]
      by_cases hyx : y.1 = x
      · have : ¬ x = m := fun hc => hy (hyx.trans hc)
        simp [getKey, hyx, this]
      · have h2 : ∀ l : List (Mid × TRec), getKey (y :: l) x = getKey l x := by intro l; simp [getKey, hyx]
        rw [h2, ih]
        split
        · rename_i hx
          have : getKey (y :: db) m = getKey db m := by simp [getKey, hy]
          rw [this]
        · rw [h2]

theorem mem_updRec {db : List (Mid × TRec)} {m : Mid} {f : TRec → TRec} {x : Mid × TRec} (h : x ∈ updRec db m f) :
    x ∈ db ∨ (x.1 = m ∧ ∃ r, (m, r) ∈ db ∧ x.2 = f r) := by
  obtain ⟨y, hy, he⟩ := List.mem_map.1 h
  split at he
  · rename_i hm
    right
    subst he
    refine ⟨rfl, y.2, ?_, rfl⟩
    rw [← hm]; exact hy
  · exact .inl (he ▸ hy)

/-! ## soundness: what is stored was returned by an engine -/

/-- engine `u` was lost -/
def Lost (c : MCfg) (evs : List MEv) (u : Uuid) : Prop := ∃ pre ev post, evs = pre ++ .reg ev :: post ∧ ∃ e, Note.unregistered u e ∈ (step (mrun c pre).reg ev).2

/-- The outcome is a reply that arrived for `m`, or an error for the loss of an engine. -/
def Genuine (c : MCfg) (evs : List MEv) (m : Mid) : Outcome → Prop
  | .reply r => (∃ u, .queueResult u m r ∈ evs) ∨ .taskResult m r ∈ evs
  | .died u => Lost c evs u

theorem Lost.mono {c : MCfg} {evs : List MEv} {u : Uuid} (e : MEv) (h : Lost c evs u) : Lost c (evs ++ [e]) u := by
  obtain ⟨pre, ev, post, rfl, h⟩ := h
  exact ⟨pre, ev, post ++ [e], by simp, h⟩

theorem Genuine.mono {c : MCfg} {evs : List MEv} {m : Mid} {o : Outcome} (e : MEv) (h : Genuine c evs m o) : Genuine c (evs ++ [e]) m o := by
  cases o with
  | reply r =>
    rcases h with ⟨u, h⟩ | h
    · exact .inl ⟨u, by simp [h]⟩
    · exact .inr (by simp [h])
  | died u => exact Lost.mono e h

structure Sound (c : MCfg) (evs : List MEv) (s : Hub) : Prop where
  db : ∀ x ∈ s.db, ∀ o, x.2.result = some o → Genuine c evs x.1 o
  timers : ∀ x ∈ s.timers, Lost c evs x.2

theorem Sound.mono {c : MCfg} {evs : List MEv} {s : Hub} (e : MEv) (h : Sound c evs s) : Sound c (evs ++ [e]) s :=
  ⟨fun x hx o ho => (h.db x hx o ho).mono e, fun x hx => (h.timers x hx).mono e⟩

/-- an update that keeps the result -/
theorem sound_upd_keep {c : MCfg} {evs : List MEv} {db : List (Mid × TRec)} (h : ∀ x ∈ db, ∀ o, x.2.result = some o → Genuine c evs x.1 o) (m : Mid) (f : TRec → TRec)
    (hf : ∀ r, (f r).result = r.result) : ∀ x ∈ updRec db m f, ∀ o, x.2.result = some o → Genuine c evs x.1 o := by
  intro x hx o ho
  rcases mem_updRec hx with hx | ⟨h1, r, hr, h2⟩
  · exact h x hx o ho
  · rw [h2, hf] at ho; rw [h1]; exact h _ hr o ho

theorem sound_upd_set {c : MCfg} {evs : List MEv} {db : List (Mid × TRec)} (h : ∀ x ∈ db, ∀ o, x.2.result = some o → Genuine c evs x.1 o) (m : Mid) (f : TRec → TRec)
    (o' : Outcome) (hg : Genuine c evs m o') (hf : ∀ r, (f r).result = some o') : ∀ x ∈ updRec db m f, ∀ o, x.2.result = some o → Genuine c evs x.1 o := by
  intro x hx o ho
  rcases mem_updRec hx with hx | ⟨h1, r, hr, h2⟩
  · exact h x hx o ho
  · rw [h2, hf] at ho; simp at ho; rw [h1, ← ho]; exact hg

theorem sound_saveReq {c : MCfg} {evs : List MEv} {db : List (Mid × TRec)} (h : ∀ x ∈ db, ∀ o, x.2.result = some o → Genuine c evs x.1 o) (m : Mid) (u : Option Uuid) :
    ∀ x ∈ saveReq db m u, ∀ o, x.2.result = some o → Genuine c evs x.1 o := by
  unfold saveReq
  split
  · exact sound_upd_keep h m _ (fun r => rfl)
  · intro x hx o ho
    rcases List.mem_append.1 hx with hx | hx
    · exact h x hx o ho
    · simp at hx; subst hx; simp [TRec.init] at ho

theorem sound_strand {c : MCfg} {evs : List MEv} (u : Uuid) (hu : Lost c evs u) (ms : List Mid) : ∀ s : Hub, (∀ x ∈ s.db, ∀ o, x.2.result = some o → Genuine c evs x.1 o) →
    ∀ x ∈ (strandLoop u ms s).db, ∀ o, x.2.result = some o → Genuine c evs x.1 o := by
  induction ms with
  | nil => intro s h; exact h
  | cons m ms ih =>
    intro s h
    unfold strandLoop
    split
    · apply ih
      exact sound_upd_set h m (fun x => { x with result := some (.died u), engine := some u }) (.died u) hu (fun _ => rfl)
    · exact h

theorem purgeEngines_sub (c : MCfg) (engines : List (Eid × Uuid)) (es : List Eid) : ∀ db, ∀ x ∈ (purgeEngines c engines es db).1, x ∈ db := by
  induction es with
  | nil => intro db x hx; exact hx
  | cons e es ih =>
    intro db x hx
    unfold purgeEngines at hx
    split at hx
    · exact hx
    · have := ih _ x hx
      split at this
      · exact (List.mem_filter.1 this).1
      · exact this

theorem purge_sub (c : MCfg) (s : Hub) (w : PurgeIds) (es : List Eid) : ∀ x ∈ (purge c s w es).1.db, x ∈ s.db := by
  intro x hx
  unfold purge at hx
  cases w with
  | all => exact (List.mem_filter.1 hx).1
  | ids ms =>
    simp only at hx
    split at hx
    · exact hx
    · split at hx
      · exact hx
      · exact (List.mem_filter.1 (purgeEngines_sub c _ es _ x hx)).1

theorem noteEffects_timers (ns : List Note) : ∀ s : Hub, ∀ x ∈ (ns.foldl noteEffect s).timers, x ∈ s.timers ∨ Note.unregistered x.2 x.1 ∈ ns := by
  induction ns with
  | nil => intro s x hx; exact .inl hx
  | cons n ns ih =>
    intro s x hx
    rcases ih (noteEffect s n) x hx with h | h
    · cases n with
      | unregistered u e =>
        simp only [noteEffect, List.mem_append, List.mem_singleton] at h
        rcases h with h | h
        · exact .inl h
        · subst h; exact .inr (by simp)
      | _ => exact .inl h
    · exact .inr (by simp [h])

theorem strandLoop_timers (u : Uuid) (ms : List Mid) (s : Hub) : (strandLoop u ms s).timers = s.timers := (strandLoop_spec u ms s).2.2.2.2.2.2.2.2.2.2.1

theorem resubmit_db_result (s : Hub) (ms news : List Mid) : ∀ x ∈ (resubmit s ms news).1.db, ∀ o, x.2.result = some o → ∃ r, (x.1, r) ∈ s.db ∧ r.result = some o := by
  unfold resubmit
  dsimp only
  split
  · intro x hx o ho; exact ⟨x.2, hx, ho⟩
  · simp only
    generalize ((s.db.filter (fun x => decide (x.1 ∈ ms))).map Prod.fst).zip news = ps
    have base : ∀ x ∈ s.db ++ ps.map (fun (y : Mid × Mid) => (y.2, TRec.init none)), ∀ o, x.2.result = some o → ∃ r, (x.1, r) ∈ s.db ∧ r.result = some o := by
      intro x hx o ho
      rcases List.mem_append.1 hx with hx | hx
      · exact ⟨x.2, hx, ho⟩
      · obtain ⟨y, -, rfl⟩ := List.mem_map.1 hx
        simp [TRec.init] at ho
    have gen : ∀ (qs : List (Mid × Mid)) (db : List (Mid × TRec)), (∀ x ∈ db, ∀ o, x.2.result = some o → ∃ r, (x.1, r) ∈ s.db ∧ r.result = some o) →
        ∀ x ∈ qs.foldl (fun db (y : Mid × Mid) => updRec db y.1 (fun r => { r with resubmitted := some y.2 })) db, ∀ o, x.2.result = some o →
          ∃ r, (x.1, r) ∈ s.db ∧ r.result = some o := by
      intro qs
      induction qs with
      | nil => intro db h; exact h
      | cons q qs ih =>
        intro db h
        apply ih
        intro x hx o ho
        rcases mem_updRec hx with hx | ⟨h1, r, hr, h2⟩
        · exact h x hx o ho
        · rw [h2] at ho
          rw [h1]; exact h _ hr o ho
    exact gen ps _ base

theorem sound_step {c : MCfg} {evs : List MEv} {s : Hub} (hs : s = mrun c evs) (h : Sound c evs s) (e : MEv) : Sound c (evs ++ [e]) (mstep c s e) := by
  have h0 := h.mono e
  cases e with
  | reg ev =>
    by_cases hl : ev.Live
    · simp only [mstep, regStep_live c s hl]
      refine ⟨?_, ?_⟩
      · rw [(noteEffects_pending _ _).2.2.2.1]; exact h0.db
      · intro x hx
        rcases noteEffects_timers _ _ x hx with hx | hx
        · exact h0.timers x hx
        · exact ⟨evs, ev, [], rfl, x.1, by rw [← hs]; exact hx⟩
    · have : ∃ r, mstep c s (.reg ev) = startHub r (if c.persistent then s.db else []) := by
        cases ev <;> first | exact absurd trivial hl | exact ⟨_, rfl⟩
      obtain ⟨r, hr⟩ := this
      rw [hr]
      refine ⟨?_, by simp [startHub]⟩
      intro x hx
      simp only [startHub] at hx
      split at hx
      · exact h0.db x hx
      · simp at hx
  | queueRequest u m =>
    simp only [mstep, queueRequest]
    split
    · exact h0
    · exact ⟨sound_saveReq h0.db m _, h0.timers⟩
  | queueResult u m r =>
    have hg : Genuine c (evs ++ [.queueResult u m r]) m (.reply r) := .inl ⟨u, by simp⟩
    simp only [mstep, queueResult]
    split
    · exact h0
    · split
      · split
        · exact ⟨sound_upd_set h0.db m (fun x => { x with result := some (.reply r) }) (.reply r) hg (fun _ => rfl), h0.timers⟩
        · exact ⟨h0.db, h0.timers⟩
      · split
        · exact ⟨sound_upd_set h0.db m (fun x => { x with result := some (.reply r) }) (.reply r) hg (fun _ => rfl), h0.timers⟩
        · exact h0
  | taskRequest m => exact ⟨sound_saveReq h0.db m _, h0.timers⟩
  | taskDestination m u =>
    simp only [mstep, taskDestination]
    split
    · exact h0
    · exact ⟨sound_upd_keep h0.db m (fun x => { x with engine := some u }) (fun _ => rfl), h0.timers⟩
  | taskResult m r =>
    have hg : Genuine c (evs ++ [.taskResult m r]) m (.reply r) := .inr (by simp)
    simp only [mstep, taskResult]
    split
    · refine ⟨?_, ?_⟩
      · have : ∀ s' : Hub, s'.db = s.db → ∀ x ∈ updRec s'.db m (fun x => { x with result := some (.reply r), engine := r.engine }), ∀ o, x.2.result = some o →
            Genuine c (evs ++ [.taskResult m r]) x.1 o := by
          intro s' hs'
          rw [hs']
          exact sound_upd_set h0.db m (fun x => { x with result := some (.reply r), engine := r.engine }) (.reply r) hg (fun _ => rfl)
        apply this
        split <;> rfl
      · intro x hx
        apply h0.timers x
        revert hx
        split <;> exact id
    · exact ⟨h0.db, h0.timers⟩
  | timer i =>
    simp only [mstep]
    cases ht : s.timers[i]? with
    | none => exact h0
    | some eu =>
      refine ⟨sound_strand eu.2 (h0.timers eu (List.mem_of_getElem? ht)) _ { s with timers := s.timers.eraseIdx i } h0.db, ?_⟩
      intro x hx
      simp only [strandLoop_timers] at hx
      exact h0.timers x (List.mem_of_mem_eraseIdx hx)
  | iopub m t =>
    simp only [mstep, iopub]
    split
    · refine ⟨?_, h0.timers⟩
      intro x hx o ho
      rcases List.mem_append.1 hx with hx | hx
      · exact h0.db x hx o ho
      · simp at hx; subst hx; simp at ho
    · exact ⟨sound_upd_keep h0.db m (fun x => { x with stdout := x.stdout ++ [t] }) (fun _ => rfl), h0.timers⟩
  | resubmit ms news =>
    simp only [mstep]
    refine ⟨?_, ?_⟩
    · intro x hx o ho
      obtain ⟨r, hr, ho'⟩ := resubmit_db_result s ms news x hx o ho
      exact h0.db (x.1, r) hr o ho'
    · have : (resubmit s ms news).1.timers = s.timers := by unfold resubmit; dsimp only; split <;> rfl
      rw [this]; exact h0.timers
  | purge w es =>
    simp only [mstep]
    refine ⟨fun x hx => h0.db x (purge_sub c s w es x hx), ?_⟩
    rw [(purge_spec c s w es).2.2.2.2.2.2.2]; exact h0.timers

theorem sound_run (c : MCfg) (evs : List MEv) : Sound c evs (mrun c evs) := by
  induction evs using list_snoc_induction with
  | h0 => exact ⟨by simp [mrun, hub0, startHub], by simp [mrun, hub0, startHub]⟩
  | h1 evs e ih => rw [mrun_snoc]; exact sound_step rfl ih e

/-! ## `get_results` -/

theorem mem_insertMid (m x : Mid) (l : List Mid) : x ∈ insertMid m l ↔ x = m ∨ x ∈ l := by
  induction l with
  | nil => simp [insertMid]
  | cons a l ih =>
    unfold insertMid
    split
    · simp
    · split
      · rename_i h; subst h; simp
      · simp only [List.mem_cons, ih]
        constructor
        · rintro (h | h | h)
          · exact .inr (.inl h)
          · exact .inl h
          · exact .inr (.inr h)
        · rintro (h | h | h)
          · exact .inr (.inl h)
          · exact .inl h
          · exact .inr (.inr h)

/-- the ids are asked for in a fixed order, each once -/
theorem mem_sortIds (l : List Mid) (x : Mid) : x ∈ sortIds l ↔ x ∈ l := by
  induction l with
  | nil => simp [sortIds]
  | cons a l ih =>
    have : sortIds (a :: l) = insertMid a (sortIds l) := rfl
    rw [this, mem_insertMid, ih, List.mem_cons]

theorem insertMid_sorted (m : Mid) (l : List Mid) (h : l.Pairwise (· < ·)) : (insertMid m l).Pairwise (· < ·) := by
  induction l with
  | nil => simp [insertMid]
  | cons a l ih =>
    have ha := List.pairwise_cons.1 h
    unfold insertMid
    split
    · rename_i hlt
      refine List.pairwise_cons.2 ⟨?_, h⟩
      intro x hx
      rcases List.mem_cons.1 hx with hx | hx
      · exact hx ▸ hlt
      · exact Nat.lt_trans hlt (ha.1 x hx)
    · split
      · exact h
      · rename_i h1 h2
        refine List.pairwise_cons.2 ⟨?_, ih ha.2⟩
        intro x hx
        rcases (mem_insertMid m x l).1 hx with hx | hx
        · subst hx
          show a < x
          exact Nat.lt_of_le_of_ne (Nat.le_of_not_lt h1) (fun hc => h2 hc.symm)
        · exact ha.1 x hx

theorem sortIds_sorted (l : List Mid) : (sortIds l).Pairwise (· < ·) := by
  induction l with
  | nil => simp [sortIds]
  | cons a l ih => exact insertMid_sorted a _ ih

theorem getKey_filter_mem (db : List (Mid × TRec)) (ids : List Mid) (m : Mid) :
    getKey (db.filter (fun x => x.1 ∈ ids)) m = if m ∈ ids then getKey db m else none := by
  by_cases hm : m ∈ ids
  · simp only [hm, if_true]
    exact getKey_filter db _ m (by simp [hm])
  · simp only [hm, if_false]
    exact getKey_filter_none db _ m (by simp [hm])

/-- buffers of a list of records, one after the other -/
def allBufs (l : List (Mid × TRec)) : List Nat := l.flatMap (fun x => (x.2.result.map Outcome.bufs).getD [])

theorem resultLoop_known (s : Hub) (so : Bool) (records : List (Mid × TRec)) (last : Option TRec) (ids : List Mid) :
    ∀ acc : ResultReply, (∀ m ∈ ids, m ∈ s.pending ∨ m ∈ s.done ∧ (so = true ∨ ∃ r, getKey records m = some r)) →
    ∃ rep extra, resultLoop s so records last ids acc = some rep ∧
      rep.pending = acc.pending ++ ids.filter (fun m => m ∈ s.pending) ∧
      rep.completed = acc.completed ++ ids.filter (fun m => m ∉ s.pending) ∧
      rep.content = acc.content ++ extra ∧ rep.buffers = acc.buffers ++ allBufs extra ∧
      extra.map Prod.fst = (if so then [] else ids.filter (fun m => m ∉ s.pending)) ∧ (∀ x ∈ extra, getKey records x.1 = some x.2) := by
  induction ids with
  | nil => intro acc _; exact ⟨acc, [], by simp [resultLoop, allBufs]⟩
  | cons m ids ih =>
    intro acc h
    have hrest := fun x hx => h x (List.mem_cons_of_mem m hx)
    unfold resultLoop
    by_cases hp : m ∈ s.pending
    · simp only [hp, if_true]
      obtain ⟨rep, extra, h1, h2, h3, h4, h5, h6, h7⟩ := ih { acc with pending := acc.pending ++ [m] } hrest
      refine ⟨rep, extra, h1, ?_, ?_, h4, h5, ?_, h7⟩
      · rw [h2, List.filter_cons_of_pos (by simpa using hp)]; simp
      · rw [h3, List.filter_cons_of_neg (by simpa using hp)]
      · rw [h6]; split
        · rfl
        · rw [List.filter_cons_of_neg (by simpa using hp)]
    · have hm := (h m (by simp)).resolve_left hp
      simp only [hp, hm.1, if_true, if_false]
      cases so with
      | true =>
        simp only [if_true]
        obtain ⟨rep, extra, h1, h2, h3, h4, h5, h6, h7⟩ := ih { acc with completed := acc.completed ++ [m] } hrest
        refine ⟨rep, extra, h1, ?_, ?_, h4, h5, by simpa using h6, h7⟩
        · rw [h2, List.filter_cons_of_neg (by simpa using hp)]
        · rw [h3, List.filter_cons_of_pos (by simpa using hp)]; simp
      | false =>
        simp only [Bool.false_eq_true, if_false]
        obtain ⟨r, hr⟩ := hm.2.resolve_left (by simp)
        rw [hr]
        simp only
        obtain ⟨rep, extra, h1, h2, h3, h4, h5, h6, h7⟩ := ih { acc with completed := acc.completed ++ [m]
                                                                         content := acc.content ++ [(m, r)]
                                                                         buffers := acc.buffers ++ (r.result.map Outcome.bufs).getD [] } hrest
        refine ⟨rep, (m, r) :: extra, h1, ?_, ?_, ?_, ?_, ?_, ?_⟩
        · rw [h2, List.filter_cons_of_neg (by simpa using hp)]
        · rw [h3, List.filter_cons_of_pos (by simpa using hp)]; simp
        · rw [h4]; simp
        · rw [h5]; simp [allBufs]
        · simp only [List.map_cons, Bool.false_eq_true, if_false] at h6 ⊢
          rw [h6, List.filter_cons_of_pos (by simpa using hp)]
        · intro x hx
          rcases List.mem_cons.1 hx with hx | hx
          · subst hx; exact hr
          · exact h7 x hx

theorem resultLoop_unknown (s : Hub) (so : Bool) (records : List (Mid × TRec)) (last : Option TRec) (ids : List Mid) (m : Mid) (hm : m ∈ ids) (h1 : m ∉ s.pending)
    (h2 : m ∉ s.done) (h3 : getKey records m = none) : ∀ acc : ResultReply, resultLoop s so records last ids acc = none := by
  induction ids with
  | nil => simp at hm
  | cons x ids ih =>
    intro acc
    unfold resultLoop
    rcases List.mem_cons.1 hm with hx | hx
    · subst hx; simp [h1, h2, h3]
    · have := ih hx
      split
      · exact this _
      · split
        · split
          · exact this _
          · split
            · rfl
            · exact this _
        · split
          · rfl
          · split
            · rfl
            · split <;> exact this _

/-- **C31 (1)** Asking for any known ids, in any order and with repetitions: each is reported as pending or as completed, according to the hub's state, and for each completed one the reply
contains exactly its stored record; the buffers follow in the same order. -/
theorem get_results_exact_partial (s : Hub) (ms : List Mid) (hk : ∀ m ∈ ms, m ∈ s.pending ∨ m ∈ s.done ∧ ∃ r, getKey s.db m = some r) :
    ∃ rep, getResults s ms false = some rep ∧
      rep.pending = (sortIds ms).filter (fun m => m ∈ s.pending) ∧ rep.completed = (sortIds ms).filter (fun m => m ∉ s.pending) ∧
      rep.content.map Prod.fst = rep.completed ∧ (∀ x ∈ rep.content, getKey s.db x.1 = some x.2) ∧ rep.buffers = allBufs rep.content := by
  unfold getResults
  dsimp only
  simp only [Bool.false_eq_true, if_false]
  obtain ⟨rep, extra, h1, h2, h3, h4, h5, h6, h7⟩ := resultLoop_known s false (s.db.filter (fun x => x.1 ∈ sortIds ms))
    ((s.db.filter (fun x => x.1 ∈ sortIds ms)).getLast?.map Prod.snd) (sortIds ms) { pending := [], completed := [], content := [], buffers := [] } (by
      intro m hm
      rcases hk m ((mem_sortIds ms m).1 hm) with h | ⟨h, r, hr⟩
      · exact .inl h
      · refine .inr ⟨h, .inr ⟨r, ?_⟩⟩
        rw [getKey_filter_mem, if_pos hm]; exact hr)
  refine ⟨rep, h1, by simpa using h2, by simpa using h3, ?_, ?_, ?_⟩
  · rw [h4, h3]; simpa using h6
  · rw [h4]
    intro x hx
    have := h7 x (by simpa using hx)
    rw [getKey_filter_mem] at this
    split at this
    · exact this
    · simp at this
  · rw [h4, h5]; simp

/-- **C31 (2)** … with `status_only` just the classification. -/
theorem get_status_exact_partial (s : Hub) (ms : List Mid) (hk : ∀ m ∈ ms, m ∈ s.pending ∨ m ∈ s.done) :
    getResults s ms true = some { pending := (sortIds ms).filter (fun m => m ∈ s.pending), completed := (sortIds ms).filter (fun m => m ∉ s.pending),
                                  content := [], buffers := [] } := by
  unfold getResults
  dsimp only
  simp only [if_true]
  obtain ⟨rep, extra, h1, h2, h3, h4, h5, h6, h7⟩ := resultLoop_known s true [] (([] : List (Mid × TRec)).getLast?.map Prod.snd) (sortIds ms)
    { pending := [], completed := [], content := [], buffers := [] } (by
      intro m hm
      rcases hk m ((mem_sortIds ms m).1 hm) with h | h
      · exact .inl h
      · exact .inr ⟨h, .inl rfl⟩)
  rw [h1]
  have he : extra = [] := by simpa using h6
  subst he
  cases rep
  simp at h2 h3 h4 h5
  simp [h2, h3, h4, h5, allBufs]

theorem resultLoop_stored (s : Hub) (records : List (Mid × TRec)) (last : Option TRec) (ids : List Mid) :
    ∀ acc : ResultReply, (∀ m ∈ ids, m ∉ s.pending ∧ ∃ r, getKey records m = some r) → (∃ l, last = some l ∧ l.result.isSome) →
    ∃ rep extra, resultLoop s false records last ids acc = some rep ∧ rep.pending = acc.pending ∧ rep.completed = acc.completed ++ ids ∧
      rep.content = acc.content ++ extra ∧ rep.buffers = acc.buffers ++ allBufs extra ∧ extra.map Prod.fst = ids ∧ (∀ x ∈ extra, getKey records x.1 = some x.2) := by
  induction ids with
  | nil => intro acc _ _; exact ⟨acc, [], by simp [resultLoop, allBufs]⟩
  | cons m ids ih =>
    intro acc h hl
    obtain ⟨hp, r, hr⟩ := h m (by simp)
    obtain ⟨l, hl1, hl2⟩ := hl
    obtain ⟨rep, extra, h1, h2, h3, h4, h5, h6, h7⟩ := ih { acc with completed := acc.completed ++ [m]
                                                                     content := acc.content ++ [(m, r)]
                                                                     buffers := acc.buffers ++ (r.result.map Outcome.bufs).getD [] }
      (fun x hx => h x (List.mem_cons_of_mem m hx)) ⟨l, hl1, hl2⟩
    refine ⟨rep, (m, r) :: extra, ?_, h2, by rw [h3]; simp, by rw [h4]; simp, by rw [h5]; simp [allBufs], by simp [h6], ?_⟩
    · rw [← h1, resultLoop]
      simp only [hp, if_false, hr, hl1, hl2, if_true, Bool.false_eq_true]
      split <;> rfl
    · intro x hx
      rcases List.mem_cons.1 hx with hx | hx
      · subst hx; exact hr
      · exact h7 x hx

theorem resultLoop_unfinished (s : Hub) (records : List (Mid × TRec)) (last : Option TRec) (ids : List Mid) :
    ∀ acc : ResultReply, (∀ m ∈ ids, m ∉ s.done ∧ ∃ r, getKey records m = some r) → (∃ l, last = some l ∧ l.result = none) →
    resultLoop s false records last ids acc = some { acc with pending := acc.pending ++ ids } := by
  induction ids with
  | nil => intro acc _ _; simp [resultLoop]
  | cons m ids ih =>
    intro acc h hl
    obtain ⟨hd, r, hr⟩ := h m (by simp)
    obtain ⟨l, hl1, hl2⟩ := hl
    have := ih { acc with pending := acc.pending ++ [m] } (fun x hx => h x (List.mem_cons_of_mem m hx)) ⟨l, hl1, hl2⟩
    rw [hl1] at this
    rw [resultLoop]
    simp only [hd, if_false, hr, hl1, hl2, Option.isSome_none, Bool.false_eq_true, this]
    split <;> simp

/-- **C31 (2a)** Ids that the hub process does not know, as after a restart, whose records in the database have results: all are completed, and the reply has their records and buffers. -/
theorem get_results_stored_partial (s : Hub) (ms : List Mid) (hne : ms ≠ []) (hp : ∀ m ∈ ms, m ∉ s.pending) (hk : ∀ m ∈ ms, ∃ r, getKey s.db m = some r)
    (hr : ∀ x ∈ s.db, x.1 ∈ ms → x.2.result.isSome) :
    ∃ rep, getResults s ms false = some rep ∧ rep.pending = [] ∧ (∀ m, m ∈ rep.completed ↔ m ∈ ms) ∧ rep.completed.Pairwise (· < ·) ∧
      rep.content.map Prod.fst = rep.completed ∧ (∀ x ∈ rep.content, getKey s.db x.1 = some x.2) ∧ rep.buffers = allBufs rep.content := by
  unfold getResults
  dsimp only
  simp only [Bool.false_eq_true, if_false]
  have hl : ∃ l, (s.db.filter (fun x => x.1 ∈ sortIds ms)).getLast?.map Prod.snd = some l ∧ l.result.isSome := by
    cases hg : (s.db.filter (fun x => x.1 ∈ sortIds ms)).getLast? with
    | none =>
      obtain ⟨m, hm⟩ := List.exists_mem_of_ne_nil ms hne
      obtain ⟨r, hr⟩ := hk m hm
      have : (m, r) ∈ s.db.filter (fun x => x.1 ∈ sortIds ms) := List.mem_filter.2 ⟨getKey_some hr, by simp [mem_sortIds, hm]⟩
      rw [List.getLast?_eq_none_iff.1 hg] at this; simp at this
    | some l =>
      have := List.mem_filter.1 (List.mem_of_getLast? hg)
      exact ⟨l.2, rfl, hr l this.1 (by simpa [mem_sortIds] using this.2)⟩
  obtain ⟨rep, extra, h1, h2, h3, h4, h5, h6, h7⟩ := resultLoop_stored s (s.db.filter (fun x => x.1 ∈ sortIds ms))
    ((s.db.filter (fun x => x.1 ∈ sortIds ms)).getLast?.map Prod.snd) (sortIds ms) { pending := [], completed := [], content := [], buffers := [] } (by
      intro m hm
      have hm' := (mem_sortIds ms m).1 hm
      obtain ⟨r, hr⟩ := hk m hm'
      exact ⟨hp m hm', r, by rw [getKey_filter_mem, if_pos hm]; exact hr⟩) hl
  simp only [List.nil_append] at h2 h3 h4 h5
  refine ⟨rep, h1, h2, fun m => by rw [h3, mem_sortIds], by rw [h3]; exact sortIds_sorted ms, by rw [h4, h3, h6], ?_, by rw [h4, h5]⟩
  rw [h4]
  intro x hx
  have := h7 x hx
  rw [getKey_filter_mem] at this
  split at this
  · exact this
  · simp at this

/-- **C31 (2b)** … and if none of the records has a result, all are pending. -/
theorem get_results_unfinished_partial (s : Hub) (ms : List Mid) (hne : ms ≠ []) (hd : ∀ m ∈ ms, m ∉ s.done) (hk : ∀ m ∈ ms, ∃ r, getKey s.db m = some r)
    (hr : ∀ x ∈ s.db, x.1 ∈ ms → x.2.result = none) :
    ∃ rep, getResults s ms false = some rep ∧ (∀ m, m ∈ rep.pending ↔ m ∈ ms) ∧ rep.pending.Pairwise (· < ·) ∧ rep.completed = [] ∧ rep.content = [] ∧ rep.buffers = [] := by
  unfold getResults
  dsimp only
  simp only [Bool.false_eq_true, if_false]
  have hl : ∃ l, (s.db.filter (fun x => x.1 ∈ sortIds ms)).getLast?.map Prod.snd = some l ∧ l.result = none := by
    cases hg : (s.db.filter (fun x => x.1 ∈ sortIds ms)).getLast? with
    | none =>
      obtain ⟨m, hm⟩ := List.exists_mem_of_ne_nil ms hne
      obtain ⟨r, hr⟩ := hk m hm
      have : (m, r) ∈ s.db.filter (fun x => x.1 ∈ sortIds ms) := List.mem_filter.2 ⟨getKey_some hr, by simp [mem_sortIds, hm]⟩
      rw [List.getLast?_eq_none_iff.1 hg] at this; simp at this
    | some l =>
      have := List.mem_filter.1 (List.mem_of_getLast? hg)
      exact ⟨l.2, rfl, hr l this.1 (by simpa [mem_sortIds] using this.2)⟩
  refine ⟨_, resultLoop_unfinished s _ _ _ _ ?_ hl, ?_⟩
  · intro m hm
    have hm' := (mem_sortIds ms m).1 hm
    obtain ⟨r, hr⟩ := hk m hm'
    exact ⟨hd m hm', r, by rw [getKey_filter_mem, if_pos hm]; exact hr⟩
  · exact ⟨fun m => by simp [mem_sortIds], by simpa using sortIds_sorted ms, rfl, rfl, rfl⟩

/-- **C31 (3)** A request that names an unknown id is answered with an error. -/
theorem get_results_rejects (s : Hub) (ms : List Mid) (so : Bool) (m : Mid) (hm : m ∈ ms) (h1 : m ∉ s.pending) (h2 : m ∉ s.done) (h3 : getKey s.db m = none) :
    getResults s ms so = none := by
  unfold getResults
  dsimp only
  apply resultLoop_unknown s so _ _ _ m ((mem_sortIds ms m).2 hm) h1 h2
  cases so with
  | true => simp [getKey]
  | false =>
    simp only [Bool.false_eq_true, if_false]
    rw [getKey_filter_mem, h3]; simp

/-- **C31 (4)** Every result in a reply is one that arrived for that very id, or reports the loss of an engine: for all histories. -/
theorem fetched_result_genuine (c : MCfg) (evs : List MEv) (ms : List Mid) (hk : ∀ m ∈ ms, m ∈ (mrun c evs).pending ∨ m ∈ (mrun c evs).done ∧ ∃ r, getKey (mrun c evs).db m = some r)
    (rep : ResultReply) (h : getResults (mrun c evs) ms false = some rep) :
    ∀ x ∈ rep.content, ∀ o, x.2.result = some o → Genuine c evs x.1 o := by
  obtain ⟨rep', h1, -, -, -, h5, -⟩ := get_results_exact_partial (mrun c evs) ms hk
  rw [h] at h1
  simp at h1; subst h1
  intro x hx o ho
  exact (sound_run c evs).db x (getKey_some (h5 x hx)) o ho

/-! ## completeness: a completed message has a result -/

def MEv.isPurge : MEv → Bool
  | .purge _ _ => true
  | _ => false

structure Full (s : Hub) : Prop where
  known : ∀ m, m ∈ s.pending ∨ m ∈ s.done → ∃ r, getKey s.db m = some r
  res : ∀ m, m ∈ s.done → ∃ r, getKey s.db m = some r ∧ r.result.isSome

theorem getKey_upd_some {db : List (Mid × TRec)} {m x : Mid} {f : TRec → TRec} {r : TRec} (h : getKey db x = some r) :
    ∃ r', getKey (updRec db m f) x = some r' ∧ (r' = r ∨ r' = f r) := by
  rw [getKey_updRec]
  split
  · rename_i he
    subst he
    exact ⟨f r, by simp [h], .inr rfl⟩
  · exact ⟨r, h, .inl rfl⟩

theorem getKey_saveReq (db : List (Mid × TRec)) (m : Mid) (u : Option Uuid) : ∃ r, getKey (saveReq db m u) m = some r := by
  unfold saveReq
  split
  · rename_i r hr
    obtain ⟨r', h, -⟩ := getKey_upd_some (m := m) (f := fun r => mergeReq r u) hr
    exact ⟨r', h⟩
  · rename_i hr
    rw [getKey_append, hr]
    exact ⟨_, by simp [getKey]; rfl⟩

theorem getKey_saveReq_keep (db : List (Mid × TRec)) (m x : Mid) (u : Option Uuid) (r : TRec) (h : getKey db x = some r) :
    ∃ r', getKey (saveReq db m u) x = some r' ∧ r'.result = r.result := by
  unfold saveReq
  split
  · obtain ⟨r', h', h''⟩ := getKey_upd_some (m := m) (f := fun r => mergeReq r u) h
    exact ⟨r', h', by rcases h'' with h'' | h'' <;> simp [h'', mergeReq]⟩
  · rw [getKey_append, h]; exact ⟨r, by simp⟩

theorem Full.upd {s : Hub} (h : Full s) {db' : List (Mid × TRec)} {p' d' : List Mid} (m : Mid)
    (hk : ∀ x r, getKey s.db x = some r → ∃ r', getKey db' x = some r' ∧ (r.result.isSome → r'.result.isSome))
    (hp : ∀ x, x ∈ p' ∨ x ∈ d' → (x ∈ s.pending ∨ x ∈ s.done) ∨ ∃ r, getKey db' x = some r)
    (hd : ∀ x, x ∈ d' → x ∈ s.done ∨ ∃ r, getKey db' x = some r ∧ r.result.isSome) (s' : Hub) (e1 : s'.db = db') (e2 : s'.pending = p') (e3 : s'.done = d') : Full s' := by
  refine ⟨?_, ?_⟩
  · intro x hx
    rw [e2, e3] at hx
    rw [e1]
    rcases hp x hx with h1 | h1
    · obtain ⟨r, hr⟩ := h.known x h1
      obtain ⟨r', hr', -⟩ := hk x r hr
      exact ⟨r', hr'⟩
    · exact h1
  · intro x hx
    rw [e3] at hx
    rw [e1]
    rcases hd x hx with h1 | h1
    · obtain ⟨r, hr, hs⟩ := h.res x h1
      obtain ⟨r', hr', hs'⟩ := hk x r hr
      exact ⟨r', hr', hs' hs⟩
    · exact h1

theorem full_strand (u : Uuid) (ms : List Mid) : ∀ s : Hub, Full s → Full (strandLoop u ms s) := by
  induction ms with
  | nil => intro s h; exact h
  | cons m ms ih =>
    intro s h
    unfold strandLoop
    split
    · rename_i hp
      apply ih
      refine h.upd m ?_ ?_ ?_ _ rfl rfl rfl
      · intro x r hr
        obtain ⟨r', h1, h2⟩ := getKey_upd_some (m := m) (f := fun x => { x with result := some (.died u), engine := some u }) hr
        refine ⟨r', h1, ?_⟩
        rcases h2 with h2 | h2 <;> subst h2
        · exact id
        · intro _; rfl
      · intro x hx
        left
        rcases hx with hx | hx
        · exact .inl (mem_remFrom.1 hx).1
        · rcases mem_addTo.1 hx with hx | hx
          · exact .inr hx
          · exact .inl (hx ▸ hp)
      · intro x hx
        rcases mem_addTo.1 hx with hx | hx
        · exact .inl hx
        · subst hx
          obtain ⟨r, hr⟩ := h.known x (.inl hp)
          right
          rw [getKey_updRec, if_pos rfl, hr]
          exact ⟨_, rfl, rfl⟩
    · exact h

theorem getKey_map_new (ps : List (Mid × Mid)) (x : Mid) (hx : x ∈ ps.map Prod.snd) :
    ∃ r, getKey (ps.map (fun (y : Mid × Mid) => (y.2, TRec.init none))) x = some r := by
  induction ps with
  | nil => simp at hx
  | cons p ps ih =>
    by_cases hp : p.2 = x
    · exact ⟨TRec.init none, by simp [getKey, hp]⟩
    · have : x ∈ ps.map Prod.snd := by
        simp only [List.map_cons, List.mem_cons] at hx
        exact hx.resolve_left (fun hc => hp hc.symm)
      obtain ⟨r, hr⟩ := ih this
      exact ⟨r, by simpa [getKey, hp] using hr⟩

theorem getKey_foldl_resub (qs : List (Mid × Mid)) (x : Mid) : ∀ (db : List (Mid × TRec)) (r : TRec), getKey db x = some r →
    ∃ r', getKey (qs.foldl (fun db (y : Mid × Mid) => updRec db y.1 (fun r => { r with resubmitted := some y.2 })) db) x = some r' ∧ r'.result = r.result := by
  induction qs with
  | nil => intro db r h; exact ⟨r, h, rfl⟩
  | cons q qs ih =>
    intro db r h
    obtain ⟨r1, h1, h2⟩ := getKey_upd_some (m := q.1) (f := fun r => { r with resubmitted := some q.2 }) h
    obtain ⟨r2, h3, h4⟩ := ih _ r1 h1
    refine ⟨r2, h3, ?_⟩
    rw [h4]
    rcases h2 with h2 | h2 <;> subst h2 <;> rfl

theorem full_step {c : MCfg} {evs : List MEv} {s : Hub} (hs : s = mrun c evs) (h : Full s) (e : MEv) (hw : WellBehaved c (evs ++ [e])) (hn : e.isPurge = false) :
    Full (mstep c s e) := by
  have hw0 := hw.prefix
  have hst : Status evs s := by rw [hs]; exact status_run c evs hw0
  have hinv : Inv s.reg := by rw [hs]; exact hub_reg_inv c evs hw0.live
  have hel : e.Live := hw.live e (by simp)
  cases e with
  | reg ev =>
    simp only [mstep, regStep_live c s hel]
    obtain ⟨h1, h2, -, h4, -⟩ := noteEffects_pending (step s.reg ev).2 { s with reg := (Hub.step s.reg ev).1 }
    exact ⟨by rw [h1, h2, h4]; exact h.known, by rw [h2, h4]; exact h.res⟩
  | queueRequest u m =>
    simp only [mstep, queueRequest]
    split
    · exact h
    · refine h.upd m ?_ ?_ ?_ _ rfl rfl rfl
      · intro x r hr
        obtain ⟨r', h1, h2⟩ := getKey_saveReq_keep s.db m x (some u) r hr
        exact ⟨r', h1, by rw [h2]; exact id⟩
      · rintro x (hx | hx)
        · rcases mem_addTo.1 hx with hx | hx
          · exact .inl (.inl hx)
          · subst hx; exact .inr (getKey_saveReq s.db x _)
        · exact .inl (.inr hx)
      · intro x hx; exact .inl hx
  | queueResult u m r =>
    obtain ⟨hreq, hfirst⟩ := hw.answersQ evs u m r [] rfl
    simp only [mstep, queueResult]
    cases hg : getKey s.reg.byIdent u with
    | none => exact h
    | some ei =>
      have hei := (ident_of_inv hinv u ei).1 hg
      have hmq : m ∈ s.queues ei := by rw [hst.q ei u hei]; exact unanswered_of hreq hfirst
      have hmp : m ∈ s.pending := hst.qp ei u hei m hmq
      simp only [hmp, hmq, if_true]
      refine h.upd m ?_ ?_ ?_ _ rfl rfl rfl
      · intro x r0 hr
        obtain ⟨r', h1, h2⟩ := getKey_upd_some (m := m) (f := fun x => { x with result := some (.reply r) }) hr
        refine ⟨r', h1, ?_⟩
        rcases h2 with h2 | h2 <;> subst h2
        · exact id
        · intro _; rfl
      · rintro x (hx | hx)
        · exact .inl (.inl (mem_remFrom.1 hx).1)
        · rcases mem_addTo.1 hx with hx | hx
          · exact .inl (.inr hx)
          · exact .inl (.inl (hx ▸ hmp))
      · intro x hx
        rcases mem_addTo.1 hx with hx | hx
        · exact .inl hx
        · subst hx
          obtain ⟨r0, hr⟩ := h.known x (.inl hmp)
          right
          rw [getKey_updRec, if_pos rfl, hr]
          exact ⟨_, rfl, rfl⟩
  | taskRequest m =>
    refine h.upd m ?_ ?_ ?_ _ rfl rfl rfl
    · intro x r hr
      obtain ⟨r', h1, h2⟩ := getKey_saveReq_keep s.db m x none r hr
      exact ⟨r', h1, by rw [h2]; exact id⟩
    · rintro x (hx | hx)
      · rcases mem_addTo.1 hx with hx | hx
        · exact .inl (.inl hx)
        · subst hx; exact .inr (getKey_saveReq s.db x _)
      · exact .inl (.inr hx)
    · intro x hx; exact .inl hx
  | taskDestination m u =>
    simp only [mstep, taskDestination]
    split
    · exact h
    · refine h.upd m ?_ (fun x hx => .inl hx) (fun x hx => .inl hx) _ rfl rfl rfl
      intro x r0 hr
      obtain ⟨r', h1, h2⟩ := getKey_upd_some (m := m) (f := fun x => { x with engine := some u }) hr
      refine ⟨r', h1, ?_⟩
      rcases h2 with h2 | h2 <;> subst h2 <;> exact id
  | taskResult m r =>
    obtain ⟨hreq, hfirst⟩ := hw.answersT evs m r [] rfl
    have hmp : m ∈ s.pending := hst.tp m hreq hfirst
    simp only [mstep, taskResult, hmp, if_true]
    refine h.upd (db' := updRec s.db m (fun x => { x with result := some (.reply r), engine := r.engine })) (p' := remFrom s.pending m) (d' := addTo s.done m) m ?_ ?_ ?_ _
      (by split <;> rfl) (by split <;> rfl) (by split <;> rfl)
    · intro x r0 hr
      obtain ⟨r', h1, h2⟩ := getKey_upd_some (m := m) (f := fun x => { x with result := some (.reply r), engine := r.engine }) hr
      refine ⟨r', h1, ?_⟩
      rcases h2 with h2 | h2 <;> subst h2
      · exact id
      · intro _; rfl
    · rintro x (hx | hx)
      · exact .inl (.inl (mem_remFrom.1 hx).1)
      · rcases mem_addTo.1 hx with hx | hx
        · exact .inl (.inr hx)
        · exact .inl (.inl (hx ▸ hmp))
    · intro x hx
      rcases mem_addTo.1 hx with hx | hx
      · exact .inl hx
      · subst hx
        obtain ⟨r0, hr⟩ := h.known x (.inl hmp)
        right
        rw [getKey_updRec, if_pos rfl, hr]
        exact ⟨_, rfl, rfl⟩
  | timer i =>
    simp only [mstep]
    cases ht : s.timers[i]? with
    | none => exact h
    | some eu => exact full_strand eu.2 _ _ ⟨h.known, h.res⟩
  | iopub m t =>
    simp only [mstep, iopub]
    split
    · refine h.upd m ?_ (fun x hx => .inl hx) (fun x hx => .inl hx) _ rfl rfl rfl
      intro x r hr
      exact ⟨r, by rw [getKey_append, hr]; rfl, id⟩
    · refine h.upd m ?_ (fun x hx => .inl hx) (fun x hx => .inl hx) _ rfl rfl rfl
      intro x r0 hr
      obtain ⟨r', h1, h2⟩ := getKey_upd_some (m := m) (f := fun x => { x with stdout := x.stdout ++ [t] }) hr
      refine ⟨r', h1, ?_⟩
      rcases h2 with h2 | h2 <;> subst h2 <;> exact id
  | resubmit ms news =>
    simp only [mstep]
    have hkeep : ∀ x r, getKey s.db x = some r → ∃ r', getKey (resubmit s ms news).1.db x = some r' ∧ (r.result.isSome → r'.result.isSome) := by
      intro x r hr
      unfold resubmit
      dsimp only
      split
      · exact ⟨r, hr, id⟩
      · simp only
        obtain ⟨r', h1, h2⟩ := getKey_foldl_resub (((s.db.filter (fun x => decide (x.1 ∈ ms))).map Prod.fst).zip news) x
          (s.db ++ (((s.db.filter (fun x => decide (x.1 ∈ ms))).map Prod.fst).zip news).map (fun (y : Mid × Mid) => (y.2, TRec.init none))) r
          (by rw [getKey_append, hr]; rfl)
        exact ⟨r', h1, by rw [h2]; exact id⟩
    obtain ⟨g1, g2, g3, g4, -⟩ := resubmit_spec s ms news
    refine h.upd (db' := (resubmit s ms news).1.db) (p' := (resubmit s ms news).1.pending) (d' := s.done) 0 hkeep ?_ (fun x hx => .inl hx) _ rfl rfl g2
    rintro x (hx | hx)
    · rcases (g4 x).1 hx with hx | ⟨ps, hps, hx⟩
      · exact .inl (.inl hx)
      · right
        revert hps
        unfold resubmit
        dsimp only
        split
        · intro hps; simp at hps
        · intro hps
          simp only [Option.some.injEq] at hps
          subst hps
          simp only
          have : ∃ r, getKey (s.db ++ (((s.db.filter (fun x => decide (x.1 ∈ ms))).map Prod.fst).zip news).map (fun (y : Mid × Mid) => (y.2, TRec.init none))) x = some r := by
            rw [getKey_append]
            cases hd : getKey s.db x with
            | some r => exact ⟨r, rfl⟩
            | none =>
              obtain ⟨r, hr⟩ := getKey_map_new _ x hx
              exact ⟨r, by rw [hr]; rfl⟩
          obtain ⟨r, hr⟩ := this
          obtain ⟨r', h1, -⟩ := getKey_foldl_resub (((s.db.filter (fun x => decide (x.1 ∈ ms))).map Prod.fst).zip news) x _ r hr
          exact ⟨r', h1⟩
    · exact .inl (.inr hx)
  | purge w es => simp [MEv.isPurge] at hn

theorem full_run (c : MCfg) (evs : List MEv) (h : WellBehaved c evs) (hn : ∀ e ∈ evs, e.isPurge = false) : Full (mrun c evs) := by
  induction evs using list_snoc_induction with
  | h0 => exact ⟨by simp [mrun, hub0, startHub], by simp [mrun, hub0, startHub]⟩
  | h1 evs e ih =>
    rw [mrun_snoc]
    exact full_step rfl (ih h.prefix (fun x hx => hn x (by simp [hx]))) e h (hn e (by simp))

/-- **C31 (5)** While nothing is purged, the result of every completed message can be fetched: whatever known ids a client asks for, the reply classifies them correctly and carries, for each
completed one, a result that arrived for that id (or the loss of its engine). -/
theorem fetch_known_partial (c : MCfg) (evs : List MEv) (h : WellBehaved c evs) (hn : ∀ e ∈ evs, e.isPurge = false) (ms : List Mid)
    (hk : ∀ m ∈ ms, m ∈ (mrun c evs).pending ∨ m ∈ (mrun c evs).done) :
    ∃ rep, getResults (mrun c evs) ms false = some rep ∧
      (∀ m, m ∈ rep.pending ↔ m ∈ ms ∧ m ∈ (mrun c evs).pending) ∧ (∀ m, m ∈ rep.completed ↔ m ∈ ms ∧ m ∉ (mrun c evs).pending) ∧
      rep.content.map Prod.fst = rep.completed ∧ rep.buffers = allBufs rep.content ∧
      ∀ x ∈ rep.content, ∃ o, x.2.result = some o ∧ Genuine c evs x.1 o := by
  have hf := full_run c evs h hn
  obtain ⟨rep, h1, h2, h3, h4, h5, h6⟩ := get_results_exact_partial (mrun c evs) ms (by
    intro m hm
    rcases hk m hm with hp | hd
    · exact .inl hp
    · exact .inr ⟨hd, hf.known m (.inr hd)⟩)
  refine ⟨rep, h1, ?_, ?_, h4, h6, ?_⟩
  · intro m; rw [h2]; simp [mem_sortIds]
  · intro m; rw [h3]; simp [mem_sortIds]
  · intro x hx
    have hc : x.1 ∈ rep.completed := by rw [← h4]; exact List.mem_map.2 ⟨x, hx, rfl⟩
    rw [h3] at hc
    simp [mem_sortIds] at hc
    have hd : x.1 ∈ (mrun c evs).done := (hk x.1 hc.1).resolve_left hc.2
    obtain ⟨r, hr, hres⟩ := hf.res x.1 hd
    have := h5 x hx
    rw [hr] at this
    simp at this
    obtain ⟨o, ho⟩ := Option.isSome_iff_exists.1 hres
    rw [this] at ho
    exact ⟨o, ho, (sound_run c evs).db x (getKey_some (h5 x hx)) o ho⟩

/-- The hub's record of a request says that it was requested, whatever was recorded for its id before (output may arrive first). -/
theorem request_recorded (s : Hub) (m : Mid) : (∃ r, getKey (taskRequest s m).db m = some r ∧ r.requested = true) ∧
    ∀ u e, getKey s.reg.byIdent u = some e → ∃ r, getKey (queueRequest s u m).db m = some r ∧ r.requested = true ∧ r.engine = some u := by
  have gen : ∀ u, ∃ r, getKey (saveReq s.db m u) m = some r ∧ r.requested = true ∧ (u.isSome → r.engine = u) := by
    intro u
    unfold saveReq
    cases hr : getKey s.db m with
    | some r =>
      refine ⟨mergeReq r u, ?_, rfl, ?_⟩
      · simp only [getKey_updRec, hr, if_true, Option.map_some]
      · intro hu; simp [mergeReq, hu]
    | none =>
      refine ⟨.init u, ?_, rfl, fun _ => rfl⟩
      simp only [getKey_append, hr]
      simp [getKey]
  refine ⟨?_, ?_⟩
  · obtain ⟨r, h1, h2, -⟩ := gen none
    exact ⟨r, h1, h2⟩
  · intro u e he
    obtain ⟨r, h1, h2, h3⟩ := gen (some u)
    refine ⟨r, ?_, h2, h3 rfl⟩
    simp only [queueRequest, he]
    exact h1

end IPP.Hub
