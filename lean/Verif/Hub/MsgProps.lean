import Verif.Hub.Msgs

/-! # C30: pending and completed -/
namespace IPP.Hub

/-! ## Specification vocabulary: what is in a history of monitor messages -/

/-- ids that the event introduces -/
def MEv.requests : MEv → List Mid
  | .queueRequest _ m => [m]
  | .taskRequest m => [m]
  | .resubmit _ news => news
  | _ => []

def MEv.queued : MEv → List Mid
  | .queueRequest _ m => [m]
  | _ => []

def MEv.results : MEv → List Mid
  | .queueResult _ m _ => [m]
  | .taskResult m _ => [m]
  | _ => []

/-- Requests come before results, and a message sent to an engine's queue has a new id. -/
def Ordered (evs : List MEv) : Prop := evs.Pairwise (fun e e' => ∀ m ∈ e'.requests, m ∉ e.results ∧ m ∉ e.queued)

/-- no controller restart -/
def MEv.Live : MEv → Prop
  | .reg e => e.Live
  | _ => True

/-! ## basic facts -/

theorem mem_addTo {l : List Mid} {m x : Mid} : x ∈ addTo l m ↔ x ∈ l ∨ x = m := by
  unfold addTo
  split
  · rename_i h
    constructor
    · exact .inl
    · rintro (h' | rfl)
      · exact h'
      · exact h
  · simp

theorem mem_remFrom {l : List Mid} {m x : Mid} : x ∈ remFrom l m ↔ x ∈ l ∧ x ≠ m := by simp [remFrom]

theorem mem_foldl_addTo (ps : List (Mid × Mid)) : ∀ (l : List Mid) (x : Mid), x ∈ ps.foldl (fun p (y : Mid × Mid) => addTo p y.2) l ↔ x ∈ l ∨ x ∈ ps.map Prod.snd := by
  induction ps with
  | nil => intro l x; simp
  | cons a ps ih =>
    intro l x
    simp only [List.foldl_cons, ih, mem_addTo, List.map_cons, List.mem_cons]
    constructor
    · rintro ((h | h) | h)
      · exact .inl h
      · exact .inr (.inl h)
      · exact .inr (.inr h)
    · rintro (h | h | h)
      · exact .inl (.inl h)
      · exact .inl (.inr h)
      · exact .inr h

theorem noteEffect_pending (s : Hub) (n : Note) : (noteEffect s n).pending = s.pending ∧ (noteEffect s n).done = s.done ∧ (noteEffect s n).reg = s.reg ∧
    (noteEffect s n).db = s.db ∧ (noteEffect s n).unassigned = s.unassigned := by
  cases n <;> simp [noteEffect]

theorem noteEffects_pending (ns : List Note) : ∀ s : Hub, (ns.foldl noteEffect s).pending = s.pending ∧ (ns.foldl noteEffect s).done = s.done ∧
    (ns.foldl noteEffect s).reg = s.reg ∧ (ns.foldl noteEffect s).db = s.db ∧ (ns.foldl noteEffect s).unassigned = s.unassigned := by
  induction ns with
  | nil => intro s; simp
  | cons n ns ih =>
    intro s
    obtain ⟨h1, h2, h3, h4, h5⟩ := ih (noteEffect s n)
    obtain ⟨g1, g2, g3, g4, g5⟩ := noteEffect_pending s n
    exact ⟨h1.trans g1, h2.trans g2, h3.trans g3, h4.trans g4, h5.trans g5⟩

theorem noteEffects_queues (ns : List Note) : ∀ (s : Hub) (e : Eid) (m : Mid), m ∈ (ns.foldl noteEffect s).queues e → m ∈ s.queues e := by
  induction ns with
  | nil => intro s e m h; exact h
  | cons n ns ih =>
    intro s e m h
    have := ih (noteEffect s n) e m h
    cases n with
    | registered u e' =>
      simp only [noteEffect, upd] at this
      split at this
      · simp at this
      · exact this
    | granted _ _ _ => exact this
    | refused _ => exact this
    | unregistered _ _ => exact this

theorem regStep_live (c : MCfg) (s : Hub) {e : Ev} (h : e.Live) : regStep c s e = (step s.reg e).2.foldl noteEffect { s with reg := (step s.reg e).1 } := by
  cases e <;> first | rfl | exact h.elim

/-- the messages that a strand timer completes: an initial part of the engine's queue -/
theorem strandLoop_spec (u : Uuid) (ms : List Mid) : ∀ s : Hub,
    (∀ x, x ∈ (strandLoop u ms s).pending → x ∈ s.pending) ∧ (∀ x, x ∈ (strandLoop u ms s).done → x ∈ s.done ∨ (x ∈ ms ∧ x ∉ (strandLoop u ms s).pending)) ∧
    (∀ x, x ∈ s.done → x ∈ (strandLoop u ms s).done) ∧ (∀ x, x ∈ s.pending → x ∈ (strandLoop u ms s).pending ∨ x ∈ (strandLoop u ms s).done) ∧
    (strandLoop u ms s).queues = s.queues ∧ (strandLoop u ms s).reg = s.reg ∧ (strandLoop u ms s).tasks = s.tasks ∧ (strandLoop u ms s).completed = s.completed ∧
    (∀ x, x ∉ ms → x ∈ s.pending → x ∈ (strandLoop u ms s).pending) ∧ (strandLoop u ms s).ids = s.ids ∧ (strandLoop u ms s).timers = s.timers ∧
    (strandLoop u ms s).unassigned = s.unassigned := by
  induction ms with
  | nil =>
    intro s
    refine ⟨fun _ h => h, fun _ h => .inl h, fun _ h => h, fun _ h => .inl h, rfl, rfl, rfl, rfl, fun _ _ h => h, rfl, rfl, rfl⟩
  | cons m ms ih =>
    intro s
    unfold strandLoop
    split
    · rename_i hp
      obtain ⟨h1, h2, h3, h4, h5, h6, h7, h8, h9, h10, h11, h12⟩ := ih { s with pending := remFrom s.pending m
                                                                                done := addTo s.done m
                                                                                db := updRec s.db m (fun x => { x with result := some (.died u), engine := some u }) }
      refine ⟨?_, ?_, ?_, ?_, h5, h6, h7, h8, ?_, h10, h11, h12⟩
      · intro x hx
        exact (mem_remFrom.1 (h1 x hx)).1
      · intro x hx
        rcases h2 x hx with h | ⟨h, h'⟩
        · rcases mem_addTo.1 h with h | h
          · exact .inl h
          · refine .inr ⟨by simp [h], ?_⟩
            intro hc
            exact (mem_remFrom.1 (h1 x hc)).2 h
        · exact .inr ⟨by simp [h], h'⟩
      · intro x hx
        exact h3 x (mem_addTo.2 (.inl hx))
      · intro x hx
        by_cases hxm : x = m
        · exact .inr (h3 x (mem_addTo.2 (.inr hxm)))
        · exact h4 x (mem_remFrom.2 ⟨hx, hxm⟩)
      · intro x hn hx
        simp only [List.mem_cons, not_or] at hn
        exact h9 x hn.2 (mem_remFrom.2 ⟨hx, hn.1⟩)
    · refine ⟨fun _ h => h, fun _ h => .inl h, fun _ h => h, fun _ h => .inl h, rfl, rfl, rfl, rfl, fun _ _ h => h, rfl, rfl, rfl⟩

theorem strandLoop_done_pending (u : Uuid) (ms : List Mid) : ∀ (s : Hub) (x : Mid), x ∈ (strandLoop u ms s).done → x ∉ s.done → x ∈ s.pending := by
  induction ms with
  | nil => intro s x h1 h2; exact absurd h1 h2
  | cons m ms ih =>
    intro s x h1 h2
    unfold strandLoop at h1
    split at h1
    · rename_i hp
      by_cases hx : x = m
      · exact hx ▸ hp
      · have := ih _ x h1 (fun h => (mem_addTo.1 h).elim h2 hx)
        exact (mem_remFrom.1 this).1
    · exact absurd h1 h2

theorem queueResult_cases (s : Hub) (u : Uuid) (m : Mid) (r : Reply) :
    (queueResult s u m r).reg = s.reg ∧
    ((queueResult s u m r).pending = s.pending ∧ (queueResult s u m r).done = s.done ∧ (queueResult s u m r).queues = s.queues ∨
     m ∈ s.pending ∧ (queueResult s u m r).pending = remFrom s.pending m ∧ (queueResult s u m r).done = addTo s.done m ∧
     (∀ e x, x ∈ (queueResult s u m r).queues e → x ∈ s.queues e)) := by
  unfold queueResult
  dsimp only
  split
  · exact ⟨rfl, .inl ⟨rfl, rfl, rfl⟩⟩
  · split
    · rename_i e _ hp
      refine ⟨by split <;> rfl, .inr ⟨hp, ?_⟩⟩
      split
      · refine ⟨rfl, rfl, ?_⟩
        intro e' x hx
        simp only [upd, remFirst] at hx
        split at hx
        · rename_i he; subst he; exact List.mem_of_mem_erase hx
        · exact hx
      · exact ⟨rfl, rfl, fun _ _ h => h⟩
    · split
      · exact ⟨rfl, .inl ⟨rfl, rfl, rfl⟩⟩
      · exact ⟨rfl, .inl ⟨rfl, rfl, rfl⟩⟩

theorem taskResult_cases (s : Hub) (m : Mid) (r : Reply) :
    (taskResult s m r).reg = s.reg ∧ (taskResult s m r).queues = s.queues ∧
    (m ∉ s.pending ∧ (taskResult s m r).pending = s.pending ∧ (taskResult s m r).done = s.done ∨
     m ∈ s.pending ∧ (taskResult s m r).pending = remFrom s.pending m ∧ (taskResult s m r).done = addTo s.done m) := by
  unfold taskResult
  simp only
  split
  · rename_i h
    split <;> exact ⟨rfl, rfl, .inr ⟨h, rfl, rfl⟩⟩
  · rename_i h
    exact ⟨rfl, rfl, .inl ⟨h, rfl, rfl⟩⟩

/-! ## pending and completed are disjoint -/

structure Disj (evs : List MEv) (s : Hub) : Prop where
  disj : ∀ m, m ∈ s.pending → m ∉ s.done
  origin : ∀ m, m ∈ s.done → ∃ e ∈ evs, m ∈ e.results ∨ m ∈ e.queued
  queued : ∀ i m, m ∈ s.queues i → ∃ e ∈ evs, m ∈ e.queued

theorem Disj.mono {evs evs' : List MEv} {s : Hub} (h : Disj evs s) (hs : ∀ e ∈ evs, e ∈ evs') : Disj evs' s :=
  ⟨h.disj, fun m hm => let ⟨e, he, h'⟩ := h.origin m hm; ⟨e, hs e he, h'⟩, fun i m hm => let ⟨e, he, h'⟩ := h.queued i m hm; ⟨e, hs e he, h'⟩⟩

theorem resubmit_spec (s : Hub) (ms news : List Mid) :
    (resubmit s ms news).1.queues = s.queues ∧ (resubmit s ms news).1.done = s.done ∧ (resubmit s ms news).1.reg = s.reg ∧
    (∀ x, x ∈ (resubmit s ms news).1.pending ↔ x ∈ s.pending ∨ ∃ ps, (resubmit s ms news).2 = some ps ∧ x ∈ ps.map Prod.snd) ∧
    (∀ ps, (resubmit s ms news).2 = some ps → ∀ x ∈ ps.map Prod.snd, x ∈ news) := by
  unfold resubmit
  dsimp only
  split
  · simp
  · refine ⟨rfl, rfl, rfl, ?_, ?_⟩
    · intro x
      simp only [mem_foldl_addTo]
      simp
    · intro ps hps x hx
      simp only [Option.some.injEq] at hps
      subst hps
      obtain ⟨y, hy, rfl⟩ := List.mem_map.1 hx
      exact (List.of_mem_zip hy).2

theorem purge_spec (c : MCfg) (s : Hub) (w : PurgeIds) (es : List Eid) :
    (purge c s w es).1.queues = s.queues ∧ (purge c s w es).1.done = s.done ∧ (purge c s w es).1.reg = s.reg ∧ (purge c s w es).1.pending = s.pending ∧
    (purge c s w es).1.tasks = s.tasks ∧ (purge c s w es).1.completed = s.completed ∧ (purge c s w es).1.ids = s.ids ∧ (purge c s w es).1.timers = s.timers := by
  unfold purge
  cases w with
  | all => simp
  | ids ms =>
    simp only
    split
    · simp
    · split <;> simp

theorem Disj.step {evs : List MEv} {s : Hub} (c : MCfg) (h : Disj evs s) (e : MEv)
    (ho : ∀ x ∈ evs, ∀ m ∈ e.requests, m ∉ x.results ∧ m ∉ x.queued) : Disj (evs ++ [e]) (mstep c s e) := by
  have hnew : ∀ m ∈ e.requests, m ∉ s.done := by
    intro m hm hd
    obtain ⟨x, hx, h1 | h1⟩ := h.origin m hd
    · exact (ho x hx m hm).1 h1
    · exact (ho x hx m hm).2 h1
  have hm0 : Disj (evs ++ [e]) s := h.mono (fun x hx => by simp [hx])
  cases e with
  | reg ev =>
    by_cases hl : ev.Live
    · simp only [mstep, regStep_live c s hl]
      obtain ⟨h1, h2, -⟩ := noteEffects_pending (Hub.step s.reg ev).2 { s with reg := (Hub.step s.reg ev).1 }
      refine ⟨?_, ?_, ?_⟩
      · rw [h1, h2]; exact h.disj
      · rw [h2]; exact hm0.origin
      · intro i m hm
        exact hm0.queued i m (noteEffects_queues _ { s with reg := (Hub.step s.reg ev).1 } _ _ hm)
    · have : ∃ r db, mstep c s (.reg ev) = startHub r db := by
        cases ev <;> first | exact absurd trivial hl | exact ⟨_, _, rfl⟩
      obtain ⟨r, db, hr⟩ := this
      rw [hr]
      exact ⟨by simp [startHub], by simp [startHub], by simp [startHub]⟩
  | queueRequest u m =>
    simp only [mstep, queueRequest]
    split
    · exact hm0
    · refine ⟨?_, hm0.origin, ?_⟩
      · intro x hx hd
        rcases mem_addTo.1 hx with hx | hx
        · exact h.disj x hx hd
        · exact hnew m (by simp [MEv.requests]) (hx ▸ hd)
      · intro i x hx
        simp only [upd] at hx
        split at hx
        · rcases List.mem_append.1 hx with hx | hx
          · exact hm0.queued _ _ hx
          · simp at hx; exact ⟨.queueRequest u m, by simp, by simp [MEv.queued, hx]⟩
        · exact hm0.queued _ _ hx
  | queueResult u m r =>
    simp only [mstep]
    obtain ⟨-, ⟨h1, h2, h3⟩ | ⟨hp, h1, h2, h3⟩⟩ := queueResult_cases s u m r
    · exact ⟨by rw [h1, h2]; exact h.disj, by rw [h2]; exact hm0.origin, by rw [h3]; exact hm0.queued⟩
    · refine ⟨?_, ?_, ?_⟩
      · rw [h1, h2]
        intro x hx hd
        obtain ⟨hx1, hx2⟩ := mem_remFrom.1 hx
        rcases mem_addTo.1 hd with hd | hd
        · exact h.disj x hx1 hd
        · exact hx2 hd
      · rw [h2]
        intro x hd
        rcases mem_addTo.1 hd with hd | hd
        · exact hm0.origin x hd
        · exact ⟨.queueResult u m r, by simp, .inl (by simp [MEv.results, hd])⟩
      · intro i x hx
        exact hm0.queued i x (h3 i x hx)
  | taskRequest m =>
    refine ⟨?_, hm0.origin, hm0.queued⟩
    intro x hx hd
    rcases mem_addTo.1 hx with hx | hx
    · exact h.disj x hx hd
    · exact hnew m (by simp [MEv.requests]) (hx ▸ hd)
  | taskDestination m u =>
    simp only [mstep, taskDestination]
    split
    · exact hm0
    · exact ⟨h.disj, hm0.origin, hm0.queued⟩
  | taskResult m r =>
    simp only [mstep]
    obtain ⟨-, h3, ⟨-, h1, h2⟩ | ⟨hp, h1, h2⟩⟩ := taskResult_cases s m r
    · exact ⟨by rw [h1, h2]; exact h.disj, by rw [h2]; exact hm0.origin, by rw [h3]; exact hm0.queued⟩
    · refine ⟨?_, ?_, by rw [h3]; exact hm0.queued⟩
      · rw [h1, h2]
        intro x hx hd
        obtain ⟨hx1, hx2⟩ := mem_remFrom.1 hx
        rcases mem_addTo.1 hd with hd | hd
        · exact h.disj x hx1 hd
        · exact hx2 hd
      · rw [h2]
        intro x hd
        rcases mem_addTo.1 hd with hd | hd
        · exact hm0.origin x hd
        · exact ⟨.taskResult m r, by simp, .inl (by simp [MEv.results, hd])⟩
  | timer i =>
    simp only [mstep]
    cases ht : s.timers[i]? with
    | none => exact hm0
    | some eu =>
      obtain ⟨ei, u⟩ := eu
      obtain ⟨h1, h2, h3, h4, h5, -⟩ := strandLoop_spec u (s.queues ei) { s with timers := s.timers.eraseIdx i }
      refine ⟨?_, ?_, ?_⟩
      · intro x hx hd
        rcases h2 x hd with h' | ⟨-, h'⟩
        · exact h.disj x (h1 x hx) h'
        · exact h' hx
      · intro x hd
        rcases h2 x hd with h' | ⟨h', -⟩
        · exact hm0.origin x h'
        · obtain ⟨y, hy, hq⟩ := hm0.queued _ _ h'
          exact ⟨y, hy, .inr hq⟩
      · simp only [h5]; exact hm0.queued
  | iopub m t =>
    simp only [mstep, iopub]
    split <;> exact ⟨h.disj, hm0.origin, hm0.queued⟩
  | resubmit ms news =>
    simp only [mstep]
    obtain ⟨h1, h2, -, h4, h5⟩ := resubmit_spec s ms news
    refine ⟨?_, by rw [h2]; exact hm0.origin, by rw [h1]; exact hm0.queued⟩
    rw [h2]
    intro x hx hd
    rcases (h4 x).1 hx with hx | ⟨ps, hps, hx⟩
    · exact h.disj x hx hd
    · exact hnew x (h5 ps hps x hx) hd
  | purge w es =>
    simp only [mstep]
    obtain ⟨h1, h2, -, h4, -⟩ := purge_spec c s w es
    exact ⟨by rw [h2, h4]; exact h.disj, by rw [h2]; exact hm0.origin, by rw [h1]; exact hm0.queued⟩

theorem mrun_snoc (c : MCfg) (evs : List MEv) (e : MEv) : mrun c (evs ++ [e]) = mstep c (mrun c evs) e := by simp [mrun]

theorem list_snoc_induction {α : Type} {P : List α → Prop} (h0 : P []) (h1 : ∀ l a, P l → P (l ++ [a])) : ∀ l, P l := by
  intro l
  have : ∀ r : List α, P r.reverse := by
    intro r
    induction r with
    | nil => exact h0
    | cons a r ih => rw [List.reverse_cons]; exact h1 _ _ ih
  have := this l.reverse
  rwa [List.reverse_reverse] at this

theorem disj_run (c : MCfg) (evs : List MEv) (h : Ordered evs) : Disj evs (mrun c evs) := by
  induction evs using list_snoc_induction with
  | h0 => exact ⟨by simp [mrun, hub0, startHub], by simp [mrun, hub0, startHub], by simp [mrun, hub0, startHub]⟩
  | h1 evs e ih =>
    rw [mrun_snoc]
    have := List.pairwise_append.1 h
    exact (ih this.1).step c e (fun x hx m hm => this.2.2 x hx e (by simp) m hm)

/-- **C30 (1)** For every history in which requests come before results, no message is both pending and completed. (Includes restarts, lost engines, purging, resubmission.) -/
theorem pending_completed_disjoint_partial (c : MCfg) (evs : List MEv) (h : Ordered evs) (m : Mid) : ¬ (m ∈ (mrun c evs).pending ∧ m ∈ (mrun c evs).done) :=
  fun ⟨h1, h2⟩ => (disj_run c evs h).disj m h1 h2

theorem done_step (c : MCfg) (s : Hub) (e : MEv) (hl : e.Live) {m : Mid} (h : m ∈ s.done) : m ∈ (mstep c s e).done := by
  cases e with
  | reg ev =>
    simp only [mstep, regStep_live c s hl]
    rw [(noteEffects_pending _ _).2.1]; exact h
  | queueRequest u m => simp only [mstep, queueRequest]; split <;> exact h
  | queueResult u m' r =>
    simp only [mstep]
    obtain ⟨-, ⟨-, h2, -⟩ | ⟨-, -, h2, -⟩⟩ := queueResult_cases s u m' r
    · rw [h2]; exact h
    · rw [h2]; exact mem_addTo.2 (.inl h)
  | taskRequest m => exact h
  | taskDestination m u => simp only [mstep, taskDestination]; split <;> exact h
  | taskResult m' r =>
    simp only [mstep]
    obtain ⟨-, -, ⟨-, -, h2⟩ | ⟨-, -, h2⟩⟩ := taskResult_cases s m' r
    · rw [h2]; exact h
    · rw [h2]; exact mem_addTo.2 (.inl h)
  | timer i =>
    simp only [mstep]
    cases ht : s.timers[i]? with
    | none => exact h
    | some eu => exact (strandLoop_spec eu.2 (s.queues eu.1) { s with timers := s.timers.eraseIdx i }).2.2.1 m h
  | iopub m t => simp only [mstep, iopub]; split <;> exact h
  | resubmit ms news => simp only [mstep]; rw [(resubmit_spec s ms news).2.1]; exact h
  | purge w es => simp only [mstep]; rw [(purge_spec c s w es).2.1]; exact h

theorem done_foldl (c : MCfg) (post : List MEv) : ∀ (s : Hub), (∀ e ∈ post, e.Live) → ∀ m, m ∈ s.done → m ∈ (post.foldl (mstep c) s).done := by
  induction post with
  | nil => intro s _ m h; exact h
  | cons e es ih =>
    intro s hl m h
    exact ih _ (fun x hx => hl x (by simp [hx])) m (done_step c s e (hl e (by simp)) h)

/-- **C30 (2)** Once completed, a message stays completed and never becomes pending again, while the controller runs. -/
theorem completed_stays_partial (c : MCfg) (pre post : List MEv) (ho : Ordered (pre ++ post)) (hl : ∀ e ∈ post, e.Live) (m : Mid) (h : m ∈ (mrun c pre).done) :
    m ∈ (mrun c (pre ++ post)).done ∧ m ∉ (mrun c (pre ++ post)).pending := by
  have hd : m ∈ (mrun c (pre ++ post)).done := by
    have : mrun c (pre ++ post) = post.foldl (mstep c) (mrun c pre) := by simp [mrun]
    rw [this]; exact done_foldl c post _ hl m h
  exact ⟨hd, fun hp => (disj_run c _ ho).disj m hp hd⟩

/-! ## the hub knows exactly the requested messages -/

/-- Did the hub take the event, in state `s`, as a request for `m`? -/
def Accepts (s : Hub) (e : MEv) (m : Mid) : Prop :=
  match e with
  | .queueRequest u m' => m' = m ∧ ∃ i, (i, u) ∈ s.reg.engines
  | .taskRequest m' => m' = m
  | .resubmit ms news => ∃ ps, (resubmit s ms news).2 = some ps ∧ m ∈ ps.map Prod.snd
  | _ => False

theorem mstep_reg (c : MCfg) (s : Hub) (e : MEv) (hl : e.Live) : (mstep c s e).reg = match e with
    | .reg ev => (step s.reg ev).1
    | _ => s.reg := by
  cases e with
  | reg ev =>
    simp only [mstep, regStep_live c s hl]
    rw [(noteEffects_pending _ _).2.2.1]
  | queueRequest u m => simp only [mstep, queueRequest]; split <;> rfl
  | queueResult u m r => simp only [mstep]; exact (queueResult_cases s u m r).1
  | taskRequest m => rfl
  | taskDestination m u => simp only [mstep, taskDestination]; split <;> rfl
  | taskResult m r => simp only [mstep]; exact (taskResult_cases s m r).1
  | timer i =>
    simp only [mstep]
    cases ht : s.timers[i]? with
    | none => rfl
    | some eu => exact (strandLoop_spec eu.2 (s.queues eu.1) { s with timers := s.timers.eraseIdx i }).2.2.2.2.2.1
  | iopub m t => simp only [mstep, iopub]; split <;> rfl
  | resubmit ms news => simp only [mstep]; rw [(resubmit_spec s ms news).2.2.1]
  | purge w es => simp only [mstep]; rw [(purge_spec c s w es).2.2.1]

/-- the registration events of a history -/
def regEvs (evs : List MEv) : List Ev := evs.filterMap (fun | .reg e => some e | _ => none)

theorem regEvs_live {evs : List MEv} (h : ∀ e ∈ evs, e.Live) : ∀ e ∈ regEvs evs, e.Live := by
  intro e he
  obtain ⟨x, hx, hxe⟩ := List.mem_filterMap.1 he
  cases x <;> simp at hxe
  subst hxe
  exact h _ hx

theorem mrun_reg (c : MCfg) (evs : List MEv) (h : ∀ e ∈ evs, e.Live) : (mrun c evs).reg = (run (regEvs evs)).1 := by
  induction evs using list_snoc_induction with
  | h0 => rfl
  | h1 evs e ih =>
    have ih := ih (fun x hx => h x (by simp [hx]))
    rw [mrun_snoc, mstep_reg c _ e (h e (by simp))]
    cases e with
    | reg ev =>
      have : regEvs (evs ++ [.reg ev]) = regEvs evs ++ [ev] := by simp [regEvs]
      rw [this]
      simp only [run, runNotes_append, runNotes, ih]
    | _ => simp only [ih, regEvs, List.filterMap_append, List.filterMap_cons, List.filterMap_nil, List.append_nil]

theorem hub_reg_inv (c : MCfg) (evs : List MEv) (h : ∀ e ∈ evs, e.Live) : Inv (mrun c evs).reg := by
  rw [mrun_reg c evs h]; exact Inv.runNotes (Inv.fresh none) (regEvs_live h)

theorem ident_of_inv {r : Reg} (h : Inv r) (u : Uuid) (i : Eid) : getKey r.byIdent u = some i ↔ (i, u) ∈ r.engines := by
  rw [h.ident]
  constructor
  · intro hg
    obtain ⟨x, hx, he⟩ := List.mem_map.1 (getKey_some hg)
    simp [flip] at he
    obtain ⟨rfl, rfl⟩ := he
    exact hx
  · intro hm
    exact getKey_of_mem (by rw [flip_fst]; exact (List.nodup_append.1 h.uuids).1) (List.mem_map.2 ⟨_, hm, rfl⟩)

theorem known_step (c : MCfg) (s : Hub) (hr : Inv s.reg) (e : MEv) (hl : e.Live) (m : Mid) :
    (m ∈ (mstep c s e).pending ∨ m ∈ (mstep c s e).done) ↔ (m ∈ s.pending ∨ m ∈ s.done) ∨ Accepts s e m := by
  cases e with
  | reg ev =>
    simp only [mstep, regStep_live c s hl, Accepts, or_false]
    obtain ⟨h1, h2, -⟩ := noteEffects_pending (step s.reg ev).2 { s with reg := (Hub.step s.reg ev).1 }
    rw [h1, h2]
  | queueRequest u m' =>
    simp only [mstep, queueRequest, Accepts]
    cases hg : getKey s.reg.byIdent u with
    | none =>
      have : ¬ ∃ i, (i, u) ∈ s.reg.engines := by
        rintro ⟨i, hi⟩
        rw [(ident_of_inv hr u i).2 hi] at hg; simp at hg
      simp [this]
    | some i =>
      have : ∃ i, (i, u) ∈ s.reg.engines := ⟨i, (ident_of_inv hr u i).1 hg⟩
      simp only [mem_addTo, this, and_true]
      constructor
      · rintro ((h | h) | h)
        · exact .inl (.inl h)
        · exact .inr h.symm
        · exact .inl (.inr h)
      · rintro ((h | h) | h)
        · exact .inl (.inl h)
        · exact .inr h
        · exact .inl (.inr h.symm)
  | queueResult u m' r =>
    simp only [mstep, Accepts, or_false]
    obtain ⟨-, ⟨h1, h2, -⟩ | ⟨hp, h1, h2, -⟩⟩ := queueResult_cases s u m' r
    · rw [h1, h2]
    · rw [h1, h2, mem_remFrom, mem_addTo]
      by_cases hm : m = m'
      · subst hm; simp [hp]
      · simp [hm]
  | taskRequest m' =>
    simp only [mstep, taskRequest, Accepts, mem_addTo]
    constructor
    · rintro ((h | h) | h)
      · exact .inl (.inl h)
      · exact .inr h.symm
      · exact .inl (.inr h)
    · rintro ((h | h) | h)
      · exact .inl (.inl h)
      · exact .inr h
      · exact .inl (.inr h.symm)
  | taskDestination m' u => simp only [mstep, taskDestination, Accepts, or_false]; split <;> rfl
  | taskResult m' r =>
    simp only [mstep, Accepts, or_false]
    obtain ⟨-, -, ⟨-, h1, h2⟩ | ⟨hp, h1, h2⟩⟩ := taskResult_cases s m' r
    · rw [h1, h2]
    · rw [h1, h2, mem_remFrom, mem_addTo]
      by_cases hm : m = m'
      · subst hm; simp [hp]
      · simp [hm]
  | timer i =>
    simp only [mstep, Accepts, or_false]
    cases ht : s.timers[i]? with
    | none => rfl
    | some eu =>
      obtain ⟨ei, u⟩ := eu
      simp only
      obtain ⟨h1, h2, h3, h4, -⟩ := strandLoop_spec u (s.queues ei) { s with timers := s.timers.eraseIdx i }
      constructor
      · rintro (h | h)
        · exact .inl (h1 m h)
        · rcases h2 m h with h' | ⟨h', h''⟩
          · exact .inr h'
          · -- completed by this timer: it was pending
            by_cases hd : m ∈ s.done
            · exact .inr hd
            · left
              exact strandLoop_done_pending u (s.queues ei) { s with timers := s.timers.eraseIdx i } m h hd
      · rintro (h | h)
        · exact h4 m h
        · exact .inr (h3 m h)
  | iopub m' t => simp only [mstep, iopub, Accepts, or_false]; split <;> rfl
  | resubmit ms news =>
    simp only [mstep, Accepts]
    obtain ⟨-, h2, -, h4, -⟩ := resubmit_spec s ms news
    rw [h2, h4]
    constructor
    · rintro ((h | h) | h)
      · exact .inl (.inl h)
      · exact .inr h
      · exact .inl (.inr h)
    · rintro ((h | h) | h)
      · exact .inl (.inl h)
      · exact .inr h
      · exact .inl (.inr h)
  | purge w es =>
    simp only [mstep, Accepts, or_false]
    obtain ⟨-, h2, -, h4, -⟩ := purge_spec c s w es
    rw [h2, h4]

/-- **C30 (3)** The hub knows (as pending or completed) exactly the messages whose request it took: tasks, resubmitted tasks, and messages to the queue of a registered engine. -/
theorem known_iff_requested (c : MCfg) (evs : List MEv) (hl : ∀ e ∈ evs, e.Live) (m : Mid) :
    (m ∈ (mrun c evs).pending ∨ m ∈ (mrun c evs).done) ↔ ∃ pre e post, evs = pre ++ e :: post ∧ Accepts (mrun c pre) e m := by
  induction evs using list_snoc_induction with
  | h0 => simp [mrun, hub0, startHub]
  | h1 evs e ih =>
    have hl' : ∀ x ∈ evs, x.Live := fun x hx => hl x (by simp [hx])
    rw [mrun_snoc, known_step c _ (hub_reg_inv c evs hl') e (hl e (by simp)), ih hl']
    constructor
    · rintro (⟨pre, e', post, rfl, h⟩ | h)
      · exact ⟨pre, e', post ++ [e], by simp, h⟩
      · exact ⟨evs, e, [], rfl, h⟩
    · rintro ⟨pre, e', post, heq, h⟩
      rcases List.eq_nil_or_concat post with hp | ⟨post', b, hp⟩
      · subst hp
        have := List.append_inj' heq rfl
        obtain ⟨rfl, h2⟩ := this
        simp at h2; subst h2
        exact .inr h
      · subst hp
        left
        have heq' : evs ++ [e] = (pre ++ e' :: post') ++ [b] := by simpa using heq
        have := List.append_inj' heq' rfl
        exact ⟨pre, e', post', this.1, h⟩

end IPP.Hub
