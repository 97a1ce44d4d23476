import Verif.Hub.Reg

/-! # C28, C29: engine ids -/
namespace IPP.Hub

/-! ## Specification vocabulary -/

/-- ids handed out in registration replies -/
def grantedIds (notes : List Note) : List Eid := notes.filterMap (fun | .granted _ i _ => some i | _ => none)

/-- The table of engines a client builds from the notifications it receives. -/
def clientTable (notes : List Note) : List (Eid × Uuid) :=
  notes.foldl (fun t n => match n with
    | .registered u i => t ++ [(i, u)]
    | .unregistered u i => t.filter (fun x => x ≠ (i, u))
    | _ => t) []

/-! ## association lists -/

section assoc
variable {κ α : Type} [DecidableEq κ]

theorem setKey_fresh {d : List (κ × α)} {k : κ} (h : k ∉ d.map Prod.fst) (v : α) : setKey d k v = d ++ [(k, v)] := by
  simp [setKey, h]

theorem getKey_some {d : List (κ × α)} {k : κ} {v : α} (h : getKey d k = some v) : (k, v) ∈ d := by
  unfold getKey at h
  cases hf : d.find? (fun x => decide (x.1 = k)) with
  | none => simp [hf] at h
  | some x =>
    have hm := List.mem_of_find?_eq_some hf
    have hp := List.find?_some hf
    simp [hf] at h hp
    obtain ⟨a, b⟩ := x
    simp at h hp; subst h; subst hp; exact hm

theorem getKey_none {d : List (κ × α)} {k : κ} (h : getKey d k = none) : k ∉ d.map Prod.fst := by
  unfold getKey at h
  simp only [Option.map_eq_none_iff, List.find?_eq_none, decide_eq_true_eq] at h
  intro hm
  obtain ⟨x, hx, rfl⟩ := List.mem_map.1 hm
  exact h x hx rfl

theorem getKey_of_mem {d : List (κ × α)} (hn : (d.map Prod.fst).Nodup) {k : κ} {v : α} (h : (k, v) ∈ d) : getKey d k = some v := by
  induction d with
  | nil => simp at h
  | cons x d ih =>
    simp only [List.map_cons, List.nodup_cons] at hn
    unfold getKey
    by_cases hk : x.1 = k
    · rw [List.find?_cons_of_pos (by simpa using hk)]
      rcases List.mem_cons.1 h with h | h
      · subst h; rfl
      · exact absurd (List.mem_map.2 ⟨_, h, hk.symm⟩) hn.1
    · rw [List.find?_cons_of_neg (by simpa using hk)]
      rcases List.mem_cons.1 h with h | h
      · subst h; exact absurd rfl hk
      · exact ih hn.2 h

theorem delKey_sublist (d : List (κ × α)) (k : κ) : List.Sublist (delKey d k) d := List.filter_sublist

theorem mem_delKey {d : List (κ × α)} {k : κ} {x : κ × α} : x ∈ delKey d k ↔ x ∈ d ∧ x.1 ≠ k := by
  simp [delKey]

theorem delKey_perm {d : List (κ × α)} (hn : (d.map Prod.fst).Nodup) {k : κ} {v : α} (h : (k, v) ∈ d) :
    d.Perm ((k, v) :: delKey d k) := by
  induction d with
  | nil => simp at h
  | cons x d ih =>
    simp only [List.map_cons, List.nodup_cons] at hn
    rcases List.mem_cons.1 h with h | h
    · subst h
      have : delKey ((k, v) :: d) k = d := by
        unfold delKey
        rw [List.filter_cons_of_neg (by simp)]
        apply List.filter_eq_self.2
        intro y hy
        have : y.1 ≠ k := fun e => hn.1 (e ▸ List.mem_map.2 ⟨y, hy, rfl⟩)
        simpa using this
      rw [this]
    · have hk : x.1 ≠ k := fun e => hn.1 (e ▸ List.mem_map.2 ⟨_, h, rfl⟩)
      have : delKey (x :: d) k = x :: delKey d k := by
        unfold delKey; rw [List.filter_cons_of_pos (by simpa using hk)]
      rw [this]
      exact ((ih hn.2 h).cons x).trans (List.Perm.swap _ _ _)

end assoc

def flip (x : Eid × Uuid) : Uuid × Eid := (x.2, x.1)

/-- the invariant of one controller -/
structure Inv (s : Reg) : Prop where
  ids : (s.engines.map Prod.fst ++ s.incoming.map Prod.snd).Nodup
  uuids : (s.engines.map Prod.snd ++ s.incoming.map Prod.fst).Nodup
  below : ∀ i ∈ s.engines.map Prod.fst ++ s.incoming.map Prod.snd, i < s.counter
  ident : s.byIdent = s.engines.map flip
  hearts : s.hearts = s.engines.map flip

theorem flip_fst (l : List (Eid × Uuid)) : (l.map flip).map Prod.fst = l.map Prod.snd := by simp [flip, Function.comp_def]
theorem flip_snd (l : List (Eid × Uuid)) : (l.map flip).map Prod.snd = l.map Prod.fst := by simp [flip, Function.comp_def]

theorem newEngineId_lt (s : Reg) (r : Option Eid) : (newEngineId s r).1 < (newEngineId s r).2.1 ∧ s.counter ≤ (newEngineId s r).2.1 := by
  unfold newEngineId
  split
  · simp
  · split
    · simp
    · split
      · simp
      · exact ⟨Nat.lt_of_lt_of_le (Nat.lt_succ_self _) (Nat.le_max_left _ _), Nat.le_max_right _ _⟩

theorem newEngineId_new {s : Reg} (h : Inv s) (r : Option Eid) : (newEngineId s r).1 ∉ s.engines.map Prod.fst ++ s.incoming.map Prod.snd := by
  have hc : s.counter ∉ s.engines.map Prod.fst ++ s.incoming.map Prod.snd := fun hm => Nat.lt_irrefl _ (h.below _ hm)
  unfold newEngineId
  split
  · exact hc
  · split
    · exact hc
    · split
      · exact hc
      · rename_i h1 h2
        simp only [List.mem_append, not_or]; exact ⟨h1, h2⟩

theorem nodup_append_singleton {α : Type} {a b : List α} {x : α} (h : (a ++ b).Nodup) (hx : x ∉ a ++ b) : (a ++ (b ++ [x])).Nodup := by
  rw [← List.append_assoc, List.nodup_append]
  refine ⟨h, by simp, ?_⟩
  intro y hy z hz
  simp at hz; subst hz
  exact fun e => hx (e ▸ hy)

theorem Inv.register {s : Reg} (h : Inv s) (u : Uuid) (r : Option Eid) : Inv (register s u r).1 := by
  have hlt := newEngineId_lt s r
  have hnew := newEngineId_new h r
  unfold Hub.register
  simp only
  split
  · exact ⟨h.ids, h.uuids, fun i hi => Nat.lt_of_lt_of_le (h.below i hi) hlt.2, h.ident, h.hearts⟩
  · rename_i h1
    split
    · exact ⟨h.ids, h.uuids, fun i hi => Nat.lt_of_lt_of_le (h.below i hi) hlt.2, h.ident, h.hearts⟩
    · rename_i h2
      rw [h.ident, flip_fst] at h1
      have hset : setKey s.incoming u (newEngineId s r).1 = s.incoming ++ [(u, (newEngineId s r).1)] := setKey_fresh h2 _
      refine ⟨?_, ?_, ?_, h.ident, h.hearts⟩
      · simp only [hset, List.map_append, List.map_cons, List.map_nil]
        exact nodup_append_singleton h.ids hnew
      · simp only [hset, List.map_append, List.map_cons, List.map_nil]
        exact nodup_append_singleton h.uuids (by simp only [List.mem_append, not_or]; exact ⟨h1, h2⟩)
      · intro i hi
        simp only [hset, List.map_append, List.map_cons, List.map_nil, List.mem_append, List.mem_singleton] at hi
        rcases hi with hi | hi | hi
        · exact Nat.lt_of_lt_of_le (h.below i (by simp only [List.mem_append]; exact .inl hi)) hlt.2
        · exact Nat.lt_of_lt_of_le (h.below i (by simp only [List.mem_append]; exact .inr hi)) hlt.2
        · subst hi; exact hlt.1

theorem Inv.dropIncoming {s : Reg} (h : Inv s) (u : Uuid) : Inv { s with incoming := delKey s.incoming u } := by
  have hs := delKey_sublist s.incoming u
  refine ⟨h.ids.sublist ((hs.map Prod.snd).append_left _), h.uuids.sublist ((hs.map Prod.fst).append_left _), ?_, h.ident, h.hearts⟩
  intro i hi
  exact h.below i (((hs.map Prod.snd).append_left _).subset hi)

/-- moving one registration from `incoming` to `engines` -/
theorem finish_some {s : Reg} (h : Inv s) {u : Uuid} {eid : Eid} (hg : getKey s.incoming u = some eid) :
    finish s u = (save { s with incoming := delKey s.incoming u
                                engines := s.engines ++ [(eid, u)]
                                byIdent := s.byIdent ++ [(u, eid)]
                                hearts := s.hearts ++ [(u, eid)] }, [.registered u eid]) := by
  have hm := getKey_some hg
  have hids := List.nodup_append.1 h.ids
  have huu := List.nodup_append.1 h.uuids
  have he : eid ∉ s.engines.map Prod.fst := fun hx => hids.2.2 _ hx _ (List.mem_map.2 ⟨_, hm, rfl⟩) rfl
  have hu : u ∉ s.engines.map Prod.snd := fun hx => huu.2.2 _ hx _ (List.mem_map.2 ⟨_, hm, rfl⟩) rfl
  unfold finish
  rw [hg]
  simp only [setKey_fresh he]
  rw [setKey_fresh (by rw [h.ident, flip_fst]; exact hu), setKey_fresh (by rw [h.hearts, flip_fst]; exact hu)]

theorem Inv.finish {s : Reg} (h : Inv s) (u : Uuid) : Inv (finish s u).1 := by
  cases hg : getKey s.incoming u with
  | none => simpa [Hub.finish, hg] using h
  | some eid =>
    rw [finish_some h hg]
    have hm := getKey_some hg
    have huu := List.nodup_append.1 h.uuids
    have hp := delKey_perm huu.2.1 hm
    have e1 : ((s.engines ++ [(eid, u)]).map Prod.fst ++ (delKey s.incoming u).map Prod.snd).Perm
        (s.engines.map Prod.fst ++ s.incoming.map Prod.snd) := by
      have := (hp.map Prod.snd).symm
      simp only [List.map_append, List.map_cons, List.map_nil, List.append_assoc, List.singleton_append] at *
      exact List.Perm.append_left _ this
    have e2 : ((s.engines ++ [(eid, u)]).map Prod.snd ++ (delKey s.incoming u).map Prod.fst).Perm
        (s.engines.map Prod.snd ++ s.incoming.map Prod.fst) := by
      have := (hp.map Prod.fst).symm
      simp only [List.map_append, List.map_cons, List.map_nil, List.append_assoc, List.singleton_append] at *
      exact List.Perm.append_left _ this
    refine ⟨e1.nodup_iff.2 h.ids, e2.nodup_iff.2 h.uuids, ?_, ?_, ?_⟩
    · intro i hi
      exact h.below i (e1.mem_iff.1 hi)
    · simp [save, h.ident, flip]
    · simp [save, h.hearts, flip]

theorem delKey_flip {l : List (Eid × Uuid)} (h1 : (l.map Prod.fst).Nodup) (h2 : (l.map Prod.snd).Nodup) {e : Eid} {u : Uuid} (hm : (e, u) ∈ l) :
    delKey (l.map flip) u = (delKey l e).map flip := by
  unfold delKey
  rw [List.filter_map]
  congr 1
  apply List.filter_congr
  intro x hx
  simp only [Function.comp, flip]
  have : x.2 = u ↔ x.1 = e := by
    constructor
    · intro e2
      have g1 := getKey_of_mem (d := l.map flip) (by rw [flip_fst]; exact h2) (List.mem_map.2 ⟨_, hx, rfl⟩)
      have g2 := getKey_of_mem (d := l.map flip) (by rw [flip_fst]; exact h2) (List.mem_map.2 ⟨_, hm, rfl⟩)
      rw [e2] at g1
      rw [g1] at g2; simpa using g2
    · intro e1
      have g1 := getKey_of_mem h1 (show (x.1, x.2) ∈ l from hx)
      have g2 := getKey_of_mem h1 hm
      rw [e1] at g1
      rw [g1] at g2; simpa using g2
  simp [this]

theorem Inv.unregister {s : Reg} (h : Inv s) (e : Eid) : Inv (unregister s e).1 := by
  unfold Hub.unregister
  cases hg : getKey s.engines e with
  | none =>
    simp only
    split
    · exact h
    · exact h.dropIncoming _
  | some uuid =>
    have hm := getKey_some hg
    have hi := List.nodup_append.1 h.ids
    have hu := List.nodup_append.1 h.uuids
    have hs := delKey_sublist s.engines e
    refine ⟨h.ids.sublist ((hs.map Prod.fst).append_right _), h.uuids.sublist ((hs.map Prod.snd).append_right _), ?_, ?_, ?_⟩
    · intro i hi
      exact h.below i (((hs.map Prod.fst).append_right _).subset hi)
    · simp only [save]; rw [h.ident]; exact delKey_flip hi.1 hu.1 hm
    · simp only [save]; rw [h.hearts]; exact delKey_flip hi.1 hu.1 hm

theorem Inv.step {s : Reg} (h : Inv s) {e : Ev} (he : e.Live) : Inv (step s e).1 := by
  cases e with
  | register u r => exact h.register u r
  | newHeart u =>
    simp only [Hub.step]
    split
    · exact h.finish u
    · exact h
  | stoppedHeart u =>
    simp only [Hub.step]
    split
    · exact h
    · exact h.unregister _
  | unregister e => exact h.unregister e
  | stall u => exact h.dropIncoming u
  | restart => exact he.elim
  | restartCrash k => exact he.elim

theorem Inv.fresh (f : Option File) : Inv (fresh f) := by
  refine ⟨?_, ?_, ?_, ?_, ?_⟩ <;> simp [Hub.fresh]

theorem Inv.runNotes {evs : List Ev} : ∀ {s : Reg}, Inv s → (∀ e ∈ evs, e.Live) → Inv (runNotes s evs).1 := by
  induction evs with
  | nil => intro s h _; exact h
  | cons e es ih =>
    intro s h hl
    simp only [Hub.runNotes]
    exact ih (h.step (hl e (by simp))) (fun x hx => hl x (by simp [hx]))

theorem runNotes_append (a b : List Ev) (s : Reg) :
    runNotes s (a ++ b) = ((runNotes (runNotes s a).1 b).1, (runNotes s a).2 ++ (runNotes (runNotes s a).1 b).2) := by
  induction a generalizing s with
  | nil => simp [runNotes]
  | cons e es ih => simp [runNotes, ih, List.append_assoc]

/-! ## C28 -/

/-- No two engines that are registered or registering have the same id. -/
theorem ids_unique (evs : List Ev) (h : ∀ e ∈ evs, e.Live) :
    ((run evs).1.engines.map Prod.fst ++ (run evs).1.incoming.map Prod.snd).Nodup :=
  (Inv.runNotes (Inv.fresh none) h).ids

/-- … nor the same uuid. -/
theorem uuids_unique (evs : List Ev) (h : ∀ e ∈ evs, e.Live) :
    ((run evs).1.engines.map Prod.snd ++ (run evs).1.incoming.map Prod.fst).Nodup :=
  (Inv.runNotes (Inv.fresh none) h).uuids

theorem step_counter_le {s : Reg} {e : Ev} (he : e.Live) : s.counter ≤ (step s e).1.counter := by
  cases e with
  | register u r =>
    have := (newEngineId_lt s r).2
    simp only [step, register]
    split
    · exact this
    · split <;> exact this
  | newHeart u => simp only [step]; split <;> (try simp [finish]) ; split <;> simp [save]
  | stoppedHeart u =>
    simp only [step]; split
    · simp
    · simp only [unregister]; split
      · split <;> simp
      · simp [save]
  | unregister e =>
    simp only [step, unregister]; split
    · split <;> simp
    · simp [save]
  | stall u => simp [step]
  | restart => exact he.elim
  | restartCrash k => exact he.elim

theorem step_granted {s : Reg} {e : Ev} (he : e.Live) {i : Eid} (hi : i ∈ grantedIds (step s e).2) : i < (step s e).1.counter := by
  cases e with
  | register u r =>
    have := (newEngineId_lt s r).1
    simp only [step, register] at hi ⊢
    split at hi
    · simp [grantedIds] at hi
    · split at hi
      · simp [grantedIds] at hi
      · rename_i h1 h2
        simp only [grantedIds, List.filterMap_cons, List.filterMap_nil, List.mem_singleton] at hi
        rw [if_neg h1, if_neg h2, hi]; exact this
  | newHeart u =>
    simp only [step] at hi; split at hi
    · simp only [finish] at hi; split at hi <;> simp [grantedIds] at hi
    · simp [grantedIds] at hi
  | stoppedHeart u =>
    simp only [step] at hi; split at hi
    · simp [grantedIds] at hi
    · simp only [unregister] at hi; split at hi
      · split at hi <;> simp [grantedIds] at hi
      · simp [grantedIds] at hi
  | unregister e =>
    simp only [step, unregister] at hi; split at hi
    · split at hi <;> simp [grantedIds] at hi
    · simp [grantedIds] at hi
  | stall u => simp [step, grantedIds] at hi
  | restart => exact he.elim
  | restartCrash k => exact he.elim

theorem granted_lt_counter {evs : List Ev} : ∀ {s : Reg}, (∀ e ∈ evs, e.Live) → s.counter ≤ (runNotes s evs).1.counter ∧
    ∀ i ∈ grantedIds (runNotes s evs).2, i < (runNotes s evs).1.counter := by
  induction evs with
  | nil => intro s _; simp [runNotes, grantedIds]
  | cons e es ih =>
    intro s hl
    have h1 := step_counter_le (s := s) (hl e (by simp))
    obtain ⟨h2, h3⟩ := ih (s := (step s e).1) (fun x hx => hl x (by simp [hx]))
    simp only [runNotes]
    refine ⟨Nat.le_trans h1 h2, ?_⟩
    intro i hi
    simp only [grantedIds, List.filterMap_append, List.mem_append] at hi
    rcases hi with hi | hi
    · exact Nat.lt_of_lt_of_le (step_granted (hl e (by simp)) hi) h2
    · exact h3 i hi

/-- An id handed out automatically is larger than every id handed out before (so it was never used before). -/
theorem auto_id_fresh (evs : List Ev) (h : ∀ e ∈ evs, e.Live) (e : Ev) (u : Uuid) (id : Eid) (hg : Note.granted u id true ∈ (step (run evs).1 e).2) :
    ∀ i ∈ grantedIds (run evs).2, i < id := by
  intro i hi
  have hlt := (granted_lt_counter (s := fresh none) h).2 i hi
  have : id = (run evs).1.counter := by
    cases e with
    | register u' r =>
      simp only [step, register] at hg
      split at hg
      · simp at hg
      · split at hg
        · simp at hg
        · simp only [List.mem_singleton, Note.granted.injEq] at hg
          obtain ⟨-, h1, h2⟩ := hg
          unfold newEngineId at h1 h2
          split at h2
          · simpa using h1
          · split at h2
            · rename_i h3; simpa [h3] using h1
            · rename_i h3
              split at h2
              · rename_i h4; simp only [h3, h4, if_true, if_false] at h1; exact h1
              · simp at h2
    | newHeart u =>
      simp only [step] at hg; split at hg
      · simp only [finish] at hg; split at hg <;> simp at hg
      · simp at hg
    | stoppedHeart u =>
      simp only [step] at hg; split at hg
      · simp at hg
      · simp only [unregister] at hg; split at hg
        · split at hg <;> simp at hg
        · simp at hg
    | unregister e =>
      simp only [step, unregister] at hg; split at hg
      · split at hg <;> simp at hg
      · simp at hg
    | stall u => simp [step] at hg
    | restart => simp [step] at hg
    | restartCrash k => simp only [step] at hg; split at hg <;> simp at hg
  rw [this]; exact hlt

/-- A registration that asks for an id gets it, when it is free. -/
theorem requested_id_granted (evs : List Ev) (u : Uuid) (r : Eid) (h1 : r ∉ (run evs).1.engines.map Prod.fst)
    (h2 : r ∉ (run evs).1.incoming.map Prod.snd) (h3 : u ∉ (run evs).1.byIdent.map Prod.fst) (h4 : u ∉ (run evs).1.incoming.map Prod.fst) :
    (step (run evs).1 (.register u (some r))).2 = [.granted u r false] := by
  simp only [step, register, newEngineId, h1, h2, h3, h4, if_false]

/-- A registration that asks for an id in use, or granted to an engine whose registration is not finished, gets the next automatic id, the one that comes from the counter. -/
theorem taken_id_replaced (evs : List Ev) (u : Uuid) (r : Eid) (h1 : r ∈ (run evs).1.engines.map Prod.fst ∨ r ∈ (run evs).1.incoming.map Prod.snd)
    (h3 : u ∉ (run evs).1.byIdent.map Prod.fst) (h4 : u ∉ (run evs).1.incoming.map Prod.fst) :
    (step (run evs).1 (.register u (some r))).2 = [.granted u (run evs).1.counter true] := by
  by_cases h0 : r ∈ (run evs).1.engines.map Prod.fst
  · simp only [step, register, newEngineId, h0, h3, h4, if_false, if_true]
  · simp only [step, register, newEngineId, h0, h1.resolve_left h0, h3, h4, if_false, if_true]

/-- A registration with a new uuid always succeeds, one with a uuid in use is always refused. -/
theorem register_refused_iff (evs : List Ev) (h : ∀ e ∈ evs, e.Live) (u : Uuid) (r : Option Eid) :
    (step (run evs).1 (.register u r)).2 = [.refused u] ↔
      u ∈ (run evs).1.engines.map Prod.snd ∨ u ∈ (run evs).1.incoming.map Prod.fst := by
  have hi := Inv.runNotes (Inv.fresh none) h
  have hb : (run evs).1.byIdent.map Prod.fst = (run evs).1.engines.map Prod.snd := by
    unfold run; rw [hi.ident, flip_fst]
  simp only [step, register, hb]
  by_cases h1 : u ∈ (run evs).1.engines.map Prod.snd
  · simp only [h1, if_true, true_or]
  · by_cases h2 : u ∈ (run evs).1.incoming.map Prod.fst
    · simp only [h1, h2, if_true, if_false, or_true]
    · simp only [h1, h2, if_false, or_self, iff_false]; simp

theorem filter_eq_delKey {s : Reg} (h : Inv s) {e : Eid} {u : Uuid} (hm : (e, u) ∈ s.engines) :
    s.engines.filter (fun x => x ≠ (e, u)) = delKey s.engines e := by
  have hi := (List.nodup_append.1 h.ids).1
  unfold delKey
  apply List.filter_congr
  intro x hx
  have : x = (e, u) ↔ x.1 = e := by
    constructor
    · rintro rfl; rfl
    · intro h1
      have g1 := getKey_of_mem hi (show (x.1, x.2) ∈ s.engines from hx)
      have g2 := getKey_of_mem hi hm
      rw [h1] at g1; rw [g1] at g2
      simp at g2
      exact Prod.ext h1 g2
  simp [this]

def tableStep (t : List (Eid × Uuid)) (n : Note) : List (Eid × Uuid) :=
  match n with
  | .registered u i => t ++ [(i, u)]
  | .unregistered u i => t.filter (fun x => x ≠ (i, u))
  | _ => t

theorem step_table {s : Reg} (h : Inv s) {e : Ev} (he : e.Live) : (step s e).2.foldl tableStep s.engines = (step s e).1.engines := by
  have hun : ∀ e, (unregister s e).2.foldl tableStep s.engines = (unregister s e).1.engines := by
    intro e
    unfold unregister
    cases hg : getKey s.engines e with
    | none => simp only; split <;> simp
    | some uuid =>
      have := filter_eq_delKey h (getKey_some hg)
      simpa [save, tableStep] using this
  cases e with
  | register u r =>
    simp only [step, register]
    split
    · simp [tableStep]
    · split <;> simp [tableStep]
  | newHeart u =>
    simp only [step]; split
    · cases hg : getKey s.incoming u with
      | none => simp [finish, hg]
      | some eid => rw [finish_some h hg]; simp [save, tableStep]
    · simp
  | stoppedHeart u =>
    simp only [step]; split
    · simp
    · exact hun _
  | unregister e => exact hun e
  | stall u => simp [step]
  | restart => exact he.elim
  | restartCrash k => exact he.elim

theorem run_table {evs : List Ev} : ∀ {s : Reg}, Inv s → (∀ e ∈ evs, e.Live) → (runNotes s evs).2.foldl tableStep s.engines = (runNotes s evs).1.engines := by
  induction evs with
  | nil => intro s _ _; rfl
  | cons e es ih =>
    intro s h hl
    simp only [runNotes, List.foldl_append]
    rw [step_table h (hl e (by simp))]
    exact ih (h.step (hl e (by simp))) (fun x hx => hl x (by simp [hx]))

/-- The notifications published by the hub describe its engine table exactly: a client that has followed them knows the same
engines under the same ids. -/
theorem notifications_describe_engines (evs : List Ev) (h : ∀ e ∈ evs, e.Live) : clientTable (run evs).2 = (run evs).1.engines := by
  have := run_table (Inv.fresh none) h
  exact this

/-- The hub can find every registered engine by its identity, and nothing else. -/
theorem ident_lookup (evs : List Ev) (h : ∀ e ∈ evs, e.Live) (u : Uuid) (i : Eid) :
    getKey (run evs).1.byIdent u = some i ↔ (i, u) ∈ (run evs).1.engines := by
  have hi := Inv.runNotes (Inv.fresh none) h
  have hb : (run evs).1.byIdent = (run evs).1.engines.map flip := hi.ident
  rw [hb]
  constructor
  · intro hg
    obtain ⟨x, hx, he⟩ := List.mem_map.1 (getKey_some hg)
    simp [flip] at he
    obtain ⟨rfl, rfl⟩ := he
    exact hx
  · intro hm
    exact getKey_of_mem (by rw [flip_fst]; exact (List.nodup_append.1 hi.uuids).1) (List.mem_map.2 ⟨_, hm, rfl⟩)

/-! ### example -/

/-- two engines register, one asks for id 5, one asks for the id already taken, one stalls, one leaves and registers again -/
def exReg : List Ev :=
  [.register 10 none, .newHeart 10, .register 11 (some 5), .register 12 (some 5), .newHeart 12, .newHeart 11, .register 13 (some 0),
   .stall 13, .stoppedHeart 10, .register 10 (some 0), .newHeart 10, .register 11 none]

theorem exReg_live : ∀ e ∈ exReg, e.Live := by
  intro e he
  simp only [exReg, List.mem_cons, List.not_mem_nil, or_false] at he
  rcases he with rfl | rfl | rfl | rfl | rfl | rfl | rfl | rfl | rfl | rfl | rfl | rfl <;> trivial

example : (run exReg).1.engines = [(6, 12), (5, 11), (0, 10)] ∧ (run exReg).1.counter = 9 ∧
    grantedIds (run exReg).2 = [0, 5, 6, 7, 0] ∧ (run exReg).2.getLast? = some (.refused 11) := by decide

example : clientTable (run exReg).2 = (run exReg).1.engines := notifications_describe_engines exReg exReg_live

/-! ## C29 -/

/-- the file describes the engines, and its next id is good -/
def FileOk (s : Reg) : Prop :=
  (s.file = none ∧ s.engines = []) ∨ ∃ n, s.file = some ⟨s.engines, n⟩ ∧ (∀ i ∈ s.engines.map Prod.fst, i < n) ∧ n ≤ s.counter

/-- the file describes the engines -/
def FileEngines (s : Reg) : Prop :=
  (s.file = none ∧ s.engines = []) ∨ ∃ n, s.file = some ⟨s.engines, n⟩

theorem loadOne_eq {s : Reg} {e : Eid × Uuid} (h1 : s.incoming = []) (h2 : e.1 ∉ s.engines.map Prod.fst) (h3 : e.2 ∉ s.engines.map Prod.snd)
    (hb : s.byIdent = s.engines.map flip) (hh : s.hearts = s.engines.map flip) :
    loadOne s e = save { s with engines := s.engines ++ [e], byIdent := (s.engines ++ [e]).map flip, hearts := (s.engines ++ [e]).map flip } := by
  obtain ⟨i, u⟩ := e
  simp only at h2 h3
  have hset : setKey s.incoming u i = [(u, i)] := by rw [h1]; simp [setKey]
  unfold loadOne finish
  simp only [hset]
  have hg : getKey [(u, i)] u = some i := by simp [getKey]
  rw [hg]
  simp only [setKey_fresh h2]
  rw [setKey_fresh (by rw [hb, flip_fst]; exact h3), setKey_fresh (by rw [hh, flip_fst]; exact h3)]
  have hd : delKey [(u, i)] u = ([] : List (Uuid × Eid)) := by simp [delKey]
  simp only [hd, hb, hh, save, List.map_append, List.map_cons, List.map_nil, flip, h1]

theorem foldl_loadOne (es : List (Eid × Uuid)) : ∀ (s : Reg), s.incoming = [] → s.byIdent = s.engines.map flip → s.hearts = s.engines.map flip →
    ((s.engines ++ es).map Prod.fst).Nodup → ((s.engines ++ es).map Prod.snd).Nodup →
    es.foldl loadOne s = { s with engines := s.engines ++ es
                                  byIdent := (s.engines ++ es).map flip
                                  hearts := (s.engines ++ es).map flip
                                  file := if es = [] then s.file else some ⟨s.engines ++ es, s.counter⟩ } := by
  induction es with
  | nil => intro s h1 hb hh _ _; cases s; simp at *; simp [hb, hh]
  | cons e es ih =>
    intro s h1 hb hh hn1 hn2
    have a1 : e.1 ∉ s.engines.map Prod.fst := by
      intro hm
      simp only [List.map_append, List.map_cons] at hn1
      exact (List.nodup_append.1 hn1).2.2 _ hm _ (by simp) rfl
    have a2 : e.2 ∉ s.engines.map Prod.snd := by
      intro hm
      simp only [List.map_append, List.map_cons] at hn2
      exact (List.nodup_append.1 hn2).2.2 _ hm _ (by simp) rfl
    rw [List.foldl_cons, loadOne_eq h1 a1 a2 hb hh, ih]
    · by_cases he : es = []
      · subst he; simp [save]
      · simp [save, he]
    · exact h1
    · rfl
    · rfl
    · simpa [save] using hn1
    · simpa [save] using hn2

/-- What a controller started from a state file knows. -/
theorem load_eq {f : File} (h1 : (f.engines.map Prod.fst).Nodup) (h2 : (f.engines.map Prod.snd).Nodup) :
    load (some f) = { engines := f.engines
                      incoming := []
                      byIdent := f.engines.map flip
                      hearts := f.engines.map flip
                      counter := f.nextId
                      file := if f.engines = [] then some f else some ⟨f.engines, 0⟩ } := by
  unfold load
  simp only
  rw [foldl_loadOne f.engines (fresh (some f)) rfl rfl rfl (by simpa [fresh] using h1) (by simpa [fresh] using h2)]
  simp [fresh]

theorem FileOk.load {s : Reg} (h : Inv s) (hf : FileOk s) :
    (load s.file).engines = s.engines ∧ Inv (load s.file) ∧ FileEngines (load s.file) := by
  rcases hf with ⟨h1, h2⟩ | ⟨n, h1, h2, h3⟩
  · rw [h1]
    refine ⟨by simp [Hub.load, fresh, h2], Inv.fresh none, .inl ⟨rfl, rfl⟩⟩
  · rw [h1]
    have n1 := (List.nodup_append.1 h.ids).1
    have n2 := (List.nodup_append.1 h.uuids).1
    rw [load_eq (f := ⟨s.engines, n⟩) n1 n2]
    refine ⟨rfl, ⟨by simpa using n1, by simpa using n2, ?_, rfl, rfl⟩, .inr ?_⟩
    · intro i hi; simp only [List.map_nil, List.append_nil] at hi; exact h2 i hi
    · by_cases he : s.engines = []
      · exact ⟨n, by simp [he]⟩
      · exact ⟨0, by simp [he]⟩

/-- Run a sequence of controllers, each started from the file its predecessor left. -/
def runSessions (s : Reg) : List (List Ev) → Reg × List (List Note)
  | [] => (s, [])
  | evs :: rest =>
    let r := runNotes s evs
    match rest with
    | [] => (r.1, [r.2])
    | _ =>
      let r' := runSessions (load r.1.file) rest
      (r'.1, r.2 :: r'.2)

def Note.isEngineChange : Note → Bool
  | .registered _ _ => true
  | .unregistered _ _ => true
  | _ => false

theorem step_file {s : Reg} (h : Inv s) {e : Ev} (he : e.Live) :
    ((step s e).2.any Note.isEngineChange = true → FileOk (step s e).1) ∧
    ((step s e).2.any Note.isEngineChange = false → (step s e).1.file = s.file ∧ (step s e).1.engines = s.engines ∧ s.counter ≤ (step s e).1.counter) := by
  have hle := step_counter_le (s := s) he
  have hinv := h.step he
  have hun : ∀ e', (step s e) = unregister s e' →
    ((step s e).2.any Note.isEngineChange = true → FileOk (step s e).1) ∧
    ((step s e).2.any Note.isEngineChange = false → (step s e).1.file = s.file ∧ (step s e).1.engines = s.engines ∧ s.counter ≤ (step s e).1.counter) := by
    intro e' heq
    rw [heq] at hle hinv ⊢
    unfold unregister at *
    cases hg : getKey s.engines e' with
    | none => simp only [hg] at *; split <;> simp
    | some uuid =>
      simp only [hg] at *
      refine ⟨fun _ => .inr ⟨s.counter, rfl, ?_, Nat.le_refl _⟩, by simp [Note.isEngineChange]⟩
      intro i hi
      exact hinv.below i (by simp only [List.mem_append]; exact .inl hi)
  cases e with
  | register u r =>
    simp only [step, register] at *
    split
    · rename_i h1
      rw [if_pos h1] at hle
      simp [Note.isEngineChange]; exact hle
    · rename_i h1
      rw [if_neg h1] at hle
      split
      · rename_i h2
        rw [if_pos h2] at hle
        simp [Note.isEngineChange]; exact hle
      · rename_i h2
        rw [if_neg h2] at hle
        simp [Note.isEngineChange]; exact hle
  | newHeart u =>
    simp only [step] at *
    by_cases hu : u ∈ s.incoming.map Prod.fst
    · have hn : getKey s.incoming u ≠ none := fun hg => getKey_none hg hu
      simp only [hu, if_true] at *
      cases hg : getKey s.incoming u with
      | none => exact absurd hg hn
      | some eid =>
        rw [finish_some h hg] at *
        refine ⟨fun _ => .inr ⟨s.counter, rfl, ?_, Nat.le_refl _⟩, by simp [Note.isEngineChange]⟩
        intro i hi
        exact hinv.below i (by simp only [List.mem_append]; exact .inl hi)
    · simp [hu]
  | stoppedHeart u =>
    cases hg : getKey s.hearts u with
    | none => simp [step, hg]
    | some eid => exact hun eid (by simp [step, hg])
  | unregister e' => exact hun e' rfl
  | stall u => simp [step]
  | restart => exact he.elim
  | restartCrash k => exact he.elim

theorem FileOk.runNotes {evs : List Ev} : ∀ {s : Reg}, Inv s → FileOk s → (∀ e ∈ evs, e.Live) → FileOk (runNotes s evs).1 := by
  induction evs with
  | nil => intro s _ h _; exact h
  | cons e es ih =>
    intro s hi hf hl
    simp only [Hub.runNotes]
    refine ih (hi.step (hl e (by simp))) ?_ (fun x hx => hl x (by simp [hx]))
    have := step_file hi (hl e (by simp))
    cases hc : (step s e).2.any Note.isEngineChange with
    | true => exact this.1 hc
    | false =>
      obtain ⟨h1, h2, h3⟩ := this.2 hc
      rcases hf with ⟨a, b⟩ | ⟨n, a, b, c⟩
      · exact .inl ⟨h1.trans a, h2.trans b⟩
      · exact .inr ⟨n, by rw [h1, h2]; exact a, by rw [h2]; exact b, Nat.le_trans c h3⟩

theorem FileOk.of_change {evs : List Ev} : ∀ {s : Reg}, Inv s → (∀ e ∈ evs, e.Live) → (Hub.runNotes s evs).2.any Note.isEngineChange = true →
    FileOk (Hub.runNotes s evs).1 := by
  induction evs with
  | nil => intro s _ _ h; simp [Hub.runNotes] at h
  | cons e es ih =>
    intro s hi hl hc
    simp only [Hub.runNotes, List.any_append, Bool.or_eq_true] at hc
    rcases hc with hc | hc
    · have hk := (step_file hi (hl e (by simp))).1 hc
      show FileOk (Hub.runNotes (Hub.step s e).1 es).1
      exact FileOk.runNotes (hi.step (hl e (by simp))) hk (fun x hx => hl x (by simp [hx]))
    · exact ih (hi.step (hl e (by simp))) (fun x hx => hl x (by simp [hx])) hc

theorem FileEngines.runNotes {evs : List Ev} {s : Reg} (hi : Inv s) (hf : FileEngines s) (hl : ∀ e ∈ evs, e.Live) : FileEngines (Hub.runNotes s evs).1 := by
  induction evs generalizing s with
  | nil => exact hf
  | cons e es ih =>
    simp only [Hub.runNotes]
    refine ih (hi.step (hl e (by simp))) ?_ (fun x hx => hl x (by simp [hx]))
    have := step_file hi (hl e (by simp))
    cases hc : (step s e).2.any Note.isEngineChange with
    | true =>
      rcases this.1 hc with h | ⟨n, h, -⟩
      · exact .inl h
      · exact .inr ⟨n, h⟩
    | false =>
      obtain ⟨h1, h2, -⟩ := this.2 hc
      rcases hf with ⟨a, b⟩ | ⟨n, a⟩
      · exact .inl ⟨h1.trans a, h2.trans b⟩
      · exact .inr ⟨n, by rw [h1, h2]; exact a⟩

/-- A controller started without a state file, killed at any point after any history, and started again, knows the same engines
under the same ids, and its next automatic id is larger than all of them. -/
theorem restart_restores (evs : List Ev) (h : ∀ e ∈ evs, e.Live) :
    (run (evs ++ [.restart])).1.engines = (run evs).1.engines ∧
    (∀ i ∈ (run evs).1.engines.map Prod.fst, i < (run (evs ++ [.restart])).1.counter) := by
  have hi := Inv.runNotes (Inv.fresh none) h
  have hf : FileOk (runNotes (fresh none) evs).1 := FileOk.runNotes (Inv.fresh none) (.inl ⟨rfl, rfl⟩) h
  obtain ⟨h1, h2, -⟩ := hf.load hi
  simp only [run, runNotes_append, runNotes, step]
  refine ⟨h1, ?_⟩
  intro i hm
  exact h2.below i (by rw [h1]; simp only [List.mem_append]; exact .inl hm)

/-- Every controller but the first saw at least one engine come or go before it was killed. -/
def Busy (logs : List (List Note)) : Prop := ∀ l ∈ logs.tail, l.any Note.isEngineChange = true

theorem sessions_inv {hist : List (List Ev)} : ∀ {s : Reg}, Inv s → FileOk s ∨ (∀ l ∈ (runSessions s hist).2, l.any Note.isEngineChange = true) →
    (∀ evs ∈ hist, ∀ e ∈ evs, e.Live) → Busy (runSessions s hist).2 → hist ≠ [] →
    Inv (runSessions s hist).1 ∧ FileOk (runSessions s hist).1 := by
  induction hist with
  | nil => intro s _ _ _ _ h; exact absurd rfl h
  | cons evs rest ih =>
    intro s hi hf hl hb _
    have hl1 : ∀ e ∈ evs, e.Live := hl evs (by simp)
    have hi1 := Inv.runNotes hi hl1
    have hf1 : FileOk (runNotes s evs).1 := by
      rcases hf with hf | hf
      · exact FileOk.runNotes hi hf hl1
      · apply FileOk.of_change hi hl1
        apply hf
        cases rest <;> simp [runSessions]
    cases rest with
    | nil => exact ⟨hi1, hf1⟩
    | cons r rs =>
      obtain ⟨-, g2, -⟩ := hf1.load hi1
      have hb' : ∀ l ∈ (runSessions (load (runNotes s evs).1.file) (r :: rs)).2, l.any Note.isEngineChange = true := by
        intro l hm
        apply hb l
        simpa [runSessions] using hm
      have := ih g2 (.inr hb') (fun x hx => hl x (by simp [hx])) (fun l hm => hb' l (List.mem_of_mem_tail hm)) (by simp)
      simpa [runSessions] using this

/-- The same for any number of restarts, provided each controller after the first saw an engine come or go before it was killed
(the missing case is `next_id_lost_violated` below). -/
theorem restarts_restore_partial (hist : List (List Ev)) (hl : ∀ evs ∈ hist, ∀ e ∈ evs, e.Live) (hne : hist ≠ [])
    (hb : Busy (runSessions (fresh none) hist).2) :
    let before := (runSessions (fresh none) hist).1
    let after := load before.file
    after.engines = before.engines ∧ (∀ i ∈ before.engines.map Prod.fst, i < after.counter) := by
  obtain ⟨h1, h2⟩ := sessions_inv (Inv.fresh none) (.inl (.inl ⟨rfl, rfl⟩)) hl hb hne
  obtain ⟨g1, g2, -⟩ := h2.load h1
  refine ⟨g1, ?_⟩
  intro i hm
  exact g2.below i (by rw [g1]; simp only [List.mem_append]; exact .inl hm)

/-- two controllers, both with registrations -/
def exSessions : List (List Ev) := [[.register 10 none, .newHeart 10, .register 11 none, .newHeart 11], [.stoppedHeart 10, .register 12 none, .newHeart 12]]

example : Busy (runSessions (fresh none) exSessions).2 ∧ (load (runSessions (fresh none) exSessions).1.file).engines = [(1, 11), (2, 12)] := by
  refine ⟨?_, by decide⟩
  intro l hl
  have : (runSessions (fresh none) exSessions).2.tail = [[.unregistered 10 0, .granted 12 2 true, .registered 12 2]] := by decide
  rw [this] at hl; simp at hl; subst hl; decide

/-- After two restarts in a row the ids of running engines are handed out again: the second engine is lost from the table of engines. -/
theorem next_id_lost_violated :
    ∃ evs, (run evs).1.engines = [(0, 10)] ∧ (run (evs ++ [.restart])).1.counter = 1 ∧
      (run (evs ++ [.restart, .restart])).1.engines = [(0, 10)] ∧ (run (evs ++ [.restart, .restart])).1.counter = 0 ∧
      (run (evs ++ [.restart, .restart, .register 11 none, .newHeart 11])).1.engines = [(0, 11)] :=
  ⟨[.register 10 none, .newHeart 10], by decide⟩

/-- A controller that is killed while it loads the file loses the engines it had not loaded yet. -/
theorem crash_while_loading_violated :
    ∃ evs, (run evs).1.engines = [(0, 10), (1, 11)] ∧ (run (evs ++ [.restartCrash 1])).1.engines = [(0, 10)] :=
  ⟨[.register 10 none, .newHeart 10, .register 11 none, .newHeart 11], by decide⟩

end IPP.Hub
