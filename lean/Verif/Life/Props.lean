import Verif.Life.Inv
/-!
# C80: the life of an engine — registration, agreement on the id, removal after death
-/
namespace IPP.Life
open Hub (Uuid Eid Reg delKey getKey)

/-! ## Agreement -/

/-- **C80 (agreement).** For every history of engines starting, timing out, dying, beating and of delayed messages: whenever the hub lists an engine under an id, that engine has read its registration reply, has been beating, and its own id is exactly that id. In particular an engine that gave up waiting, or whose registration was refused, is never listed. -/
theorem listed_agrees (max : Nat) (evs : List Ev) (u : Uuid) (e : Eid) (h : Spec.Listed (run max init evs) u e) :
    ((run max init evs).proc u).heart = true ∧ ((run max init evs).proc u).id = some e := by
  have hi := Inv.init.run max evs
  have hh := hi.listed u e h
  obtain ⟨e', h1, h2⟩ := (hi.lp u).told ((hi.lp u).heart hh)
  have := hi.known u e (Or.inr h)
  rw [h1] at this
  cases this
  exact ⟨hh, h2⟩

/-- **C80 (an engine has one id).** An engine is listed at most once, and different engines have different ids. -/
theorem listed_unique (max : Nat) (evs : List Ev) (u v : Uuid) (e f : Eid) (h1 : Spec.Listed (run max init evs) u e) (h2 : Spec.Listed (run max init evs) v f) : u = v ↔ e = f := by
  have hi := (Inv.init.run max evs).reg
  constructor
  · rintro rfl; exact uuid_once hi h1 h2
  · rintro rfl
    have hn := (List.nodup_append.1 hi.ids).1
    have g1 := Hub.getKey_of_mem hn h1
    have g2 := Hub.getKey_of_mem hn h2
    rw [g1] at g2; exact Option.some.inj g2

/-- **C80 (each engine is announced once).** What clients are told about an engine is nothing, or its registration, or its registration and then its removal, with the same id; and the hub lists it exactly in the second case. -/
theorem announced_once (max : Nat) (evs : List Ev) (u : Uuid) :
    (Spec.notices u (run max init evs).notes = [] ∧ ∀ e, ¬ Spec.Listed (run max init evs) u e) ∨
    (∃ e, Spec.notices u (run max init evs).notes = [.registered u e] ∧ Spec.Listed (run max init evs) u e) ∨
    (∃ e, Spec.notices u (run max init evs).notes = [.registered u e, .unregistered u e] ∧ ∀ e', ¬ Spec.Listed (run max init evs) u e') := by
  rcases (Inv.init.run max evs).notices u with ⟨e, h1, h2⟩ | ⟨h0, h1 | ⟨e, h1, -, -⟩⟩
  · exact Or.inr (Or.inl ⟨e, h2, h1⟩)
  · exact Or.inl ⟨h1, h0⟩
  · exact Or.inr (Or.inr ⟨e, h1, h0⟩)

theorem run_append (max : Nat) (s : Sys) (a b : List Ev) : run max s (a ++ b) = run max (run max s a) b := by simp [run]

/-! ## Never again -/

/-- nothing can list `u` any more -/
structure Finished (s : Sys) (u : Uuid) : Prop where
  inv : Inv s
  noreg : ∀ r, Msg.register r ∉ s.toHub u
  notin : ∀ e, (u, e) ∉ s.reg.incoming
  notlisted : ∀ e, (e, u) ∉ s.reg.engines
  started : (s.proc u).phase ≠ .absent

theorem register_noreg {s : Sys} {v : Uuid} (h : Inv s) {q} {rest} (hq : s.toHub v = .register q :: rest) : ∀ r, Msg.register r ∉ rest := by
  intro r hr
  exact (h.lp v).tail _ (by rw [hq]; exact hr) r rfl

theorem Finished.step {s : Sys} {u : Uuid} (h : Finished s u) (max : Nat) (e : Ev) : Finished (step max s e) u := by
  have hinv := h.inv.step max e
  -- events of processes
  have hproc : ∀ (v : Uuid) (p : Proc) (q : List Msg), (p.phase ≠ .absent) → (∀ r, Msg.register r ∈ q → v ≠ u ∨ Msg.register r ∈ s.toHub v) →
      Inv { s with proc := upd s.proc v p, toHub := upd s.toHub v q } → Finished { s with proc := upd s.proc v p, toHub := upd s.toHub v q } u := by
    intro v p q hp hq hi
    refine ⟨hi, ?_, h.notin, h.notlisted, ?_⟩
    · intro r hr
      by_cases hv : v = u
      · subst hv
        simp at hr
        rcases hq r hr with h1 | h1
        · exact h1 rfl
        · exact h.noreg r h1
      · simp only [upd_other _ _ (Ne.symm hv)] at hr
        exact h.noreg r hr
    · by_cases hv : v = u
      · subst hv; simpa using hp
      · simp only [upd_other _ _ (Ne.symm hv)]; exact h.started
  have hhub : ∀ (s' : Sys), Inv s' → s'.toHub u = s.toHub u → s'.proc = s.proc → (∀ e, (u, e) ∈ s'.reg.incoming → (u, e) ∈ s.reg.incoming) →
      (∀ e, (e, u) ∈ s'.reg.engines → (e, u) ∈ s.reg.engines ∨ ∃ e', (u, e') ∈ s.reg.incoming) → Finished s' u := by
    intro s' hi ht hp h1 h2
    refine ⟨hi, by rw [ht]; exact h.noreg, fun e he => h.notin e (h1 e he), fun e he => ?_, by rw [hp]; exact h.started⟩
    rcases h2 e he with h3 | ⟨e', h3⟩
    · exact h.notlisted e h3
    · exact h.notin e' h3
  have hdel : ∀ e, Inv (hubStep s (.unregister e)) → Finished (hubStep s (.unregister e)) u := by
    intro e hi
    refine hhub _ hi rfl rfl ?_ ?_
    · intro i hx
      rcases unregister_eff h.inv.reg e with ⟨v, -, -, h2, -⟩ | ⟨-, -, h2, -⟩
      · simp only [hubStep, Hub.step] at hx; rw [h2] at hx; exact hx
      · exact ((h2 _).1 hx).1
    · intro i hx
      rcases unregister_eff h.inv.reg e with ⟨v, -, h1, -, -⟩ | ⟨-, h1, -, -⟩
      · simp only [hubStep, Hub.step] at hx; rw [h1] at hx; exact Or.inl (List.mem_filter.1 hx).1
      · simp only [hubStep, Hub.step] at hx; rw [h1] at hx; exact Or.inl hx
  have same : ∀ {s' : Sys}, s' = s → Finished s' u := fun hs => hs ▸ h
  cases e with
  | start v r =>
    simp only [Life.step] at hinv ⊢
    split
    · rename_i ha
      rw [if_pos ha] at hinv
      refine hproc v _ _ (by simp) (fun r' _ => Or.inl ?_) hinv
      rintro rfl; exact h.started ha
    · exact h
  | timeout v =>
    simp only [Life.step] at hinv ⊢
    split
    · rename_i ha
      rw [if_pos ha] at hinv
      exact hproc v _ _ (by simp) (fun r' hr => Or.inr (by simpa using hr)) hinv
    · exact h
  | reply v =>
    simp only [Life.step] at hinv ⊢
    split
    · rename_i ha
      rw [if_pos ha] at hinv
      cases hr : s.reply v with
      | none => exact h
      | some g =>
        cases g with
        | none =>
          rw [hr] at hinv
          have := hproc v { s.proc v with phase := .gone } (s.toHub v) (by simp) (fun r' hr => Or.inr hr) (by rw [upd_id]; exact hinv)
          rw [upd_id] at this; exact this
        | some e =>
          rw [hr] at hinv
          have := hproc v { s.proc v with phase := .starting, id := some e, told := true } (s.toHub v) (by simp) (fun r' hr => Or.inr hr) (by rw [upd_id]; exact hinv)
          rw [upd_id] at this; exact this
    · exact h
  | heart v =>
    simp only [Life.step] at hinv ⊢
    split
    · rename_i ha
      rw [if_pos ha] at hinv
      have := hproc v { s.proc v with phase := .running, heart := true } (s.toHub v) (by simp) (fun r' hr => Or.inr hr) (by rw [upd_id]; exact hinv)
      rw [upd_id] at this; exact this
    · exact h
  | die v =>
    simp only [Life.step] at hinv ⊢
    split
    · exact h
    · rename_i ha
      rw [if_neg ha] at hinv
      have := hproc v { s.proc v with phase := .gone } (s.toHub v) (by simp) (fun r' hr => Or.inr hr) (by rw [upd_id]; exact hinv)
      rw [upd_id] at this; exact this
  | giveUp v =>
    simp only [Life.step] at hinv ⊢
    split
    · rename_i ha
      rw [if_pos ha] at hinv
      exact hproc v _ _ (by simp) (fun r' hr => Or.inr (by simpa using hr)) hinv
    · exact h
  | nanny v =>
    simp only [Life.step] at hinv ⊢
    split
    · rename_i ha
      rw [if_pos ha] at hinv
      have := hproc v (s.proc v) (s.toHub v ++ [.unregister (s.proc v).id]) (by rw [ha.1]; simp) (fun r' hr => Or.inr (by simpa using hr)) (by rw [upd_id]; exact hinv)
      rw [upd_id] at this; exact this
    · exact h
  | hub v =>
    simp only [Life.step] at hinv ⊢
    cases hq : s.toHub v with
    | nil => exact h
    | cons m rest =>
      rw [hq] at hinv
      have hsub : ∀ r, Msg.register r ∉ upd s.toHub v rest u := by
        intro r hr
        by_cases hv : v = u
        · subst hv; simp at hr; exact h.noreg r (by rw [hq]; simp [hr])
        · simp only [upd_other _ _ (Ne.symm hv)] at hr; exact h.noreg r hr
      cases m with
      | register q =>
        have hv : u ≠ v := by rintro rfl; exact h.noreg q (by rw [hq]; simp)
        obtain ⟨h1, h2⟩ := register_eff h.inv.reg v q
        refine ⟨hinv, hsub, ?_, ?_, h.started⟩
        · intro e he
          have he : (u, e) ∈ (Hub.register s.reg v q).1.incoming := he
          rcases h2 with ⟨id, a, -, h3, -⟩ | ⟨-, h3⟩
          · rw [h3] at he
            simp [hv] at he
            exact h.notin e he
          · rw [h3] at he; exact h.notin e he
        · intro e he
          have he : (e, u) ∈ (Hub.register s.reg v q).1.engines := he
          rw [h1] at he; exact h.notlisted e he
      | unregister i =>
        cases i with
        | none => exact ⟨hinv, hsub, h.notin, h.notlisted, h.started⟩
        | some i =>
          refine ⟨hinv, hsub, ?_, ?_, h.started⟩
          · intro e he
            have he : (u, e) ∈ (Hub.unregister s.reg i).1.incoming := he
            rcases unregister_eff h.inv.reg i with ⟨v, -, -, h2, -⟩ | ⟨-, -, h2, -⟩
            · rw [h2] at he; exact h.notin e he
            · exact h.notin e ((h2 _).1 he).1
          · intro e he
            have he : (e, u) ∈ (Hub.unregister s.reg i).1.engines := he
            rcases unregister_eff h.inv.reg i with ⟨v, -, h1, -, -⟩ | ⟨-, h1, -, -⟩
            · rw [h1] at he; exact h.notlisted e (List.mem_filter.1 he).1
            · rw [h1] at he; exact h.notlisted e he
  | pong v t =>
    simp only [Life.step] at hinv ⊢
    split
    · rename_i ha
      rw [if_pos ha] at hinv
      exact ⟨hinv, h.noreg, h.notin, h.notlisted, h.started⟩
    · exact h
  | beat dt => exact ⟨hinv, h.noreg, h.notin, h.notlisted, h.started⟩
  | note =>
    simp only [Life.step] at hinv ⊢
    cases hn : s.hm.notes[s.handled]? with
    | none => exact h
    | some n =>
      rw [hn] at hinv
      cases n with
      | new v =>
        refine hhub _ hinv rfl rfl ?_ ?_
        · intro e he
          have he : (u, e) ∈ (Hub.step s.reg (.newHeart v)).1.incoming := he
          rcases newHeart_eff h.inv.reg v with ⟨i, -, -, h2, -⟩ | ⟨h2, -⟩
          · rw [h2] at he; exact (Hub.mem_delKey.1 he).1
          · rw [h2] at he; exact he
        · intro e he
          have he : (e, u) ∈ (Hub.step s.reg (.newHeart v)).1.engines := he
          rcases newHeart_eff h.inv.reg v with ⟨i, hin, h1, -, -⟩ | ⟨h2, -⟩
          · rw [h1] at he
            simp only [List.mem_append, List.mem_singleton, Prod.mk.injEq] at he
            rcases he with he | ⟨rfl, rfl⟩
            · exact Or.inl he
            · exact Or.inr ⟨_, hin⟩
          · rw [h2] at he; exact Or.inl he
      | stopped v =>
        refine hhub _ hinv rfl rfl ?_ ?_
        · intro e he
          have he : (u, e) ∈ (Hub.step s.reg (.stoppedHeart v)).1.incoming := he
          rcases stopped_eff h.inv.reg v with ⟨i, -, -, h2, -⟩ | ⟨h2, -⟩
          · rw [h2] at he; exact he
          · rw [h2] at he; exact he
        · intro e he
          have he : (e, u) ∈ (Hub.step s.reg (.stoppedHeart v)).1.engines := he
          rcases stopped_eff h.inv.reg v with ⟨i, -, h1, -, -⟩ | ⟨h2, -⟩
          · rw [h1] at he; exact Or.inl (List.mem_filter.1 he).1
          · rw [h2] at he; exact Or.inl he
  | stall v =>
    refine hhub _ hinv rfl rfl ?_ ?_
    · intro e he
      exact (Hub.mem_delKey.1 he).1
    · intro e he; exact Or.inl he

theorem Finished.run {s : Sys} {u : Uuid} (h : Finished s u) (max : Nat) (evs : List Ev) : Finished (run max s evs) u := by
  induction evs generalizing s with
  | nil => exact h
  | cons e r ih => exact ih (h.step max e)

theorem step_notes_prefix (max : Nat) (s : Sys) (x : Ev) : ∃ t, (step max s x).notes = s.notes ++ t := by
  have same : ∀ {s' : Sys}, s'.notes = s.notes → ∃ t, s'.notes = s.notes ++ t := fun h => ⟨[], by simp [h]⟩
  cases x with
  | start u r => simp only [step]; split <;> exact same rfl
  | timeout u => simp only [step]; split <;> exact same rfl
  | reply u =>
    simp only [step]
    split
    · split <;> exact same rfl
    · exact same rfl
  | heart u => simp only [step]; split <;> exact same rfl
  | die u => simp only [step]; split <;> exact same rfl
  | giveUp u => simp only [step]; split <;> exact same rfl
  | nanny u => simp only [step]; split <;> exact same rfl
  | hub u =>
    simp only [step]
    split
    · exact same rfl
    · rename_i m r _
      cases m with
      | register q => exact ⟨_, rfl⟩
      | unregister i => cases i with
        | none => exact same rfl
        | some i => exact ⟨_, rfl⟩
  | pong u t => simp only [step]; split <;> exact same rfl
  | beat dt => exact same rfl
  | note =>
    simp only [step]
    split
    · exact same rfl
    · rename_i n _
      cases n <;> exact ⟨_, rfl⟩
  | stall u => exact ⟨_, rfl⟩

theorem run_notes_prefix (max : Nat) (l : List Ev) (s : Sys) : ∃ t, (run max s l).notes = s.notes ++ t := by
  induction l generalizing s with
  | nil => exact ⟨[], by simp [run]⟩
  | cons x l ih =>
    obtain ⟨t, ht⟩ := ih (step max s x)
    obtain ⟨t', ht'⟩ := step_notes_prefix max s x
    refine ⟨t' ++ t, ?_⟩
    show (run max (step max s x) l).notes = _
    rw [ht, ht', List.append_assoc]

/-- **C80 (removal is final).** Once clients have been told that an engine is gone, it is never listed or announced again — which for an engine that only lost a few heartbeats and still runs means that its process is lost to all clients without knowing it. -/
theorem removed_stays_removed (max : Nat) (evs more : List Ev) (u : Uuid) (e : Eid) (h : .unregistered u e ∈ (run max init evs).notes) :
    (∀ e', ¬ Spec.Listed (run max init (evs ++ more)) u e') ∧ Spec.notices u (run max init (evs ++ more)).notes = [.registered u e, .unregistered u e] := by
  have hi := Inv.init.run max evs
  have hmem : Hub.Note.unregistered u e ∈ Spec.notices u (run max init evs).notes := by simp [Spec.notices, h]
  have hfin : Finished (run max init evs) u := by
    rcases hi.notices u with ⟨e', h1, h2⟩ | ⟨h0, h1 | ⟨e', h1, h2, h3⟩⟩
    · rw [h2] at hmem; simp at hmem
    · rw [h1] at hmem; cases hmem
    · refine ⟨hi, fun r hr => h3 ((hi.lp u).head r hr), h2, h0, fun ha => h3 ((hi.lp u).absent ha).2.2⟩
  have hf := hfin.run max more
  rw [run_append]
  refine ⟨hf.notlisted, ?_⟩
  obtain ⟨t, ht⟩ := run_notes_prefix max more (run max init evs)
  have hmem2 : Hub.Note.unregistered u e ∈ Spec.notices u (run max (run max init evs) more).notes := by
    rw [ht]; simp [Spec.notices, h]
  rcases hf.inv.notices u with ⟨e', h1, -⟩ | ⟨-, h1 | ⟨e', h1, -, -⟩⟩
  · exact absurd h1 (hf.notlisted e')
  · rw [h1] at hmem2; cases hmem2
  · rw [h1] at hmem2; simp at hmem2; subst hmem2; exact h1

end IPP.Life
