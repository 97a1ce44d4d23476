import Verif.Cluster.FileProps
/-!
# No process is forgotten (property C63)
-/
namespace IPP.Cluster

/-! ## Specification -/

/-- the cluster object can find the process: it belongs to the controller or to one of the engine sets -/
def Tracks (s : St) (p : Nat) : Prop := ∃ a, (s.ctl = some a ∨ ∃ id, (id, a) ∈ s.engines) ∧ ∃ i, (i, some p) ∈ (s.objs a).procs

/-- operations on one component do not overlap: an explicit `engine_set_id` is new or belongs to a set that has stopped and is not being stopped or restarted;
`stop_engines` is not called while the start or another stop of the set is under way; `stop_controller` is not called while it is under way -/
def Calm (s : St) : Ev → Prop
  | .createSet (some id) _ => (∀ a, (id, a) ∈ s.engines → (s.objs a).state = .after) ∧ ∀ x ∈ s.stopping, x.1 ≠ id
  | .stopBegin id => (∀ a, (id, a) ∈ s.engines → a ∉ s.pending) ∧ ∀ x ∈ s.stopping, x.1 ≠ id
  | .stopCtlBegin => s.ctlStopping = []
  | _ => True

theorem Calm.idUnused {s : St} {e : Ev} (h : Calm s e) : IdUnused s e := by
  unfold IdUnused
  split
  · intro a ha
    rw [h.1 a ha]; decide
  · trivial

theorem Along.mono {P Q : St → Ev → Prop} (hPQ : ∀ s e, P s e → Q s e) {c : Cfg} : ∀ {h : List Ev} {s : St}, Along P c s h → Along Q c s h
  | [], _, _ => trivial
  | _ :: _, _, ha => ⟨hPQ _ _ ha.1, Along.mono hPQ ha.2⟩

/-! ## Proof -/

structure Own (s : St) : Prop where
  pendIn : ∀ a ∈ s.pending, ∃ id, (id, a) ∈ s.engines
  stop : ∀ x ∈ s.stopping, (x.1, x.2.1) ∈ s.engines ∧ x.2.1 ∉ s.pending ∧ ∀ i p, (i, some p) ∈ (s.objs x.2.1).procs → p ∈ x.2.2
  stopIds : (s.stopping.map (·.1)).Nodup
  ctlStop : ∀ ps ∈ s.ctlStopping, ∃ a, s.ctl = some a ∧ a ∉ s.pending ∧ ∀ i p, (i, some p) ∈ (s.objs a).procs → p ∈ ps
  ctlOne : s.ctlStopping.length ≤ 1
  mineSeen : ∀ p ∈ s.mine, p ∈ s.seen
  main : ∀ p ∈ s.mine, p ∈ s.live → Tracks s p

theorem Own.update {c : Cfg} {s : St} (h : Own s) : Own (update c s) := by
  unfold Cluster.update
  split
  · exact { h with }
  · exact h

theorem mem_procsOf {l : Launcher} {p : Nat} : p ∈ procsOf l ↔ ∃ i, (i, some p) ∈ l.procs := by
  simp only [procsOf, List.mem_filterMap]
  constructor
  · rintro ⟨⟨i, o⟩, hm, ho⟩
    exact ⟨i, by simp only at ho; rw [← ho]; exact hm⟩
  · rintro ⟨i, hm⟩
    exact ⟨(i, some p), hm, rfl⟩

/-- steps that change neither launchers nor the tables, and start nothing -/
theorem Own.quiet {s s' : St} (h : Own s) (h1 : s'.objs = s.objs) (h2 : s'.engines = s.engines) (h3 : s'.ctl = s.ctl) (h4 : ∀ a ∈ s'.pending, a ∈ s.pending)
    (h5 : s'.stopping = s.stopping) (h6 : s'.ctlStopping = s.ctlStopping) (h7 : s'.mine = s.mine) (h8 : ∀ p ∈ s.seen, p ∈ s'.seen) (h9 : ∀ p ∈ s.seen, p ∈ s'.live → p ∈ s.live) : Own s' := by
  refine ⟨?_, ?_, ?_, ?_, ?_, ?_, ?_⟩
  · intro a ha; rw [h2]; exact h.pendIn a (h4 a ha)
  · intro x hx; rw [h5] at hx; rw [h1, h2]
    obtain ⟨a, b, c⟩ := h.stop x hx
    exact ⟨a, fun hc => b (h4 _ hc), c⟩
  · rw [h5]; exact h.stopIds
  · intro ps hp; rw [h6] at hp; rw [h1, h3]
    obtain ⟨a, b, c, d⟩ := h.ctlStop ps hp
    exact ⟨a, b, fun hc => c (h4 _ hc), d⟩
  · rw [h6]; exact h.ctlOne
  · intro p hp; rw [h7] at hp; exact h8 p (h.mineSeen p hp)
  · intro p hp hl
    rw [h7] at hp
    have := h.main p hp (h9 p (h.mineSeen p hp) hl)
    unfold Tracks at this ⊢
    rw [h1, h2, h3]; exact this

theorem noticed_keeps {i p q k : Nat} {l : Launcher} (hne : q ≠ p) (h : (k, some q) ∈ l.procs) : (k, some q) ∈ (noticed i p l).procs := by
  unfold noticed
  split
  · exact List.mem_filter.2 ⟨h, by simp; exact .inr hne⟩
  · exact h

theorem nodup_idx {α β : Type} {f : α → β} {l : List α} (hn : (l.map f).Nodup) {k : Nat} {x y : α} (hk : l[k]? = some x) (hy : y ∈ l.eraseIdx k) : f y ≠ f x := by
  intro he
  rw [List.mem_eraseIdx_iff_getElem?] at hy
  obtain ⟨j, hjk, hj⟩ := hy
  obtain ⟨hk1, hk2⟩ := List.getElem?_eq_some_iff.1 hk
  obtain ⟨hj1, hj2⟩ := List.getElem?_eq_some_iff.1 hj
  have h1 : (l.map f)[j]'(by simpa using hj1) = (l.map f)[k]'(by simpa using hk1) := by simp [hk2, hj2, he]
  exact hjk ((List.getElem_inj hn).1 h1)

theorem mem_of_eraseIdx {α : Type} {l : List α} {k : Nat} {x : α} (h : x ∈ l.eraseIdx k) : x ∈ l := List.mem_of_mem_eraseIdx h

theorem eraseIdx_nil_of_one {α : Type} {l : List α} (h : l.length ≤ 1) {k : Nat} {x : α} (hk : l[k]? = some x) : l.eraseIdx k = [] := by
  obtain ⟨hk1, _⟩ := List.getElem?_eq_some_iff.1 hk
  match l, h with
  | [y], _ =>
    have : k = 0 := by simp at hk1; exact hk1
    subst this; rfl

theorem Own.step {c : Cfg} {s : St} (hi : Inv c s) (h : Own s) (e : Ev) (hc : Calm s e) : Own (step c s e) := by
  have hw := hi.wf
  have hpn : s.next ∉ s.pending := fun hx => absurd (hw.ltPend _ hx) (by omega)
  cases e with
  | startCtl r =>
    simp only [Cluster.step]
    split
    · exact h
    · rename_i hn
      have hnone : s.ctl = none := by cases hc : s.ctl with | none => rfl | some a => simp [hc] at hn
      have hcs : s.ctlStopping = [] := by
        cases hx : s.ctlStopping with
        | nil => rfl
        | cons ps t =>
          obtain ⟨a, ha, _⟩ := h.ctlStop ps (by rw [hx]; exact List.mem_cons_self)
          rw [hnone] at ha; cases ha
      have heng : ∀ e ∈ s.engines, ∀ l, setObj s.objs s.next l e.2 = s.objs e.2 := by
        intro e he l; simp only [setObj]; rw [if_neg]; have := hw.ltEng e he; omega
      have htr : ∀ p l, Tracks s p → ∃ a, (∃ id, (id, a) ∈ s.engines) ∧ ∃ i, (i, some p) ∈ (setObj s.objs s.next l a).procs := by
        rintro p l ⟨a, ha, i, hm⟩
        rcases ha with ha | ⟨id, ha⟩
        · rw [hnone] at ha; cases ha
        · exact ⟨a, ⟨id, ha⟩, i, by rw [heng _ ha]; exact hm⟩
      cases r with
      | none =>
        refine ⟨h.pendIn, ?_, h.stopIds, by simp [hcs], by simp [hcs], h.mineSeen, ?_⟩
        · intro x hx
          obtain ⟨a, b, d⟩ := h.stop x hx
          exact ⟨a, b, by simp only [heng _ a]; exact d⟩
        · intro p hp hl
          obtain ⟨a, ⟨id, ha⟩, hm⟩ := htr p { watched := true } (h.main p hp hl)
          exact ⟨a, .inr ⟨id, ha⟩, hm⟩
      | some p =>
        simp only
        split
        · rename_i hs
          refine Own.update ⟨h.pendIn, ?_, h.stopIds, by simp [hcs, spawn], by simp [hcs, spawn], ?_, ?_⟩
          · intro x hx
            obtain ⟨a, b, d⟩ := h.stop x hx
            exact ⟨a, b, by simp only [spawn, heng _ a]; exact d⟩
          · intro q hq
            rcases List.mem_append.1 hq with hq | hq
            · exact List.mem_append_left _ (h.mineSeen q hq)
            · exact List.mem_append_right _ hq
          · intro q hq hl
            rcases List.mem_append.1 hq with hq | hq
            · have hl' : q ∈ s.live := by
                rcases List.mem_append.1 hl with hl | hl
                · exact hl
                · exact absurd (h.mineSeen q hq) ((spawnable_spec hs).1 q hl).1
              obtain ⟨a, ⟨id, ha⟩, hm⟩ := htr q { state := .running, procs := [(0, some p)], watched := true } (h.main q hq hl')
              exact ⟨a, .inr ⟨id, ha⟩, hm⟩
            · refine ⟨s.next, .inl rfl, 0, ?_⟩
              rw [List.mem_singleton.1 hq]
              simp [setObj, spawn]
        · exact h
  | createSet id t =>
    simp only [Cluster.step]
    have hstop : ∀ x ∈ s.stopping, x.1 ≠ idOf s id t := by
      intro x hx
      cases id with
      | some i => exact hc.2 x hx
      | none =>
        intro he
        have := (h.stop x hx).1
        exact newSetId_fresh t (s.engines.map (·.1)) (by rw [← show x.1 = newSetId t (s.engines.map (·.1)) from he]; exact List.mem_map.2 ⟨_, this, rfl⟩)
    have hafter : ∀ a, (idOf s id t, a) ∈ s.engines → (s.objs a).state = .after := by
      intro a ha
      cases id with
      | some i => exact hc.1 a ha
      | none => exact absurd (List.mem_map.2 ⟨_, ha, rfl⟩) (newSetId_fresh t (s.engines.map (·.1)))
    have hold : ∀ a, a < s.next → setObj s.objs s.next { multi := c.multi } a = s.objs a := by
      intro a ha; simp only [setObj]; rw [if_neg (by omega)]
    show Own { s with
      objs := setObj s.objs s.next { multi := c.multi }, engines := dset (idOf s id t) s.next s.engines, pending := s.pending ++ [s.next], next := s.next + 1 }
    refine ⟨?_, ?_, h.stopIds, ?_, h.ctlOne, h.mineSeen, ?_⟩
    · intro a ha
      rcases List.mem_append.1 ha with ha | ha
      · obtain ⟨id', hid'⟩ := h.pendIn a ha
        by_cases he : id' = idOf s id t
        · exfalso
          have := hafter a (he ▸ hid')
          rw [(hw.pend a ha).1] at this; cases this
        · exact ⟨id', mem_dset_of_ne hid' he⟩
      · exact ⟨_, by rw [List.mem_singleton.1 ha]; exact self_mem_dset _ _ _⟩
    · intro x hx
      obtain ⟨a, b, d⟩ := h.stop x hx
      refine ⟨mem_dset_of_ne a (hstop x hx), ?_, ?_⟩
      · intro hm
        rcases List.mem_append.1 hm with hm | hm
        · exact b hm
        · have := hw.ltEng _ a
          have := List.mem_singleton.1 hm
          simp only at *; omega
      · simp only [hold _ (hw.ltEng _ a)]; exact d
    · intro ps hp
      obtain ⟨a, b, d, e⟩ := h.ctlStop ps hp
      refine ⟨a, b, ?_, ?_⟩
      · intro hm
        rcases List.mem_append.1 hm with hm | hm
        · exact d hm
        · have := hw.ltCtl a b
          have := List.mem_singleton.1 hm
          omega
      · simp only [hold _ (hw.ltCtl a b)]; exact e
    · intro p hp hl
      obtain ⟨a, ha, i, hm⟩ := h.main p hp hl
      rcases ha with ha | ⟨id', ha⟩
      · exact ⟨a, .inl ha, i, by simp only [hold a (hw.ltCtl a ha)]; exact hm⟩
      · by_cases he : id' = idOf s id t
        · exfalso
          exact hw.afterDead a (hafter a (he ▸ ha)) i p hm hl
        · exact ⟨a, .inr ⟨id', mem_dset_of_ne ha he⟩, i, by simp only [hold a (hw.ltEng _ ha)]; exact hm⟩
  | startSet a n ps ok =>
    simp only [Cluster.step]
    split
    · rename_i hcond
      have hold : ∀ b, b ∉ s.pending → setObj s.objs a (startLauncher n ps ok (s.objs a)) b = s.objs b := by
        intro b hb; simp only [setObj]; rw [if_neg]; intro he; exact hb (he ▸ hcond.1)
      have hown : Own (spawn ps { s with objs := setObj s.objs a (startLauncher n ps ok (s.objs a)), pending := s.pending.filter (· ≠ a) }) := by
        refine ⟨?_, ?_, h.stopIds, ?_, h.ctlOne, ?_, ?_⟩
        · intro b hb; exact h.pendIn b (List.mem_filter.1 hb).1
        · intro x hx
          obtain ⟨u, v, w⟩ := h.stop x hx
          exact ⟨u, fun hm => v (List.mem_filter.1 hm).1, by simp only [spawn, hold _ v]; exact w⟩
        · intro qs hq
          obtain ⟨b, u, v, w⟩ := h.ctlStop qs hq
          exact ⟨b, u, fun hm => v (List.mem_filter.1 hm).1, by simp only [spawn, hold _ v]; exact w⟩
        · intro q hq
          rcases List.mem_append.1 hq with hq | hq
          · exact List.mem_append_left _ (h.mineSeen q hq)
          · exact List.mem_append_right _ hq
        · intro q hq hl
          rcases List.mem_append.1 hq with hq | hq
          · have hl' : q ∈ s.live := by
              rcases List.mem_append.1 hl with hl | hl
              · exact hl
              · exact absurd (h.mineSeen q hq) ((spawnable_spec hcond.2.1).1 q hl).1
            obtain ⟨b, hb, i, hm⟩ := h.main q hq hl'
            refine ⟨b, hb, i, ?_⟩
            have : b ∉ s.pending := fun hp => by rw [(hw.pend b hp).2] at hm; exact absurd hm (by simp)
            simp only [spawn, hold b this]; exact hm
          · obtain ⟨id, hid⟩ := h.pendIn a hcond.1
            refine ⟨a, .inr ⟨id, hid⟩, ?_⟩
            simp only [spawn, setObj, if_true]
            unfold startLauncher
            split
            · obtain ⟨k, hk, hkq⟩ := List.mem_iff_getElem.1 hq
              refine ⟨k, List.mem_append_left _ ?_⟩
              rw [List.mem_iff_getElem]
              refine ⟨k, by simpa using hk, by simp [hkq]⟩
            · exact ⟨0, List.mem_map.2 ⟨q, hq, rfl⟩⟩
      split
      · exact hown.update
      · exact hown
    · exact h
  | abandon a => exact h.quiet rfl rfl rfl (fun _ h => (List.mem_filter.1 h).1) rfl rfl rfl (fun _ h => h) (fun _ _ h => h)
  | exit p => exact h.quiet rfl rfl rfl (fun _ h => h) rfl rfl rfl (fun _ h => h) (fun _ _ h => (List.mem_filter.1 h).1)
  | other p =>
    simp only [Cluster.step]
    split
    · rename_i hs
      refine h.quiet rfl rfl rfl (fun _ h => h) rfl rfl rfl (fun _ h => List.mem_append_left _ h) (fun q hq hl => ?_)
      rcases List.mem_append.1 hl with hl | hl
      · exact hl
      · exact absurd hq ((spawnable_spec hs).1 q hl).1
    · exact h
  | notice a i =>
    simp only [Cluster.step]
    split
    · rename_i j p hf
      split
      · exact h
      · rename_i hl
        simp only [not_or] at hl
        have hsub : ∀ b e, e ∈ (setObj s.objs a (noticed i p (s.objs a)) b).procs → e ∈ (s.objs b).procs := by
          intro b e he
          simp only [setObj] at he
          split at he
          · rename_i hb; rw [hb]; exact noticed_procs he
          · exact he
        have hown : Own { s with objs := setObj s.objs a (noticed i p (s.objs a)) } := by
          refine ⟨h.pendIn, ?_, h.stopIds, ?_, h.ctlOne, h.mineSeen, ?_⟩
          · intro x hx
            obtain ⟨u, v, w⟩ := h.stop x hx
            exact ⟨u, v, fun i p hm => w i p (hsub _ _ hm)⟩
          · intro qs hq
            obtain ⟨b, u, v, w⟩ := h.ctlStop qs hq
            exact ⟨b, u, v, fun i p hm => w i p (hsub _ _ hm)⟩
          · intro q hq hql
            obtain ⟨b, hb, k, hm⟩ := h.main q hq hql
            refine ⟨b, hb, k, ?_⟩
            simp only [setObj]
            split
            · rename_i he; subst he
              exact noticed_keeps (fun he => hl.1 (he ▸ hql)) hm
            · exact hm
        split
        · exact hown.update
        · exact hown
    · exact h
  | stopBegin id =>
    simp only [Cluster.step]
    split
    · rename_i a hg
      have hm := dget_mem hg
      refine ⟨h.pendIn, ?_, ?_, h.ctlStop, h.ctlOne, h.mineSeen, h.main⟩
      · intro x hx
        rcases List.mem_append.1 hx with hx | hx
        · exact h.stop x hx
        · rw [List.mem_singleton.1 hx]
          exact ⟨hm, hc.1 a hm, fun i p hp => mem_procsOf.2 ⟨i, hp⟩⟩
      · simp only [List.map_append, List.map_cons, List.map_nil]
        rw [List.nodup_append]
        refine ⟨h.stopIds, by simp, ?_⟩
        intro y hy z hz
        rw [List.mem_singleton.1 hz]
        obtain ⟨x, hx, rfl⟩ := List.mem_map.1 hy
        exact hc.2 x hx
    · exact h
  | stopEnd k =>
    simp only [Cluster.step]
    split
    · rename_i id a ps hk
      have hx : (id, a, ps) ∈ s.stopping := List.mem_of_getElem? hk
      obtain ⟨u, v, w⟩ := h.stop _ hx
      split
      · rename_i hd
        have hd' : ∀ p ∈ ps, p ∉ s.live := by simpa using hd
        split
        · refine Own.update ⟨?_, ?_, ?_, h.ctlStop, h.ctlOne, h.mineSeen, ?_⟩
          · intro b hb
            obtain ⟨id', hid'⟩ := h.pendIn b hb
            refine ⟨id', mem_dpop.2 ⟨hid', ?_⟩⟩
            intro he
            simp only at he
            subst he
            have := dget_of_mem hw.keys hid'
            rw [dget_of_mem hw.keys u] at this
            cases this
            exact v hb
          · intro y hy
            obtain ⟨u', v', w'⟩ := h.stop y (mem_of_eraseIdx hy)
            exact ⟨mem_dpop.2 ⟨u', nodup_idx h.stopIds hk hy⟩, v', w'⟩
          · exact ((List.eraseIdx_sublist _ _).map _).nodup h.stopIds
          · intro p hp hl
            obtain ⟨b, hb, i, hm⟩ := h.main p hp hl
            rcases hb with hb | ⟨id', hb⟩
            · exact ⟨b, .inl hb, i, hm⟩
            · refine ⟨b, .inr ⟨id', mem_dpop.2 ⟨hb, ?_⟩⟩, i, hm⟩
              intro he
              simp only at he
              subst he
              have := dget_of_mem hw.keys hb
              rw [dget_of_mem hw.keys u] at this
              cases this
              exact hd' p (w i p hm) hl
        · refine ⟨h.pendIn, fun y hy => h.stop y (mem_of_eraseIdx hy), ((List.eraseIdx_sublist _ _).map _).nodup h.stopIds, h.ctlStop, h.ctlOne, h.mineSeen, h.main⟩
      · exact h
    · exact h
  | stopFail k =>
    exact ⟨h.pendIn, fun y hy => h.stop y (mem_of_eraseIdx hy), ((List.eraseIdx_sublist _ _).map _).nodup h.stopIds, h.ctlStop, h.ctlOne, h.mineSeen, h.main⟩
  | stopCtlBegin =>
    have hcs : s.ctlStopping = [] := hc
    simp only [Cluster.step]
    split
    · rename_i a ha
      split
      · rename_i hr
        refine ⟨h.pendIn, h.stop, h.stopIds, ?_, by simp [hcs], h.mineSeen, h.main⟩
        intro ps hps
        rw [hcs] at hps
        rw [List.mem_singleton.1 hps]
        exact ⟨a, ha, (fun hp => by rw [(hw.pend a hp).1] at hr; cases hr), fun i p hm => mem_procsOf.2 ⟨i, hm⟩⟩
      · rename_i hr
        refine Own.update ⟨h.pendIn, h.stop, h.stopIds, by simp [hcs], by simp [hcs], h.mineSeen, ?_⟩
        intro p hp hl
        obtain ⟨b, hb, i, hm⟩ := h.main p hp hl
        rcases hb with hb | hb
        · exfalso
          rw [ha] at hb; cases hb
          cases hst : (s.objs a).state with
          | before => rw [hi.ctlBefore a ha hst] at hm; exact absurd hm (by simp)
          | running => exact hr hst
          | after => exact hw.afterDead a hst i p hm hl
        · exact ⟨b, .inr hb, i, hm⟩
    · rename_i ha
      refine Own.update ⟨h.pendIn, h.stop, h.stopIds, by simp [hcs], by simp [hcs], h.mineSeen, ?_⟩
      intro p hp hl
      obtain ⟨b, hb, i, hm⟩ := h.main p hp hl
      rcases hb with hb | hb
      · rw [ha] at hb; cases hb
      · exact ⟨b, .inr hb, i, hm⟩
  | stopCtlEnd k =>
    simp only [Cluster.step]
    split
    · rename_i ps hk
      split
      · rename_i hd
        have hd' : ∀ p ∈ ps, p ∉ s.live := by simpa using hd
        have hnil := eraseIdx_nil_of_one h.ctlOne hk
        obtain ⟨a, ha, _, hsub⟩ := h.ctlStop ps (List.mem_of_getElem? hk)
        refine Own.update ⟨h.pendIn, h.stop, h.stopIds, by simp [hnil], by simp [hnil], h.mineSeen, ?_⟩
        intro p hp hl
        obtain ⟨b, hb, i, hm⟩ := h.main p hp hl
        rcases hb with hb | hb
        · exfalso
          rw [ha] at hb; cases hb
          exact hd' p (hsub i p hm) hl
        · exact ⟨b, .inr hb, i, hm⟩
      · exact h
    · exact h
  | stopCtlFail k =>
    refine ⟨h.pendIn, h.stop, h.stopIds, fun ps hp => h.ctlStop ps (mem_of_eraseIdx hp), ?_, h.mineSeen, h.main⟩
    exact Nat.le_trans (List.eraseIdx_sublist _ _).length_le h.ctlOne

theorem Start.own {c : Cfg} {s : St} (hen : c.enabled = true) (h : Start c s) : Own s := by
  cases h with
  | new live seen hl => exact ⟨by simp, by simp, by simp, by simp, by simp, by simp, by simp⟩
  | loaded d live seen hl hd =>
    obtain ⟨hi, l1, l2, l3, l4, l5, _, _, l8⟩ := load_spec hen hl hd
    generalize load c d live seen = r at *
    have hm : ∀ p ∈ r.mine, Tracks r p := by
      intro p hp
      rw [l8] at hp
      rcases List.mem_append.1 hp with hp | hp
      · cases hc : r.ctl with
        | none => rw [hc] at hp; exact absurd hp (by simp)
        | some a =>
          rw [hc] at hp
          exact ⟨a, .inl hc, mem_procsOf.1 hp⟩
      · obtain ⟨e, he, hp⟩ := List.mem_flatMap.1 hp
        exact ⟨e.2, .inr ⟨e.1, he⟩, mem_procsOf.1 hp⟩
    refine ⟨by simp [l3], by simp [l4], by simp [l4], by simp [l5], by simp [l5], ?_, fun p hp _ => hm p hp⟩
    intro p hp
    obtain ⟨a, _, i, hx⟩ := hm p hp
    exact hi.wf.procSeen a i p hx

theorem Own.run {c : Cfg} (hen : c.enabled = true) : ∀ (h : List Ev) {s : St}, Inv c s → Own s → Along Calm c s h → Own (run c s h)
  | [], _, _, ho, _ => ho
  | e :: t, _, hi, ho, ha => Own.run hen t (hi.step hen e ha.1.idUnused) (ho.step hi e ha.1) ha.2

/-- **No process is forgotten**: every process the cluster has started (or taken over from a file) and that is alive belongs to a component the cluster object lists. -/
theorem no_process_forgotten_partial {c : Cfg} (hen : c.enabled = true) {s : St} (hs : Start c s) (h : List Ev) (hc : Along Calm c s h) :
    ∀ p ∈ (run c s h).mine, p ∈ (run c s h).live → Tracks (run c s h) p :=
  (Own.run hen h (hs.inv hen) (hs.own hen) hc).main

/-- **Stopping everything stops everything**: once the controller and all engine sets have been stopped, none of the processes is alive, and the file is gone. -/
theorem stopped_cluster_partial {c : Cfg} (hen : c.enabled = true) {s : St} (hs : Start c s) (h : List Ev) (hc : Along Calm c s h)
    (h1 : (run c s h).ctl = none) (h2 : (run c s h).engines = []) :
    (∀ p ∈ (run c s h).mine, p ∉ (run c s h).live) ∧ (run c s h).file = none := by
  constructor
  · intro p hp hl
    obtain ⟨a, ha, _⟩ := no_process_forgotten_partial hen hs h hc p hp hl
    rcases ha with ha | ⟨id, ha⟩
    · rw [h1] at ha; cases ha
    · rw [h2] at ha; exact absurd ha (by simp)
  · have := (file_exists_partial hen hs h (hc.mono (fun _ _ => Calm.idUnused))).2
    cases hf : (run c s h).file with
    | none => rfl
    | some d =>
      exfalso
      rcases this (by simp [hf]) with hx | hx <;> rcases hx with ⟨a, ha, _⟩ | ⟨e, he, _⟩
      · rw [h1] at ha; cases ha
      · rw [h2] at he; exact absurd he (by simp)
      · rw [h1] at ha; cases ha
      · rw [h2] at he; exact absurd he (by simp)

/-! ## The number of engines (what `restart_engines` starts again, cluster.py:822-825) -/

theorem n_kept {c : Cfg} {a n : Nat} : ∀ (h : List Ev) {s : St}, a < s.next → a ∉ s.pending → (s.objs a).n = n → ((run c s h).objs a).n = n
  | [], _, _, _, hn => hn
  | e :: t, s, hlt, hp, hn => by
    have hupd : ∀ x : St, (update c x).objs = x.objs ∧ (update c x).next = x.next ∧ (update c x).pending = x.pending := by
      intro x; unfold update; split <;> simp
    have : a < (step c s e).next ∧ a ∉ (step c s e).pending ∧ ((step c s e).objs a).n = n := by
      cases e with
      | startCtl r =>
        simp only [step]
        split
        · exact ⟨hlt, hp, hn⟩
        · cases r with
          | none => refine ⟨Nat.lt_succ_of_lt hlt, hp, ?_⟩; simp only [setObj]; rw [if_neg (by omega)]; exact hn
          | some p =>
            simp only
            split
            · rw [(hupd _).1, (hupd _).2.1, (hupd _).2.2]
              refine ⟨Nat.lt_succ_of_lt hlt, hp, ?_⟩
              simp only [spawn, setObj]; rw [if_neg (by omega)]; exact hn
            · exact ⟨hlt, hp, hn⟩
      | createSet id u =>
        refine ⟨Nat.lt_succ_of_lt hlt, ?_, ?_⟩
        · intro hm
          rcases List.mem_append.1 hm with hm | hm
          · exact hp hm
          · have := List.mem_singleton.1 hm; omega
        · simp only [step, setObj]; rw [if_neg (by omega)]; exact hn
      | startSet b m ps ok =>
        simp only [step]
        split
        · rename_i hcond
          have hne : a ≠ b := fun he => hp (he ▸ hcond.1)
          have : a < (spawn ps { s with objs := setObj s.objs b (startLauncher m ps ok (s.objs b)), pending := s.pending.filter (· ≠ b) }).next ∧
              a ∉ (spawn ps { s with objs := setObj s.objs b (startLauncher m ps ok (s.objs b)), pending := s.pending.filter (· ≠ b) }).pending ∧
              ((spawn ps { s with objs := setObj s.objs b (startLauncher m ps ok (s.objs b)), pending := s.pending.filter (· ≠ b) }).objs a).n = n := by
            refine ⟨hlt, fun hm => hp (List.mem_filter.1 hm).1, ?_⟩
            simp only [spawn, setObj]; rw [if_neg hne]; exact hn
          split
          · rw [(hupd _).1, (hupd _).2.1, (hupd _).2.2]; exact this
          · exact this
        · exact ⟨hlt, hp, hn⟩
      | abandon b => exact ⟨hlt, fun hm => hp (List.mem_filter.1 hm).1, hn⟩
      | exit p => exact ⟨hlt, hp, hn⟩
      | other p =>
        simp only [step]; split
        · exact ⟨hlt, hp, hn⟩
        · exact ⟨hlt, hp, hn⟩
      | notice b i =>
        simp only [step]
        split
        · rename_i j p _
          split
          · exact ⟨hlt, hp, hn⟩
          · have : ((setObj s.objs b (noticed i p (s.objs b))) a).n = n := by
              simp only [setObj]
              split
              · rename_i he; subst he; unfold noticed; split <;> exact hn
              · exact hn
            split
            · rw [(hupd _).1, (hupd _).2.1, (hupd _).2.2]; exact ⟨hlt, hp, this⟩
            · exact ⟨hlt, hp, this⟩
        · exact ⟨hlt, hp, hn⟩
      | stopBegin id =>
        simp only [step]; split
        · exact ⟨hlt, hp, hn⟩
        · exact ⟨hlt, hp, hn⟩
      | stopEnd k =>
        simp only [step]
        split
        · split
          · split
            · rw [(hupd _).1, (hupd _).2.1, (hupd _).2.2]; exact ⟨hlt, hp, hn⟩
            · exact ⟨hlt, hp, hn⟩
          · exact ⟨hlt, hp, hn⟩
        · exact ⟨hlt, hp, hn⟩
      | stopFail k => exact ⟨hlt, hp, hn⟩
      | stopCtlBegin =>
        simp only [step]
        split
        · split
          · exact ⟨hlt, hp, hn⟩
          · rw [(hupd _).1, (hupd _).2.1, (hupd _).2.2]; exact ⟨hlt, hp, hn⟩
        · rw [(hupd _).1, (hupd _).2.1, (hupd _).2.2]; exact ⟨hlt, hp, hn⟩
      | stopCtlEnd k =>
        simp only [step]
        split
        · split
          · rw [(hupd _).1, (hupd _).2.1, (hupd _).2.2]; exact ⟨hlt, hp, hn⟩
          · exact ⟨hlt, hp, hn⟩
        · exact ⟨hlt, hp, hn⟩
      | stopCtlFail k => exact ⟨hlt, hp, hn⟩
    exact n_kept t this.1 this.2.1 this.2.2

/-- **Restarting starts the same number of engines**: the number of engines of a set is the one its `start_engines` was called with, whatever has happened since
(in particular, however many of its engines have died). -/
theorem set_size_kept {c : Cfg} (hen : c.enabled = true) {s : St} (hs : Start c s) (g : List Ev) (hid : Along IdUnused c s g) (a n : Nat) (ps : List Nat)
    (hp : a ∈ (run c s g).pending) (hr : ((step c (run c s g) (.startSet a n ps true)).objs a).state = .running) (h : List Ev) :
    ((run c (step c (run c s g) (.startSet a n ps true)) h).objs a).n = n := by
  have hi := Inv.run hen g (hs.inv hen) hid
  have hupd : ∀ x : St, (update c x).objs = x.objs ∧ (update c x).next = x.next ∧ (update c x).pending = x.pending := by
    intro x; unfold update; split <;> simp
  simp only [step] at hr ⊢
  split at hr
  · rename_i hcond
    rw [if_pos hcond]
    simp only [if_true]
    apply n_kept
    · rw [(hupd _).2.1]; exact hi.wf.ltPend a hp
    · rw [(hupd _).2.2]; simp [spawn]
    · rw [(hupd _).1]
      simp only [spawn, setObj, if_true]
      unfold startLauncher; split <;> rfl
  · rw [(hi.wf.pend a hp).1] at hr; cases hr

/-- **Generated ids are new** -/
theorem generated_id_new {c : Cfg} (s : St) (t : Nat) : ∀ e ∈ s.engines, e ∈ (step c s (.createSet none t)).engines ∧ e.1 ≠ newSetId t (s.engines.map (·.1)) := by
  intro e he
  have hne : e.1 ≠ newSetId t (s.engines.map (·.1)) := fun h => newSetId_fresh t (s.engines.map (·.1)) (by rw [← h]; exact List.mem_map_of_mem he)
  exact ⟨mem_dset_of_ne he hne, hne⟩

end IPP.Cluster
