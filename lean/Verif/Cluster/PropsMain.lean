import Verif.Cluster.Props
/-!
# Cluster files: the theorems (property C62)
-/
namespace IPP.Cluster

/-! ### invariants -/

theorem isRunning_iff {s : St} : isRunning s = true ↔ (∃ a, s.ctl = some a ∧ (s.objs a).state ≠ .after) ∨ ∃ e ∈ s.engines, (s.objs e.2).state ≠ .after := by
  unfold isRunning
  rw [Bool.or_eq_true, List.any_eq_true]
  cases hc : s.ctl with
  | none => simp
  | some a => simp

/-- the kinds of launchers, and the file -/
structure Inv (c : Cfg) (s : St) : Prop where
  wf : Wf s
  ctlSingle : ∀ a, s.ctl = some a → (s.objs a).multi = false
  setKind : ∀ e ∈ s.engines, (s.objs e.2).multi = c.multi
  pendKind : ∀ a ∈ s.pending, (s.objs a).multi = c.multi
  ctlBefore : ∀ a, s.ctl = some a → (s.objs a).state = .before → (s.objs a).procs = []
  pendCtl : ∀ a ∈ s.pending, s.ctl ≠ some a
  inv : ∃ full, FileInv c s full
  nonempty : s.file.isSome = true → isRunning s = true
  fileWf : ∀ d, s.file = some d → WfSnap c d

theorem toDict_wf {c : Cfg} {s : St} (hw : Wf s) (h1 : ∀ a, s.ctl = some a → (s.objs a).multi = false) (h2 : ∀ e ∈ s.engines, (s.objs e.2).multi = c.multi)
    (h3 : ∀ a, s.ctl = some a → (s.objs a).state = .before → (s.objs a).procs = []) (hr : isRunning s = true) : WfSnap c (toDict c s) where
  ctlBefore := by
    intro l hl hb
    simp only [toDict] at hl
    split at hl
    · rename_i a ha
      split at hl
      · cases hl
      · cases hl
        simp [lsnap, h3 a ha hb]
    · cases hl
  keys := by
    simp only [toDict, List.map_map]
    have : ((fun e : String × LSnap => e.1) ∘ fun e : String × Nat => (e.1, lsnap c.pid (s.objs e.2))) = (fun e => e.1) := rfl
    rw [this]
    exact (List.filter_sublist.map _).nodup hw.keys
  ctlState := by
    intro l hl
    simp only [toDict] at hl
    split at hl
    · split at hl
      · cases hl
      · rename_i hx; cases hl; exact hx
    · cases hl
  state := by
    intro e he
    simp only [toDict, List.mem_map, List.mem_filter] at he
    obtain ⟨x, ⟨_, hx⟩, rfl⟩ := he
    simpa [lsnap] using hx
  ctlOne := by
    intro l hl
    simp only [toDict] at hl
    split at hl
    · rename_i a ha
      split at hl
      · cases hl
      · cases hl
        simpa [lsnap] using hw.single a (h1 a ha)
    · cases hl
  one := by
    intro hm e he
    simp only [toDict, List.mem_map, List.mem_filter] at he
    obtain ⟨x, ⟨hx, _⟩, rfl⟩ := he
    simpa [lsnap] using hw.single x.2 (by rw [h2 x hx, hm])
  nonempty := by
    rcases isRunning_iff.1 hr with ⟨a, ha, hs⟩ | ⟨e, he, hs⟩
    · left; simp [toDict, ha, hs]
    · right
      simp only [toDict]
      intro hc
      have := List.map_eq_nil_iff.1 hc
      rw [List.filter_eq_nil_iff] at this
      exact this e he (by simpa using hs)

theorem Inv.ofUpdate {c : Cfg} {s : St} (hen : c.enabled = true) (hw : Wf s) (h1 : ∀ a, s.ctl = some a → (s.objs a).multi = false)
    (h2 : ∀ e ∈ s.engines, (s.objs e.2).multi = c.multi) (h3 : ∀ a ∈ s.pending, (s.objs a).multi = c.multi)
    (h4 : ∀ a, s.ctl = some a → (s.objs a).state = .before → (s.objs a).procs = []) (h5 : ∀ a ∈ s.pending, s.ctl ≠ some a) : Inv c (update c s) := by
  have hfile : (update c s).file = if isRunning s then some (toDict c s) else none := by unfold update; rw [if_pos hen]
  have hrun : isRunning (update c s) = isRunning s := by unfold update; rw [if_pos hen]; rfl
  refine ⟨hw.update, ?_, ?_, ?_, ?_, ?_, ⟨_, FileInv.ofUpdate hen hw⟩, ?_, ?_⟩
  · unfold update; rw [if_pos hen]; exact h1
  · unfold update; rw [if_pos hen]; exact h2
  · unfold update; rw [if_pos hen]; exact h3
  · unfold update; rw [if_pos hen]; exact h4
  · unfold update; rw [if_pos hen]; exact h5
  · rw [hfile, hrun]; cases isRunning s <;> simp
  · intro d hd
    rw [hfile] at hd
    cases hr : isRunning s with
    | false => rw [hr] at hd; cases hd
    | true => rw [hr] at hd; cases hd; exact toDict_wf hw h1 h2 h4 hr

/-- steps that do not write the file -/
theorem Inv.frame {c : Cfg} {s s' : St} (h : Inv c s) (hw : Wf s') (hi : ∃ full, FileInv c s' full) (hf : s'.file = s.file)
    (h1 : ∀ a, s'.ctl = some a → (s'.objs a).multi = false) (h2 : ∀ e ∈ s'.engines, (s'.objs e.2).multi = c.multi)
    (h3 : ∀ a ∈ s'.pending, (s'.objs a).multi = c.multi) (h4 : ∀ a, s'.ctl = some a → (s'.objs a).state = .before → (s'.objs a).procs = [])
    (h5 : ∀ a ∈ s'.pending, s'.ctl ≠ some a) (hr : isRunning s = true → isRunning s' = true) : Inv c s' :=
  ⟨hw, h1, h2, h3, h4, h5, hi, fun hs => hr (h.nonempty (by rw [← hf]; exact hs)), fun d hd => h.fileWf d (by rw [← hf]; exact hd)⟩

theorem Inv.step {c : Cfg} {s : St} (hen : c.enabled = true) (h : Inv c s) (e : Ev) (hid : IdUnused s e) : Inv c (step c s e) := by
  obtain ⟨full, hf⟩ := h.inv
  have hi := hf.step hen h.wf e hid
  have hw := h.wf.step (c := c) e
  have same : ∀ x : St, Wf x → (∃ full, FileInv c x full) → x.objs = s.objs → x.engines = s.engines → x.ctl = s.ctl → x.file = s.file → (∀ a ∈ x.pending, a ∈ s.pending) → Inv c x := by
    intro x hw hi h1 h2 h3 h4 h5
    refine h.frame hw hi h4 (by rw [h3, h1]; exact h.ctlSingle) (by rw [h2, h1]; exact h.setKind) (fun a ha => by rw [h1]; exact h.pendKind a (h5 a ha))
      (by rw [h3, h1]; exact h.ctlBefore) (fun a ha => by rw [h3]; exact h.pendCtl a (h5 a ha)) ?_
    unfold isRunning; rw [h1, h2, h3]; exact id
  cases e with
  | startCtl r =>
    simp only [Cluster.step] at hi hw ⊢
    split
    · exact h
    · rename_i hn
      rw [if_neg hn] at hi hw
      have heng : ∀ e ∈ s.engines, ∀ l, setObj s.objs s.next l e.2 = s.objs e.2 := by
        intro e he l; simp only [setObj]; rw [if_neg]; have := h.wf.ltEng e he; omega
      have hpen : ∀ a ∈ s.pending, ∀ l, setObj s.objs s.next l a = s.objs a := by
        intro a ha l; simp only [setObj]; rw [if_neg]; have := h.wf.ltPend a ha; omega
      cases r with
      | none =>
        refine h.frame hw hi rfl ?_ ?_ ?_ ?_ ?_ ?_
        · intro a ha; cases ha; simp [setObj]
        · intro e he; simp only [heng e he]; exact h.setKind e he
        · intro a ha; simp only [hpen a ha]; exact h.pendKind a ha
        · intro a ha; cases ha; simp [setObj]
        · intro a ha hc; cases hc; exact absurd (h.wf.ltPend _ ha) (by omega)
        · intro _; rw [isRunning_iff]; exact .inl ⟨s.next, rfl, by simp [setObj]⟩
      | some p =>
        simp only at hi hw ⊢
        split
        · rename_i hs
          simp only [hs, if_true] at hw
          refine Inv.ofUpdate hen hw.ofUpdate ?_ ?_ ?_ ?_ ?_
          · intro a ha; cases ha; simp [setObj, spawn]
          · intro e he; simp only [spawn, heng e he]; exact h.setKind e he
          · intro a ha; simp only [spawn, hpen a ha]; exact h.pendKind a ha
          · intro a ha; cases ha; simp [setObj, spawn]
          · intro a ha hc; cases hc; exact absurd (h.wf.ltPend _ ha) (by omega)
        · exact h
  | createSet id t =>
    simp only [Cluster.step] at hi hw ⊢
    refine h.frame hw hi rfl ?_ ?_ ?_ ?_ ?_ ?_
    · intro a ha
      have := h.wf.ltCtl a ha
      simp only [setObj]
      rw [if_neg (by omega)]
      exact h.ctlSingle a ha
    · intro e he
      simp only [setObj]
      split
      · rfl
      · rcases mem_dset he with he | ⟨he, _⟩
        · subst he; contradiction
        · exact h.setKind e he
    · intro a ha
      simp only [setObj]
      split
      · rfl
      · rcases List.mem_append.1 ha with ha | ha
        · exact h.pendKind a ha
        · exact absurd (List.mem_singleton.1 ha) (by assumption)
    · intro a ha
      have := h.wf.ltCtl a ha
      simp only [setObj]
      rw [if_neg (by omega)]
      exact h.ctlBefore a ha
    · intro a ha hc
      rcases List.mem_append.1 ha with ha | ha
      · exact h.pendCtl a ha hc
      · have := h.wf.ltCtl a hc
        have := List.mem_singleton.1 ha
        omega
    · intro _
      rw [isRunning_iff]
      exact .inr ⟨_, self_mem_dset _ s.next s.engines, by simp [setObj]⟩
  | startSet a n ps ok =>
    simp only [Cluster.step] at hi hw ⊢
    split
    · rename_i hc
      rw [if_pos hc] at hi hw
      have hk : ∀ b, (setObj s.objs a (startLauncher n ps ok (s.objs a)) b).multi = (s.objs b).multi := by
        intro b
        simp only [setObj]
        split
        · rename_i he; subst he; unfold startLauncher; split <;> rfl
        · rfl
      have hcb : ∀ b, s.ctl = some b → (setObj s.objs a (startLauncher n ps ok (s.objs a)) b).state = .before → (setObj s.objs a (startLauncher n ps ok (s.objs a)) b).procs = [] := by
        intro b hb
        have hne : b ≠ a := fun he => h.pendCtl a hc.1 (he ▸ hb)
        simp only [setObj]
        rw [if_neg hne]
        exact h.ctlBefore b hb
      have hpc : ∀ b ∈ s.pending.filter (· ≠ a), s.ctl ≠ some b := fun b hb => h.pendCtl b (List.mem_filter.1 hb).1
      cases ok with
      | true =>
        refine Inv.ofUpdate hen (Wf.ofUpdate hw) ?_ ?_ ?_ hcb hpc
        · intro b hb; exact (hk b).trans (h.ctlSingle b hb)
        · intro e he; exact (hk e.2).trans (h.setKind e he)
        · intro b hb; exact (hk b).trans (h.pendKind b (List.mem_filter.1 hb).1)
      | false =>
        simp only [Bool.false_eq_true, if_false] at hi hw ⊢
        refine h.frame hw hi rfl ?_ ?_ ?_ hcb hpc ?_
        · intro b hb; exact (hk b).trans (h.ctlSingle b hb)
        · intro e he; exact (hk e.2).trans (h.setKind e he)
        · intro b hb; exact (hk b).trans (h.pendKind b (List.mem_filter.1 hb).1)
        · have hst : ∀ b, (setObj s.objs a (startLauncher n ps false (s.objs a)) b).state = (s.objs b).state := by
            intro b
            simp only [setObj]
            split
            · rename_i he; subst he; unfold startLauncher; split <;> simp
            · rfl
          rw [isRunning_iff, isRunning_iff]
          simp only [spawn, hst]
          exact id
    · exact h
  | abandon a => exact same _ hw hi rfl rfl rfl rfl (fun _ h => (List.mem_filter.1 h).1)
  | exit p => exact same _ hw hi rfl rfl rfl rfl (fun _ h => h)
  | other p =>
    simp only [Cluster.step] at hi hw ⊢
    split
    · rename_i hs
      rw [if_pos hs] at hi hw
      exact same _ hw hi rfl rfl rfl rfl (fun _ h => h)
    · exact h
  | notice a i =>
    simp only [Cluster.step] at hi hw ⊢
    split
    · rename_i j p hf'
      simp only [hf'] at hi hw
      have hmem : (j, some p) ∈ (s.objs a).procs := List.mem_of_find?_eq_some hf'
      have hji : j = i := by have := List.find?_some hf'; simpa using this
      subst hji
      split
      · exact h
      · rename_i hl
        rw [if_neg hl] at hi hw
        have hk : ∀ b, (setObj s.objs a (noticed j p (s.objs a)) b).multi = (s.objs b).multi := by
          intro b
          simp only [setObj]
          split
          · rename_i he; subst he; unfold noticed; split <;> rfl
          · rfl
        have hcb : ∀ b, s.ctl = some b → (setObj s.objs a (noticed j p (s.objs a)) b).state = .before → (setObj s.objs a (noticed j p (s.objs a)) b).procs = [] := by
          intro b hb hst
          simp only [setObj] at hst ⊢
          split
          · rename_i he
            subst he
            rw [if_pos rfl] at hst
            unfold noticed at hst
            rw [if_neg (by rw [h.ctlSingle b hb]; simp)] at hst
            cases hst
          · rename_i he
            rw [if_neg he] at hst
            exact h.ctlBefore b hb hst
        split
        · rename_i hc
          rw [if_pos hc] at hi hw
          refine Inv.ofUpdate hen hw.ofUpdate ?_ ?_ ?_ hcb h.pendCtl
          · intro b hb; simp only [hk]; exact h.ctlSingle b hb
          · intro e he; simp only [hk]; exact h.setKind e he
          · intro b hb; simp only [hk]; exact h.pendKind b hb
        · rename_i hc
          rw [if_neg hc] at hi hw
          refine h.frame hw hi rfl ?_ ?_ ?_ hcb h.pendCtl ?_
          · intro b hb; simp only [hk]; exact h.ctlSingle b hb
          · intro e he; simp only [hk]; exact h.setKind e he
          · intro b hb; simp only [hk]; exact h.pendKind b hb
          · have hna : (noticed j p (s.objs a)).state ≠ .after := by
              by_cases hu : (s.objs a).watched = true
              · exact fun hx => hc ⟨hx, hu⟩
              · rw [not_watched_not_after h.wf hmem (by simpa using hu)]
                exact fun hx => hl (.inr hx)
            rw [isRunning_iff, isRunning_iff]
            have hst : ∀ b, (s.objs b).state ≠ .after → (setObj s.objs a (noticed j p (s.objs a)) b).state ≠ .after := by
              intro b hb
              simp only [setObj]
              split
              · exact hna
              · exact hb
            rintro (⟨b, hb, hs⟩ | ⟨e, he, hs⟩)
            · exact .inl ⟨b, hb, hst b hs⟩
            · exact .inr ⟨e, he, hst e.2 hs⟩
    · exact h
  | stopBegin id =>
    simp only [Cluster.step] at hi hw ⊢
    split
    · rename_i a hg
      simp only [hg] at hi hw
      exact same _ hw hi rfl rfl rfl rfl (fun _ h => h)
    · exact h
  | stopEnd k =>
    simp only [Cluster.step] at hi hw ⊢
    split
    · rename_i id a ps hk
      simp only [hk] at hi hw
      split
      · rename_i hd
        rw [if_pos hd] at hi hw
        split
        · rename_i hg
          rw [if_pos hg] at hi hw
          refine Inv.ofUpdate hen hw.ofUpdate ?_ ?_ ?_ ?_ ?_
          · exact h.ctlSingle
          · exact fun e he => h.setKind e (dpop_sub he)
          · exact h.pendKind
          · exact h.ctlBefore
          · exact h.pendCtl
        · rename_i hg
          rw [if_neg hg] at hi hw
          exact same _ hw hi rfl rfl rfl rfl (fun _ h => h)
      · exact h
    · exact h
  | stopFail k => exact same _ hw hi rfl rfl rfl rfl (fun _ h => h)
  | stopCtlBegin =>
    simp only [Cluster.step] at hi hw ⊢
    split
    · rename_i a hk
      simp only [hk] at hi hw
      split
      · rename_i hd
        rw [if_pos hd] at hi hw
        rw [← hk] at hi hw
        exact same _ hw hi rfl rfl rfl rfl (fun _ h => h)
      · rename_i hd
        rw [if_neg hd] at hi hw
        exact Inv.ofUpdate hen hw.ofUpdate (by simp) h.setKind h.pendKind (by simp) (by simp)
    · rename_i hk
      simp only [hk] at hi hw
      exact Inv.ofUpdate hen hw.ofUpdate (by simp) h.setKind h.pendKind (by simp) (by simp)
  | stopCtlEnd k =>
    simp only [Cluster.step] at hi hw ⊢
    split
    · rename_i ps hk
      simp only [hk] at hi hw
      split
      · rename_i hd
        rw [if_pos hd] at hi hw
        exact Inv.ofUpdate hen hw.ofUpdate (by simp) h.setKind h.pendKind (by simp) (by simp)
      · exact h
    · exact h
  | stopCtlFail k => exact same _ hw hi rfl rfl rfl rfl (fun _ h => h)

/-! ### loading -/

/-- the launchers of the sets in a file that are found again -/
def found (c : Cfg) (live : List Nat) (l : List (String × LSnap)) : List (String × Launcher) :=
  l.filterMap (fun e => (restoreSet c live e.2).map (fun x => (e.1, x)))

theorem dset_new {k : String} {v : Nat} : ∀ {d : List (String × Nat)}, k ∉ d.map (·.1) → dset k v d = d ++ [(k, v)]
  | [], _ => rfl
  | x :: t, h => by
    simp only [List.map_cons, List.mem_cons, not_or] at h
    simp only [dset]
    rw [if_neg (fun e => h.1 e.symm), dset_new h.2]
    rfl

theorem findKids_seen {c : Cfg} {live : List Nat} {l : List (Nat × Option Nat)} {i p : Nat} (h : (i, some p) ∈ findKids c live l) : p ∈ live := by
  simp only [findKids, List.mem_filterMap] at h
  obtain ⟨e, _, he⟩ := h
  cases h2 : e.2 with
  | none => simp [findProc, h2] at he
  | some q =>
    simp only [findProc, h2, Option.map_map, Option.map_eq_some_iff] at he
    obtain ⟨x, hx, he⟩ := he
    simp only [Function.comp, Prod.mk.injEq, Option.some.injEq] at he
    rw [← he.2]
    exact List.mem_of_find?_eq_some hx

theorem findKids_length {c : Cfg} {live : List Nat} {l : List (Nat × Option Nat)} : (findKids c live l).length ≤ l.length := by
  unfold findKids; exact List.length_filterMap_le _ _

theorem restoreSingle_spec {c : Cfg} {live : List Nat} {d : LSnap} {l : Launcher} (h : restoreSingle c live d = some l) (h1 : d.pids.length ≤ 1) (hs : d.state ≠ .after) :
    l.multi = false ∧ l.watched = true ∧ l.procs.length ≤ 1 ∧ l.state ≠ .after ∧ ∀ i p, (i, some p) ∈ l.procs → p ∈ live := by
  unfold restoreSingle at h
  split at h
  · cases h
    exact ⟨rfl, rfl, Nat.le_trans findKids_length h1, hs, fun i p hm => findKids_seen hm⟩
  · cases h

theorem restoreSet_spec {c : Cfg} {live : List Nat} {d : LSnap} {l : Launcher} (h : restoreSet c live d = some l) (h1 : c.multi = false → d.pids.length ≤ 1) (hs : d.state ≠ .after) :
    l.multi = c.multi ∧ l.watched = true ∧ (l.multi = false → l.procs.length ≤ 1) ∧ l.state ≠ .after ∧ ∀ i p, (i, some p) ∈ l.procs → p ∈ live := by
  unfold restoreSet at h
  split at h
  · rename_i hm
    unfold restoreMulti at h
    split at h
    · cases h
    · cases h
      exact ⟨by simp [hm], rfl, by simp, hs, fun i p hm => findKids_seen hm⟩
  · rename_i hm
    have hm' : c.multi = false := by simpa using hm
    obtain ⟨a, b, d, e, f⟩ := restoreSingle_spec h (h1 hm') hs
    exact ⟨by rw [a, hm'], b, fun _ => d, e, f⟩

/-- what one new launcher does to the invariants -/
theorem Wf.add {s : St} (h : Wf s) {l : Launcher} (h1 : ∀ i p, (i, some p) ∈ l.procs → p ∈ s.seen) (h2 : l.watched = true) (h3 : l.state ≠ .after) (h4 : l.multi = false → l.procs.length ≤ 1) :
    Wf { s with objs := Cluster.setObj s.objs s.next l, next := s.next + 1 } :=
  h.alloc.setObj (a := s.next) (l := l) h1 (fun hp => absurd (h.ltPend _ hp) (by omega)) (fun _ => h2) (fun hc => absurd (h2.symm.trans hc) (by simp)) (fun hc => absurd hc h3) h4 (Nat.lt_succ_self _)

theorem restoreSets_spec (c : Cfg) (live : List Nat) : ∀ (l : List (String × LSnap)) (s : St),
    (l.map (·.1)).Nodup → (∀ e ∈ l, e.1 ∉ s.engines.map (·.1)) → (∀ e ∈ l, e.2.state ≠ .after) → (c.multi = false → ∀ e ∈ l, e.2.pids.length ≤ 1) →
    Wf s → (∀ p ∈ live, p ∈ s.seen) → (∀ e ∈ s.engines, (s.objs e.2).multi = c.multi) →
    let r := restoreSets c live l s
    Wf r ∧ r.ctl = s.ctl ∧ r.file = s.file ∧ r.live = s.live ∧ r.seen = s.seen ∧ r.mine = s.mine ∧ r.pending = s.pending ∧ r.stopping = s.stopping ∧ r.ctlStopping = s.ctlStopping ∧
    (∀ a, a < s.next → r.objs a = s.objs a) ∧ (∀ e ∈ r.engines, (r.objs e.2).multi = c.multi) ∧
    r.engines.map (fun e => (e.1, r.objs e.2)) = s.engines.map (fun e => (e.1, s.objs e.2)) ++ found c live l
  | [], s, _, _, _, _, hw, _, hk => by simp [restoreSets, found, hw]; simpa using hk
  | (id, d) :: t, s, hn, hd, hst, h1, hw, hl, hk => by
    simp only [List.map_cons, List.nodup_cons] at hn
    simp only [restoreSets]
    cases hr : restoreSet c live d with
    | none =>
      have := restoreSets_spec c live t s hn.2 (fun e he => hd e (List.mem_cons_of_mem _ he)) (fun e he => hst e (List.mem_cons_of_mem _ he))
        (fun hm e he => h1 hm e (List.mem_cons_of_mem _ he)) hw hl hk
      simpa [found, List.filterMap_cons, hr] using this
    | some x =>
      obtain ⟨hm, hwt, hlen, hnst, hp⟩ := restoreSet_spec hr (fun hm => h1 hm _ List.mem_cons_self) (hst _ List.mem_cons_self)
      have hnew : id ∉ s.engines.map (·.1) := hd _ List.mem_cons_self
      have hlt := hw.ltEng
      have hadd := hw.add (l := x) (fun i p hm => hl p (hp i p hm)) hwt hnst hlen
      have hw1 : Wf { s with objs := setObj s.objs s.next x, engines := dset id s.next s.engines, next := s.next + 1 } := by
        refine { hadd with ltEng := ?_, keys := dset_nodup hw.keys }
        intro e he
        rcases mem_dset he with he | ⟨he, _⟩
        · subst he; exact Nat.lt_succ_self _
        · exact Nat.lt_succ_of_lt (hw.ltEng e he)
      have hold : ∀ e ∈ s.engines, setObj s.objs s.next x e.2 = s.objs e.2 := by
        intro e he; simp only [setObj]; rw [if_neg]; have := hlt e he; omega
      have := restoreSets_spec c live t { s with objs := setObj s.objs s.next x, engines := dset id s.next s.engines, next := s.next + 1 } hn.2
        (by
          intro e he hc
          rcases dset_keys.1 hc with hc | hc
          · exact hn.1 (hc ▸ List.mem_map_of_mem he)
          · exact hd e (List.mem_cons_of_mem _ he) hc)
        (fun e he => hst e (List.mem_cons_of_mem _ he)) (fun hm e he => h1 hm e (List.mem_cons_of_mem _ he)) hw1 hl
        (by
          intro e he
          rcases mem_dset he with he | ⟨he, _⟩
          · subst he; simp [setObj, hm]
          · simp only [hold e he]; exact hk e he)
      obtain ⟨a1, a2, a3, a4, a5, a6, a7, a8, a9, a10, a11, a12⟩ := this
      refine ⟨a1, a2, a3, a4, a5, a6, a7, a8, a9, ?_, a11, ?_⟩
      · intro a ha
        rw [a10 a (Nat.lt_succ_of_lt ha)]
        simp only [setObj]
        rw [if_neg (by omega)]
      · rw [a12]
        simp only [dset_new hnew, List.map_append, found, List.filterMap_cons, hr, Option.map_some, List.append_assoc]
        congr 1
        · apply List.map_congr_left
          intro e he
          rw [hold e he]
        · simp [setObj]

/-- the controller's launcher that is found again -/
def foundCtl (c : Cfg) (live : List Nat) (d : Snap) : Option Launcher := d.ctl.bind (restoreSingle c live)

/-- a loaded cluster -/
theorem load_spec {c : Cfg} {d : Snap} {live seen : List Nat} (hen : c.enabled = true) (hl : ∀ p ∈ live, p ∈ seen) (hd : WfSnap c d) :
    Inv c (load c d live seen) ∧ (load c d live seen).live = live ∧ (load c d live seen).seen = seen ∧ (load c d live seen).pending = [] ∧
    (load c d live seen).stopping = [] ∧ (load c d live seen).ctlStopping = [] ∧
    (load c d live seen).ctl.map (load c d live seen).objs = foundCtl c live d ∧
    (load c d live seen).engines.map (fun e => (e.1, (load c d live seen).objs e.2)) = found c live d.sets ∧
    (load c d live seen).mine = (match (load c d live seen).ctl with | some a => procsOf ((load c d live seen).objs a) | none => []) ++
      (load c d live seen).engines.flatMap (fun e => procsOf ((load c d live seen).objs e.2)) := by
  -- the controller
  let s0 : St := { file := some d, live := live, seen := seen }
  let s1 : St := match d.ctl with
    | none => s0
    | some l => match restoreSingle c live l with
      | some a => { s0 with objs := setObj s0.objs s0.next a, ctl := some s0.next, next := s0.next + 1 }
      | none => s0
  have hw0 : Wf s0 := ⟨by simp [s0], by simp [s0], by simp [s0], hl, by simp [s0], by simp [s0], by simp [s0], by simp [s0], by simp [s0], by simp [s0], by simp [s0], by simp [s0]⟩
  have h1 : Wf s1 ∧ s1.ctl.map s1.objs = foundCtl c live d ∧ (∀ a, s1.ctl = some a → a < s1.next ∧ (s1.objs a).multi = false) ∧ s1.engines = [] ∧ s1.file = some d ∧ s1.live = live ∧ s1.seen = seen ∧
      s1.pending = [] ∧ s1.stopping = [] ∧ s1.ctlStopping = [] := by
    cases hc : d.ctl with
    | none =>
      have : s1 = s0 := by simp only [s1, hc]
      rw [this]
      refine ⟨hw0, ?_, ?_, rfl, rfl, rfl, rfl, rfl, rfl, rfl⟩
      · simp [s0, foundCtl, hc]
      · simp [s0]
    | some l =>
      cases hr : restoreSingle c live l with
      | none =>
        have : s1 = s0 := by simp only [s1, hc, hr]
        rw [this]
        refine ⟨hw0, ?_, ?_, rfl, rfl, rfl, rfl, rfl, rfl, rfl⟩
        · simp [s0, foundCtl, hc, hr]
        · simp [s0]
      | some x =>
        have : s1 = { s0 with objs := setObj s0.objs s0.next x, ctl := some s0.next, next := s0.next + 1 } := by simp only [s1, hc, hr]
        rw [this]
        obtain ⟨m1, m2, m3, m4, m5⟩ := restoreSingle_spec hr (hd.ctlOne l hc) (hd.ctlState l hc)
        have hadd := hw0.add (l := x) (fun i p hm => hl p (m5 i p hm)) m2 m4 (fun _ => m3)
        refine ⟨{ hadd with ltCtl := fun a ha => by cases ha; exact Nat.lt_succ_self _ }, ?_, ?_, rfl, rfl, rfl, rfl, rfl, rfl, rfl⟩
        · simp [foundCtl, hc, hr, setObj]
        · intro a ha; cases ha; exact ⟨Nat.lt_succ_self _, by simp [setObj, m1]⟩
  obtain ⟨w1, w2, w3, w4, w5, w6, w7, w8, w9, w10⟩ := h1
  have h2 := restoreSets_spec c live d.sets s1 hd.keys (by simp [w4]) hd.state hd.one w1 (by rw [w7]; exact hl) (by simp [w4])
  let s2 := restoreSets c live d.sets s1
  obtain ⟨a1, a2, a3, a4, a5, a6, a7, a8, a9, a10, a11, a12⟩ := h2
  let s3 : St := { s2 with mine := (match s2.ctl with | some a => procsOf (s2.objs a) | none => []) ++ s2.engines.flatMap (fun e => procsOf (s2.objs e.2)) }
  have hload : load c d live seen = if toDict c s3 ≠ d then update c s3 else s3 := rfl
  have w3' : Wf s3 := { a1 with }
  have hctl : ∀ a, s3.ctl = some a → (s3.objs a).multi = false := by
    intro a ha
    have ha' : s1.ctl = some a := by rw [← a2]; exact ha
    have := w3 a ha'
    show (s2.objs a).multi = false
    rw [a10 a this.1]; exact this.2
  have hpend : s3.pending = [] := a7.trans w8
  have hcb : ∀ a, s3.ctl = some a → (s3.objs a).state = .before → (s3.objs a).procs = [] := by
    intro a ha
    have ha' : s1.ctl = some a := by rw [← a2]; exact ha
    show (s2.objs a).state = .before → (s2.objs a).procs = []
    rw [a10 a (w3 a ha').1]
    intro hb
    rw [ha', Option.map_some] at w2
    unfold foundCtl at w2
    obtain ⟨l, hl1, hl2⟩ := Option.bind_eq_some_iff.1 w2.symm
    unfold restoreSingle at hl2
    split at hl2
    · simp only [Option.some.injEq] at hl2
      rw [← hl2] at hb ⊢
      simp [hd.ctlBefore l hl1 hb, findKids]
    · cases hl2
  have hupd : (update c s3).objs = s3.objs ∧ (update c s3).engines = s3.engines ∧ (update c s3).ctl = s3.ctl ∧ (update c s3).live = s3.live ∧ (update c s3).seen = s3.seen ∧
      (update c s3).mine = s3.mine ∧ (update c s3).pending = s3.pending ∧ (update c s3).stopping = s3.stopping ∧ (update c s3).ctlStopping = s3.ctlStopping := by
    unfold update; split <;> simp
  have hsame : (load c d live seen).objs = s3.objs ∧ (load c d live seen).engines = s3.engines ∧ (load c d live seen).ctl = s3.ctl ∧ (load c d live seen).live = s3.live ∧ (load c d live seen).seen = s3.seen ∧
      (load c d live seen).mine = s3.mine ∧ (load c d live seen).pending = s3.pending ∧ (load c d live seen).stopping = s3.stopping ∧ (load c d live seen).ctlStopping = s3.ctlStopping := by
    rw [hload]
    split
    · exact hupd
    · simp
  have hinv : Inv c (load c d live seen) := by
    rw [hload]
    split
    · exact Inv.ofUpdate hen w3' hctl a11 (by simp [hpend]) hcb (by simp [hpend])
    · rename_i heq
      have heq' : toDict c s3 = d := by simpa using heq
      have hfile : s3.file = some d := a3.trans w5
      have hrun : isRunning s3 = true := by
        rw [isRunning_iff]
        rcases hd.nonempty with hn | hn
        · left
          rw [← heq'] at hn
          simp only [toDict] at hn
          split at hn
          · rename_i a ha
            split at hn
            · exact absurd rfl hn
            · rename_i hx; exact ⟨a, ha, hx⟩
          · exact absurd rfl hn
        · right
          rw [← heq'] at hn
          simp only [toDict] at hn
          cases hx : s3.engines.filter (fun e => (s3.objs e.2).state ≠ .after) with
          | nil => rw [hx] at hn; exact absurd rfl hn
          | cons y t =>
            have : y ∈ s3.engines.filter (fun e => (s3.objs e.2).state ≠ .after) := by rw [hx]; exact List.mem_cons_self
            exact ⟨y, (List.mem_filter.1 this).1, by simpa using (List.mem_filter.1 this).2⟩
      have hu : update c s3 = s3 := by
        unfold update
        rw [if_pos hen, hrun, heq', if_pos rfl, ← hfile]
      rw [← hu]
      exact Inv.ofUpdate hen w3' hctl a11 (by simp [hpend]) hcb (by simp [hpend])
  obtain ⟨e1, e2, e3, e4, e5, e6, e7, e8, e9⟩ := hsame
  refine ⟨hinv, ?_, ?_, ?_, ?_, ?_, ?_, ?_, ?_⟩
  · rw [e4]; exact a4.trans w6
  · rw [e5]; exact a5.trans w7
  · rw [e7]; exact hpend
  · rw [e8]; exact a8.trans w9
  · rw [e9]; exact a9.trans w10
  · rw [e3, e1, ← w2]
    show s2.ctl.map s2.objs = _
    rw [show s2.ctl = s1.ctl from a2]
    cases hx : s1.ctl with
    | none => rfl
    | some a => simp only [Option.map_some]; rw [show s2.objs a = s1.objs a from a10 a (w3 a hx).1]
  · rw [e2, e1]
    show s2.engines.map (fun e => (e.1, s2.objs e.2)) = _
    rw [show s2.engines.map (fun e => (e.1, s2.objs e.2)) = _ from a12, w4]
    simp
  · rw [e6, e3, e2, e1]

theorem Start.inv {c : Cfg} {s : St} (hen : c.enabled = true) (h : Start c s) : Inv c s := by
  cases h with
  | new live seen hl =>
    refine ⟨⟨by simp, by simp, by simp, hl, by simp, by simp, by simp, by simp, by simp, by simp, by simp, by simp⟩, by simp, by simp, by simp, by simp, by simp, ⟨fun _ => [], ?_⟩, by simp, by simp⟩
    constructor <;> simp [fileSets, fileCtl, runEng, runCtl]
  | loaded d live seen hl hd => exact (load_spec hen hl hd).1

theorem Inv.run {c : Cfg} (hen : c.enabled = true) : ∀ (h : List Ev) {s : St}, Inv c s → Along IdUnused c s h → Inv c (run c s h)
  | [], _, hi, _ => hi
  | e :: t, _, hi, ha => Inv.run hen t (hi.step hen e ha.1) ha.2

end IPP.Cluster
