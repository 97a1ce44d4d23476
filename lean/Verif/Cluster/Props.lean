import Verif.Cluster.Lemmas
/-!
# What a user may rely on about clusters (properties C62, C63)
-/
namespace IPP.Cluster

/-! ## Specification -/

/-- the living processes of a launcher -/
def liveKids (live : List Nat) (l : List (Nat × Option Nat)) : List (Nat × Nat) :=
  l.filterMap (fun e => match e.2 with
    | some p => if p ∈ live then some (e.1, p) else none
    | none => none)

/-- the living processes of the components that a cluster object says are running: the controller's (`none`) and each engine set's -/
def tracked (s : St) : List (Option String × Nat × Nat) :=
  (match s.ctl with
    | some a => if (s.objs a).state = .running then (liveKids s.live (s.objs a).procs).map (fun e => (none, e)) else []
    | none => []) ++
  s.engines.flatMap (fun e => if (s.objs e.2).state = .running then (liveKids s.live (s.objs e.2).procs).map (fun k => (some e.1, k)) else [])

/-- some component is in the given state -/
def hasComponent (s : St) (x : LState) : Prop := (∃ a, s.ctl = some a ∧ (s.objs a).state = x) ∨ ∃ e ∈ s.engines, (s.objs e.2).state = x

/-- the engine sets a cluster file lists -/
def fileSets (f : Option Snap) : List (String × LSnap) := match f with
  | some d => d.sets
  | none => []

/-- every step of a history meets a condition -/
def Along (P : St → Ev → Prop) (c : Cfg) : St → List Ev → Prop
  | _, [] => True
  | s, e :: h => P s e ∧ Along P c (step c s e) h

/-- `engine_set_id=` is not given, or is not the id of a set that is running -/
def IdUnused (s : St) : Ev → Prop
  | .createSet (some id) _ => ∀ a, (id, a) ∈ s.engines → (s.objs a).state ≠ .running
  | _ => True

/-- what a cluster file looks like (this is how `to_dict` writes them) -/
structure WfSnap (c : Cfg) (d : Snap) : Prop where
  keys : (d.sets.map (·.1)).Nodup
  ctlState : ∀ l, d.ctl = some l → l.state ≠ .after
  state : ∀ e ∈ d.sets, e.2.state ≠ .after
  ctlOne : ∀ l, d.ctl = some l → l.pids.length ≤ 1
  one : c.multi = false → ∀ e ∈ d.sets, e.2.pids.length ≤ 1
  ctlBefore : ∀ l, d.ctl = some l → l.state = .before → l.pids = []
  nonempty : d.ctl ≠ none ∨ d.sets ≠ []

/-- a new `Cluster`, or one loaded from a file, on a machine with processes -/
inductive Start (c : Cfg) : St → Prop where
  | new (live seen : List Nat) (h : ∀ p ∈ live, p ∈ seen) : Start c { live := live, seen := seen }
  | loaded (d : Snap) (live seen : List Nat) (h : ∀ p ∈ live, p ∈ seen) (hd : WfSnap c d) : Start c (load c d live seen)

/-! ## The file -/

def runEng (s : St) : List (String × Nat) := s.engines.filter (fun e => (s.objs e.2).state = .running)
def runCtl (s : St) : Option Nat := s.ctl.filter (fun a => (s.objs a).state = .running)
def fileCtl (f : Option Snap) : Option LSnap := f.bind (·.ctl)

def asSnap (c : Cfg) (s : St) (full : Nat → List (Nat × Option Nat)) (a : Nat) : LSnap :=
  { state := .running, n := (s.objs a).n, pids := (full a).map (fun e => (e.1, e.2.map c.pid)) }

/-- the file lists the running components, with all processes they had at the last update -/
structure FileInv (c : Cfg) (s : St) (full : Nat → List (Nat × Option Nat)) : Prop where
  sets : (fileSets s.file).filter (fun e => e.2.state = .running) = (runEng s).map (fun e => (e.1, asSnap c s full e.2))
  ctl : (fileCtl s.file).filter (fun l => l.state = .running) = (runCtl s).map (asSnap c s full)
  kids : ∀ a, (s.objs a).state = .running → liveKids s.live (full a) = liveKids s.live (s.objs a).procs
  seen : ∀ a, (s.objs a).state = .running → ∀ i p, (i, some p) ∈ full a → p ∈ s.seen

theorem lsnap_running {c : Cfg} {s : St} {a : Nat} (h : (s.objs a).state = .running) : lsnap c.pid (s.objs a) = asSnap c s (fun a => (s.objs a).procs) a := by
  simp [lsnap, asSnap, h]

theorem isRunning_false {s : St} (h : isRunning s = false) : runEng s = [] ∧ runCtl s = none := by
  unfold isRunning at h
  simp only [Bool.or_eq_false_iff] at h
  constructor
  · unfold runEng
    rw [List.filter_eq_nil_iff]
    intro e he hc
    have := List.any_eq_false.1 h.2 e he
    simp only [decide_eq_true_eq] at hc
    simp [hc] at this
  · unfold runCtl
    cases hc : s.ctl with
    | none => rfl
    | some a =>
      rw [hc] at h
      have := h.1
      simp only [decide_eq_false_iff_not, Decidable.not_not] at this
      simp [Option.filter, this]

theorem FileInv.ofUpdate {c : Cfg} {s : St} (hen : c.enabled = true) (hw : Wf s) : FileInv c (update c s) (fun a => (s.objs a).procs) := by
  have hobj : (update c s).objs = s.objs := by unfold update; rw [if_pos hen]
  have heng : (update c s).engines = s.engines := by unfold update; rw [if_pos hen]
  have hctl : (update c s).ctl = s.ctl := by unfold update; rw [if_pos hen]
  have hseen : (update c s).seen = s.seen := by unfold update; rw [if_pos hen]
  have hre : runEng (update c s) = runEng s := by simp [runEng, hobj, heng]
  have hrc : runCtl (update c s) = runCtl s := by simp [runCtl, hobj, hctl]
  have has : asSnap c (update c s) = asSnap c s := by funext f a; simp [asSnap, hobj]
  refine ⟨?_, ?_, ?_, ?_⟩
  · rw [hre, has]
    unfold update; rw [if_pos hen]
    cases hr : isRunning s with
    | false => simp [fileSets, (isRunning_false hr).1]
    | true =>
      simp only [if_true, fileSets, toDict, List.filter_map, List.filter_filter]
      have : s.engines.filter (fun e => decide ((s.objs e.2).state ≠ .after) && ((fun e : String × LSnap => decide (e.2.state = .running)) ∘ fun e => (e.1, lsnap c.pid (s.objs e.2))) e) = runEng s := by
        unfold runEng
        apply List.filter_congr
        intro e _
        simp only [Function.comp, lsnap]
        by_cases hx : (s.objs e.2).state = .running
        · simp [hx]
        · simp [hx]
      have h2 : s.engines.filter (fun e => ((fun e : String × LSnap => decide (e.2.state = .running)) ∘ fun e => (e.1, lsnap c.pid (s.objs e.2))) e && decide ((s.objs e.2).state ≠ .after)) = runEng s := by
        rw [← this]; congr 1; funext e; exact Bool.and_comm _ _
      first
        | rw [this]
        | rw [h2]
      apply List.map_congr_left
      intro e he
      rw [lsnap_running]
      simpa [runEng] using (List.mem_filter.1 he).2
  · rw [hrc, has]
    unfold update; rw [if_pos hen]
    cases hr : isRunning s with
    | false => simp [fileCtl, (isRunning_false hr).2]
    | true =>
      simp only [if_true, fileCtl, Option.bind_some, toDict, runCtl]
      cases hc : s.ctl with
      | none => simp
      | some a =>
        simp only
        cases hst : (s.objs a).state <;> simp [lsnap, Option.filter, hst, asSnap]
  · intro a _
    rw [hobj]
  · intro a _ i p hm
    rw [hseen]
    exact hw.procSeen a i p hm

theorem liveKids_shrink {live live' : List Nat} {l : List (Nat × Option Nat)} (h : ∀ i p, (i, some p) ∈ l → p ∈ live' → p ∈ live) :
    liveKids live' l = (liveKids live l).filter (fun e => e.2 ∈ live') := by
  induction l with
  | nil => rfl
  | cons x t ih =>
    have ih' := ih (fun i p hm => h i p (List.mem_cons_of_mem _ hm))
    unfold liveKids at ih' ⊢
    rw [List.filterMap_cons, List.filterMap_cons]
    match x, h with
    | (i, none), _ => exact ih'
    | (i, some p), h =>
      have h0 := h i p List.mem_cons_self
      simp only
      by_cases hl : p ∈ live
      · by_cases hl' : p ∈ live'
        · simp [hl, hl', ih']
        · simp [hl, hl', ih']
      · have hl' : p ∉ live' := fun hc => hl (h0 hc)
        simp [hl, hl', ih']

theorem liveKids_drop {live : List Nat} {l : List (Nat × Option Nat)} {i p : Nat} (h : p ∉ live) :
    liveKids live (l.filter (fun c => c ≠ (i, some p))) = liveKids live l := by
  induction l with
  | nil => rfl
  | cons x t ih =>
    rw [List.filter_cons]
    unfold liveKids at ih ⊢
    by_cases hx : x = (i, some p)
    · subst hx
      simp [h]
      simpa using ih
    · simp only [hx, ne_eq, not_false_eq_true, decide_true, if_true, List.filterMap_cons]
      rw [ih]

theorem runEng_congr {s s' : St} (hr : ∀ a, (s'.objs a).state = .running ↔ (s.objs a).state = .running) (he : s'.engines = s.engines) : runEng s' = runEng s := by
  unfold runEng
  rw [he]
  apply List.filter_congr
  intro e _
  simp only [hr]

theorem runCtl_congr {s s' : St} (hr : ∀ a, (s'.objs a).state = .running ↔ (s.objs a).state = .running) (he : s'.ctl = s.ctl) : runCtl s' = runCtl s := by
  unfold runCtl
  rw [he]
  simp only [hr]

/-- steps that do not write the file -/
theorem FileInv.frame {c : Cfg} {s s' : St} {full : Nat → List (Nat × Option Nat)} (h : FileInv c s full) (hw : Wf s)
    (hf : s'.file = s.file) (he : runEng s' = runEng s) (hc : runCtl s' = runCtl s)
    (hr : ∀ a, (s'.objs a).state = .running ↔ (s.objs a).state = .running)
    (hp : ∀ a, (s.objs a).state = .running → (s'.objs a).n = (s.objs a).n ∧
      ((s'.objs a).procs = (s.objs a).procs ∨ ∃ i p, p ∉ s.live ∧ (s'.objs a).procs = (s.objs a).procs.filter (fun c => c ≠ (i, some p))))
    (hl : ∀ p ∈ s.seen, p ∈ s'.live → p ∈ s.live) (hs : ∀ p ∈ s.seen, p ∈ s'.seen) : FileInv c s' full := by
  have hsnap : ∀ a, (s.objs a).state = .running → asSnap c s' full a = asSnap c s full a := by
    intro a ha; simp only [asSnap, (hp a ha).1]
  refine ⟨?_, ?_, ?_, ?_⟩
  · rw [hf, he, h.sets]
    apply List.map_congr_left
    intro e hm
    rw [hsnap]
    simpa [runEng] using (List.mem_filter.1 hm).2
  · rw [hf, hc, h.ctl]
    cases hx : runCtl s with
    | none => rfl
    | some a =>
      simp only [Option.map_some]
      rw [hsnap]
      unfold runCtl at hx
      rw [Option.filter_eq_some_iff] at hx
      simpa using hx.2
  · intro a ha
    have hra := (hr a).1 ha
    obtain ⟨_, hp⟩ := hp a hra
    have hk := h.kids a hra
    have h1 : liveKids s'.live (full a) = (liveKids s.live (full a)).filter (fun e => e.2 ∈ s'.live) :=
      liveKids_shrink (fun i p hm hl' => hl p (h.seen a hra i p hm) hl')
    have h2 : liveKids s'.live (s.objs a).procs = (liveKids s.live (s.objs a).procs).filter (fun e => e.2 ∈ s'.live) :=
      liveKids_shrink (fun i p hm hl' => hl p (hw.procSeen a i p hm) hl')
    rcases hp with hp | ⟨i, p, hpl, hp⟩
    · rw [h1, hk, hp, h2]
    · have h3 : liveKids s'.live ((s.objs a).procs.filter (fun c => c ≠ (i, some p))) = (liveKids s.live ((s.objs a).procs.filter (fun c => c ≠ (i, some p)))).filter (fun e => e.2 ∈ s'.live) :=
        liveKids_shrink (fun j q hm hl' => hl q (hw.procSeen a j q (List.mem_filter.1 hm).1) hl')
      rw [h1, hk, hp, h3, liveKids_drop hpl]
  · intro a ha i p hm
    exact hs p (h.seen a ((hr a).1 ha) i p hm)

theorem filter_dset {P : String × Nat → Bool} {k : String} {v : Nat} (hv : P (k, v) = false) : ∀ {d : List (String × Nat)}, (∀ e ∈ d, e.1 = k → P e = false) →
    (dset k v d).filter P = d.filter P
  | [], _ => by simp [dset, hv]
  | x :: t, h => by
    simp only [dset]
    split
    · rename_i hx
      have := h x List.mem_cons_self hx
      simp [hv, this]
    · rw [List.filter_cons, List.filter_cons, filter_dset hv (fun e he => h e (List.mem_cons_of_mem _ he))]

theorem setObj_running {s : St} {a : Nat} {l : Launcher} (h1 : (s.objs a).state ≠ .running) (h2 : l.state ≠ .running) (b : Nat) :
    (setObj s.objs a l b).state = .running ↔ (s.objs b).state = .running := by
  simp only [setObj]
  split
  · rename_i he; subst he; simp [h1, h2]
  · rfl

theorem setObj_same {s : St} {a : Nat} {l : Launcher} (h1 : (s.objs a).state ≠ .running) (b : Nat) (hb : (s.objs b).state = .running) : setObj s.objs a l b = s.objs b := by
  simp only [setObj]
  split
  · rename_i he; subst he; exact absurd hb h1
  · rfl

/-- the id `start_engines` uses -/
def idOf (s : St) (id : Option String) (t : Nat) : String := match id with
  | some i => i
  | none => newSetId t (s.engines.map (·.1))

theorem IdUnused.spec {s : St} {id : Option String} {t : Nat} (h : IdUnused s (.createSet id t)) : ∀ e ∈ s.engines, e.1 = idOf s id t → (s.objs e.2).state ≠ .running := by
  intro e he hk
  cases id with
  | none =>
    exfalso
    exact newSetId_fresh t (s.engines.map (·.1)) (by rw [← show e.1 = newSetId t (s.engines.map (·.1)) from hk]; exact List.mem_map_of_mem he)
  | some i =>
    have hk' : e.1 = i := hk
    exact h e.2 (by rw [← hk']; exact he)

theorem not_watched_not_after {s : St} (hw : Wf s) {a i p : Nat} (hmem : (i, some p) ∈ (s.objs a).procs) (hu : (s.objs a).watched = false) :
    (noticed i p (s.objs a)).state = (s.objs a).state := by
  rcases hw.unwatched a hu with h | ⟨hm, k, hk⟩
  · rw [h] at hmem; exact absurd hmem (by simp)
  · unfold noticed
    rw [if_pos hm]
    simp only
    rw [if_neg]
    intro hn
    have : (k, none) ∈ (s.objs a).procs.filter (fun c => c ≠ (i, some p)) := List.mem_filter.2 ⟨hk, by simp⟩
    rw [hn] at this
    exact absurd this (by simp)

theorem Wf.ofUpdate {c : Cfg} {s : St} (h : Wf (Cluster.update c s)) : Wf s := by
  unfold Cluster.update at h
  split at h
  · exact { h with }
  · exact h

theorem FileInv.step {c : Cfg} {s : St} {full : Nat → List (Nat × Option Nat)} (hen : c.enabled = true) (h : FileInv c s full) (hw : Wf s)
    (e : Ev) (hid : IdUnused s e) : ∃ full', FileInv c (step c s e) full' := by
  have hfr : (s.objs s.next).state ≠ .running := by rw [(hw.fresh s.next (Nat.le_refl _)).1]; decide
  have same : ∀ (x : St), x.objs = s.objs → x.engines = s.engines → x.ctl = s.ctl → x.file = s.file → (∀ p ∈ s.seen, p ∈ x.live → p ∈ s.live) → (∀ p ∈ s.seen, p ∈ x.seen) →
      ∃ full', FileInv c x full' := by
    intro x h1 h2 h3 h4 h5 h6
    refine ⟨full, h.frame hw h4 (runEng_congr (by simp [h1]) h2) (runCtl_congr (by simp [h1]) h3) (by simp [h1]) (fun a _ => by simp [h1]) h5 h6⟩
  have upd : ∀ (x : St), Wf (update c x) → ∃ full', FileInv c (update c x) full' := fun x hx => ⟨_, FileInv.ofUpdate hen hx.ofUpdate⟩
  have hw' := hw.step (c := c) e
  cases e with
  | startCtl r =>
    simp only [Cluster.step] at hw' ⊢
    split
    · exact ⟨full, h⟩
    · rename_i hn
      rw [if_neg hn] at hw'
      have hnone : s.ctl = none := by cases hc : s.ctl with | none => rfl | some a => simp [hc] at hn
      cases r with
      | none =>
        refine ⟨full, h.frame hw rfl (runEng_congr (setObj_running hfr (by simp)) rfl) ?_ (setObj_running hfr (by simp)) ?_ (fun _ _ h => h) (fun _ h => h)⟩
        · simp [runCtl, hnone, Option.filter, setObj]
        · intro a ha
          simp only [setObj_same hfr a ha]
          exact ⟨trivial, .inl trivial⟩
      | some p =>
        simp only
        split
        · rename_i hs
          simp only [hs, if_true] at hw'
          exact upd _ hw'
        · exact ⟨full, h⟩
  | createSet id t =>
    simp only [Cluster.step]
    refine ⟨full, h.frame hw rfl ?_ (runCtl_congr (setObj_running hfr (by simp)) rfl) (setObj_running hfr (by simp)) ?_ (fun _ _ h => h) (fun _ h => h)⟩
    · have hP : ∀ e ∈ dset (idOf s id t) s.next s.engines, decide ((setObj s.objs s.next { multi := c.multi } e.2).state = .running) = decide ((s.objs e.2).state = .running) := by
        intro e _
        rw [decide_eq_decide]
        exact setObj_running hfr (by simp) e.2
      show (dset (idOf s id t) s.next s.engines).filter _ = runEng s
      rw [List.filter_congr hP]
      exact filter_dset (by simp [hfr]) (fun e he hk => by simp [hid.spec e he hk])
    · intro a ha
      simp only [setObj_same hfr a ha]
      exact ⟨trivial, .inl trivial⟩
  | abandon a => exact same _ rfl rfl rfl rfl (fun _ _ h => h) (fun _ h => h)
  | exit p => exact same _ rfl rfl rfl rfl (fun _ _ h => (List.mem_filter.1 h).1) (fun _ h => h)
  | other p =>
    simp only [Cluster.step]
    split
    · rename_i hs
      refine same _ rfl rfl rfl rfl (fun q hq hl => ?_) (fun _ h => List.mem_append_left _ h)
      rcases List.mem_append.1 hl with hl | hl
      · exact hl
      · exact absurd hq ((spawnable_spec hs).1 q hl).1
    · exact ⟨full, h⟩
  | startSet a n ps ok =>
    simp only [Cluster.step] at hw' ⊢
    split
    · rename_i hc
      rw [if_pos hc] at hw'
      cases ok with
      | true => exact upd _ hw'
      | false =>
        have hst : (s.objs a).state = .before := (hw.pend a hc.1).1
        have hnr : (s.objs a).state ≠ .running := by rw [hst]; decide
        have hnr' : (startLauncher n ps false (s.objs a)).state ≠ .running := by
          unfold startLauncher; split <;> simp [hst]
        refine ⟨full, h.frame hw rfl (runEng_congr (setObj_running hnr hnr') rfl) (runCtl_congr (setObj_running hnr hnr') rfl) (setObj_running hnr hnr') ?_ ?_ ?_⟩
        · intro b hb
          have := setObj_same (l := startLauncher n ps false (s.objs a)) hnr b hb
          simp only [spawn, Bool.false_eq_true, if_false]
          rw [this]
          exact ⟨rfl, .inl rfl⟩
        · intro q hq hl
          rcases List.mem_append.1 hl with hl | hl
          · exact hl
          · exact absurd hq ((spawnable_spec hc.2.1).1 q hl).1
        · exact fun _ h => List.mem_append_left _ h
    · exact ⟨full, h⟩
  | notice a i =>
    simp only [Cluster.step] at hw' ⊢
    split
    · rename_i j p hf
      simp only [hf] at hw'
      have hmem : (j, some p) ∈ (s.objs a).procs := List.mem_of_find?_eq_some hf
      have hji : j = i := by have := List.find?_some hf; simpa using this
      subst hji
      split
      · exact ⟨full, h⟩
      · rename_i hl
        rw [if_neg hl] at hw'
        simp only [not_or] at hl
        split
        · rename_i hc
          rw [if_pos hc] at hw'
          exact upd _ hw'
        · rename_i hc
          -- the launcher does not change its state
          have hst : (noticed j p (s.objs a)).state = (s.objs a).state := by
            by_cases hu : (s.objs a).watched = true
            · have hna : (noticed j p (s.objs a)).state ≠ .after := fun hx => hc ⟨hx, hu⟩
              unfold noticed at hna ⊢
              split at hna
              · rename_i hm
                rw [if_pos hm]
                simp only at hna ⊢
                split at hna
                · exact absurd rfl hna
                · rename_i hne; rw [if_neg hne]
              · exact absurd rfl hna
            · exact not_watched_not_after hw hmem (by simpa using hu)
          have hr : ∀ b, (setObj s.objs a (noticed j p (s.objs a)) b).state = .running ↔ (s.objs b).state = .running := by
            intro b
            simp only [setObj]
            split
            · rename_i he; rw [hst, he]
            · rfl
          refine ⟨full, h.frame hw rfl (runEng_congr hr rfl) (runCtl_congr hr rfl) hr ?_ (fun _ _ h => h) (fun _ h => h)⟩
          intro b hb
          simp only [setObj]
          split
          · rename_i he
            subst he
            have hm : (s.objs b).multi = true := by
              cases hm : (s.objs b).multi with
              | true => rfl
              | false =>
                exfalso
                rw [hb] at hst
                unfold noticed at hst
                rw [hm] at hst
                simp at hst
            unfold noticed
            rw [if_pos hm]
            exact ⟨rfl, .inr ⟨j, p, hl.1, rfl⟩⟩
          · exact ⟨rfl, .inl rfl⟩
    · exact ⟨full, h⟩
  | stopBegin id =>
    simp only [Cluster.step]
    split
    · exact same _ rfl rfl rfl rfl (fun _ _ h => h) (fun _ h => h)
    · exact ⟨full, h⟩
  | stopEnd k =>
    simp only [Cluster.step] at hw' ⊢
    split
    · rename_i id a ps hk
      simp only [hk] at hw'
      split
      · rename_i hd
        rw [if_pos hd] at hw'
        split
        · rename_i hg
          rw [if_pos hg] at hw'
          exact upd _ hw'
        · exact same _ rfl rfl rfl rfl (fun _ _ h => h) (fun _ h => h)
      · exact ⟨full, h⟩
    · exact ⟨full, h⟩
  | stopFail k => exact same _ rfl rfl rfl rfl (fun _ _ h => h) (fun _ h => h)
  | stopCtlBegin =>
    simp only [Cluster.step] at hw' ⊢
    split
    · rename_i a hk
      simp only [hk] at hw'
      split
      · exact same _ rfl rfl rfl rfl (fun _ _ h => h) (fun _ h => h)
      · rename_i hd
        rw [if_neg hd] at hw'
        exact upd _ hw'
    · rename_i hk
      simp only [hk] at hw'
      exact upd _ hw'
  | stopCtlEnd k =>
    simp only [Cluster.step] at hw' ⊢
    split
    · rename_i ps hk
      simp only [hk] at hw'
      split
      · rename_i hd
        rw [if_pos hd] at hw'
        exact upd _ hw'
      · exact ⟨full, h⟩
    · exact ⟨full, h⟩
  | stopCtlFail k => exact same _ rfl rfl rfl rfl (fun _ _ h => h) (fun _ h => h)

end IPP.Cluster
