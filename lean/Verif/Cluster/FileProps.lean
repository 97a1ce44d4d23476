import Verif.Cluster.PropsMain
/-!
# The cluster file says what runs (property C62)
-/
namespace IPP.Cluster

/-! ### when the file exists -/

/-- **The file exists whenever a component runs**, after every event of every history, of a cluster that was newly made or loaded; and when it exists, some component runs
or its start has not succeeded (yet). -/
theorem file_exists_partial {c : Cfg} (hen : c.enabled = true) {s : St} (hs : Start c s) (h : List Ev) (hid : Along IdUnused c s h) :
    (hasComponent (run c s h) .running → (run c s h).file ≠ none) ∧
    ((run c s h).file ≠ none → hasComponent (run c s h) .running ∨ hasComponent (run c s h) .before) := by
  have hi := Inv.run hen h (hs.inv hen) hid
  obtain ⟨full, hf⟩ := hi.inv
  constructor
  · intro hc hn
    have h1 : runEng (run c s h) = [] := by
      have := hf.sets; rw [hn] at this; simpa [fileSets] using this.symm
    have h2 : runCtl (run c s h) = none := by
      have := hf.ctl; rw [hn] at this; simpa [fileCtl] using this.symm
    rcases hc with ⟨a, ha, hr⟩ | ⟨e, he, hr⟩
    · simp [runCtl, ha, Option.filter, hr] at h2
    · have : e ∈ runEng (run c s h) := List.mem_filter.2 ⟨he, by simpa using hr⟩
      rw [h1] at this; exact absurd this (by simp)
  · intro hn
    have := hi.nonempty (by cases hx : (run c s h).file with | none => exact absurd hx hn | some d => rfl)
    rw [isRunning_iff] at this
    have split : ∀ x : LState, x ≠ .after → x = .running ∨ x = .before := by intro x; cases x <;> simp
    rcases this with ⟨a, ha, hr⟩ | ⟨e, he, hr⟩
    · rcases split _ hr with hr | hr
      · exact .inl (.inl ⟨a, ha, hr⟩)
      · exact .inr (.inl ⟨a, ha, hr⟩)
    · rcases split _ hr with hr | hr
      · exact .inl (.inr ⟨e, he, hr⟩)
      · exact .inr (.inr ⟨e, he, hr⟩)

/-- If every start that was begun has succeeded, the file exists exactly if a component runs. -/
theorem file_iff_running_partial {c : Cfg} (hen : c.enabled = true) {s : St} (hs : Start c s) (h : List Ev) (hid : Along IdUnused c s h)
    (hb : ¬ hasComponent (run c s h) .before) : (run c s h).file ≠ none ↔ hasComponent (run c s h) .running := by
  have := file_exists_partial hen hs h hid
  exact ⟨fun hn => (this.2 hn).resolve_right hb, this.1⟩

/-- **What the file lists**: the engine sets it says are running are exactly those that run, in the same order and with the same numbers of engines, and so is the controller. -/
theorem file_lists_running_partial {c : Cfg} (hen : c.enabled = true) {s : St} (hs : Start c s) (h : List Ev) (hid : Along IdUnused c s h) :
    let r := run c s h
    (((fileSets r.file).filter (fun e => e.2.state = .running)).map (fun e => (e.1, e.2.n)) =
      (r.engines.filter (fun e => (r.objs e.2).state = .running)).map (fun e => (e.1, (r.objs e.2).n))) ∧
    ((∃ d l, r.file = some d ∧ d.ctl = some l ∧ l.state = .running) ↔ ∃ a, r.ctl = some a ∧ (r.objs a).state = .running) := by
  have hi := Inv.run hen h (hs.inv hen) hid
  obtain ⟨full, hf⟩ := hi.inv
  refine ⟨?_, ?_⟩
  · have := congrArg (List.map (fun e : String × LSnap => (e.1, e.2.n))) hf.sets
    simp only [List.map_map] at this
    exact this
  · have h2 := hf.ctl
    constructor
    · rintro ⟨d, l, hd, hl, hr⟩
      rw [hd] at h2
      simp only [fileCtl, Option.bind_some, hl, Option.filter, hr, decide_true, if_true] at h2
      cases hx : runCtl (run c s h) with
      | none => rw [hx] at h2; cases h2
      | some a =>
        unfold runCtl at hx
        rw [Option.filter_eq_some_iff] at hx
        exact ⟨a, hx.1, by simpa using hx.2⟩
    · rintro ⟨a, ha, hr⟩
      have hx : runCtl (run c s h) = some a := by simp [runCtl, ha, Option.filter, hr]
      rw [hx] at h2
      simp only [Option.map_some, Option.filter_eq_some_iff] at h2
      obtain ⟨h3, h4⟩ := h2
      unfold fileCtl at h3
      obtain ⟨d, hd, hl⟩ := Option.bind_eq_some_iff.1 h3
      exact ⟨d, _, hd, hl, rfl⟩

/-! ### loading it -/

/-- no process id has been used twice -/
def NoReuse (c : Cfg) (s : St) : Prop := ∀ p q, p ∈ s.seen → q ∈ s.seen → c.pid p = c.pid q → p = q

/-- `Cluster.from_file()` by another program on the same machine; without the file there is nothing to load -/
def fromFile (c : Cfg) (s : St) : St := match s.file with
  | some d => load c d s.live s.seen
  | none => { live := s.live, seen := s.seen }

theorem liveKids_findKids {c : Cfg} {live seen : List Nat} (hl : ∀ p ∈ live, p ∈ seen) (hinj : ∀ p q, p ∈ seen → q ∈ seen → c.pid p = c.pid q → p = q) :
    ∀ (full : List (Nat × Option Nat)), (∀ i p, (i, some p) ∈ full → p ∈ seen) →
    liveKids live (findKids c live (full.map (fun e => (e.1, e.2.map c.pid)))) = liveKids live full
  | [], _ => rfl
  | (i, none) :: t, h => by
    have ih := liveKids_findKids hl hinj t (fun i p hm => h i p (List.mem_cons_of_mem _ hm))
    simp only [liveKids, findKids, List.map_cons, List.filterMap_cons, Option.map_none, findProc, Option.map_some] at ih ⊢
    exact ih
  | (i, some p) :: t, h => by
    have ih := liveKids_findKids hl hinj t (fun i p hm => h i p (List.mem_cons_of_mem _ hm))
    have hp := h i p List.mem_cons_self
    have hfind : live.find? (fun q => decide (c.pid q = c.pid p)) = if p ∈ live then some p else none := by
      split
      · rename_i hm
        cases hx : live.find? (fun q => decide (c.pid q = c.pid p)) with
        | none =>
          rw [List.find?_eq_none] at hx
          exact absurd (hx p hm) (by simp)
        | some q =>
          have h1 := List.mem_of_find?_eq_some hx
          have h2 : c.pid q = c.pid p := by simpa using List.find?_some hx
          rw [hinj q p (hl q h1) hp h2]
      · rename_i hm
        rw [List.find?_eq_none]
        intro q hq hc
        exact hm ((hinj q p (hl q hq) hp (by simpa using hc)) ▸ hq)
    simp only [liveKids, findKids, List.map_cons, List.filterMap_cons, Option.map_some, findProc] at ih ⊢
    rw [hfind]
    by_cases hm : p ∈ live
    · simp only [hm, if_true, Option.map_some, List.filterMap_cons]
      rw [ih]
    · simp only [hm, if_false, Option.map_none]
      exact ih

/-- what a restored set contributes -/
theorem restored_kids {c : Cfg} {live seen : List Nat} (hl : ∀ p ∈ live, p ∈ seen) (hinj : ∀ p q, p ∈ seen → q ∈ seen → c.pid p = c.pid q → p = q)
    (full : List (Nat × Option Nat)) (hfull : ∀ i p, (i, some p) ∈ full → p ∈ seen) (n : Nat) (multi : Bool) (h1 : multi = false → full.length ≤ 1) :
    (match (if multi then restoreMulti c live ⟨.running, n, full.map (fun e => (e.1, e.2.map c.pid))⟩ else restoreSingle c live ⟨.running, n, full.map (fun e => (e.1, e.2.map c.pid))⟩) with
      | some l => if l.state = .running then liveKids live l.procs else []
      | none => []) = liveKids live full := by
  have hk := liveKids_findKids hl hinj full hfull
  cases multi with
  | true =>
    simp only [if_true, restoreMulti]
    split
    · rename_i l hx
      split at hx
      · cases hx
      · cases hx; simp [hk]
    · rename_i hx
      split at hx
      · rename_i he; rw [← hk, he]; rfl
      · cases hx
  | false =>
    simp only [Bool.false_eq_true, if_false, restoreSingle, List.length_map]
    split
    · rename_i l hx
      split at hx
      · cases hx; simp [hk]
      · cases hx
    · rename_i hx
      split at hx
      · cases hx
      · rename_i he
        have : findKids c live (full.map (fun e => (e.1, e.2.map c.pid))) = [] := by
          have hle := findKids_length (c := c) (live := live) (l := full.map (fun e => (e.1, e.2.map c.pid)))
          have := h1 rfl
          rw [List.length_map] at hle
          cases hf : findKids c live (full.map (fun e => (e.1, e.2.map c.pid))) with
          | nil => rfl
          | cons x t => rw [hf] at he hle; simp at he hle; omega
        rw [← hk, this]; rfl

def ctlPart (live : List Nat) : Option Launcher → List (Option String × Nat × Nat)
  | some l => if l.state = .running then (liveKids live l.procs).map (fun e => (none, e)) else []
  | none => []

def setPart (live : List Nat) (e : String × Launcher) : List (Option String × Nat × Nat) :=
  if e.2.state = .running then (liveKids live e.2.procs).map (fun k => (some e.1, k)) else []

theorem tracked_eq (s : St) : tracked s = ctlPart s.live (s.ctl.map s.objs) ++ (s.engines.map (fun e => (e.1, s.objs e.2))).flatMap (setPart s.live) := by
  unfold tracked
  congr 1
  · cases s.ctl <;> rfl
  · rw [List.flatMap_map]; rfl

theorem flatMap_filter {α β : Type} (P : α → Bool) (f : α → List β) (h : ∀ a, P a = false → f a = []) : ∀ (l : List α), l.flatMap f = (l.filter P).flatMap f
  | [] => rfl
  | x :: t => by
    rw [List.filter_cons]
    cases hx : P x with
    | true => simp [flatMap_filter P f h t]
    | false => simp [h x hx, flatMap_filter P f h t]

theorem flatMap_filterMap' {α β γ : Type} (g : α → Option β) (f : β → List γ) : ∀ (l : List α),
    (l.filterMap g).flatMap f = l.flatMap (fun a => match g a with | some b => f b | none => [])
  | [] => rfl
  | x :: t => by
    rw [List.filterMap_cons, List.flatMap_cons, ← flatMap_filterMap' g f t]
    cases g x <;> simp

theorem restoreSet_state {c : Cfg} {live : List Nat} {d : LSnap} {l : Launcher} (h : restoreSet c live d = some l) : l.state = d.state := by
  unfold restoreSet at h
  split at h
  · unfold restoreMulti at h; split at h
    · cases h
    · cases h; rfl
  · unfold restoreSingle at h; split at h
    · cases h; rfl
    · cases h

/-- **Loading the file finds everything that runs**: another program that loads the cluster's file at any moment gets a cluster object that has exactly the living processes
of the components that run, under the same engine set ids and identifiers — provided no process id has been used again. -/
theorem load_restores_partial {c : Cfg} (hen : c.enabled = true) {s : St} (hs : Start c s) (h : List Ev) (hid : Along IdUnused c s h) (hpid : NoReuse c (run c s h)) :
    tracked (fromFile c (run c s h)) = tracked (run c s h) := by
  have hi := Inv.run hen h (hs.inv hen) hid
  obtain ⟨full, hf⟩ := hi.inv
  generalize hr : run c s h = r at *
  have hw := hi.wf
  unfold fromFile
  rw [tracked_eq r]
  have hset : (r.engines.map (fun e => (e.1, r.objs e.2))).flatMap (setPart r.live) = (runEng r).flatMap (fun e => setPart r.live (e.1, r.objs e.2)) := by
    rw [List.flatMap_map]
    exact flatMap_filter (fun e : String × Nat => decide ((r.objs e.2).state = .running)) _ (fun e he => by have he' : (r.objs e.2).state ≠ .running := by { simpa using he }; simp [setPart, he']) _
  cases hfile : r.file with
  | none =>
    have h1 : runEng r = [] := by have := hf.sets; rw [hfile] at this; simpa [fileSets] using this.symm
    have h2 : runCtl r = none := by have := hf.ctl; rw [hfile] at this; simpa [fileCtl] using this.symm
    rw [hset, h1]
    simp only [tracked, List.flatMap_nil, List.append_nil]
    cases hc : r.ctl with
    | none => rfl
    | some a =>
      simp only [Option.map_some, ctlPart]
      rw [if_neg]
      intro hx
      simp [runCtl, hc, Option.filter, hx] at h2
  | some d =>
    have hd := hi.fileWf d hfile
    obtain ⟨_, l1, _, _, _, _, l2, l3, _⟩ := load_spec hen hw.liveSeen hd
    simp only
    rw [tracked_eq, l1, l2, l3, hset]
    congr 1
    · -- the controller
      have hctl := hf.ctl
      rw [hfile] at hctl
      simp only [fileCtl, Option.bind_some] at hctl
      unfold foundCtl
      cases hdc : d.ctl with
      | none =>
        rw [hdc] at hctl
        have h2 : runCtl r = none := by simpa using hctl.symm
        cases hc : r.ctl with
        | none => rfl
        | some a =>
          simp only [Option.map_some, ctlPart, Option.bind_none]
          rw [if_neg]
          intro hx
          simp [runCtl, hc, Option.filter, hx] at h2
      | some l =>
        simp only [Option.bind_some]
        rw [hdc] at hctl
        by_cases hlr : l.state = .running
        · simp only [Option.filter, hlr, decide_true, if_true] at hctl
          cases hx : runCtl r with
          | none => rw [hx] at hctl; cases hctl
          | some a =>
            rw [hx] at hctl
            simp only [Option.map_some, Option.some.injEq] at hctl
            unfold runCtl at hx
            rw [Option.filter_eq_some_iff] at hx
            have hra : (r.objs a).state = .running := by simpa using hx.2
            have h1 : (full a).length ≤ 1 := by
              have := hd.ctlOne l hdc
              rw [hctl] at this
              simpa [asSnap] using this
            have := restored_kids hw.liveSeen hpid (full a) (hf.seen a hra) (r.objs a).n false (fun _ => h1)
            simp only [Bool.false_eq_true, if_false] at this
            rw [hx.1, Option.map_some, hctl]
            have hk := hf.kids a hra
            unfold asSnap
            simp only [ctlPart, hra, if_true]
            rw [← hk, ← this]
            cases restoreSingle c r.live ⟨.running, (r.objs a).n, (full a).map (fun e => (e.1, e.2.map c.pid))⟩ with
            | none => rfl
            | some x => simp only [ctlPart]; split <;> rfl
        · simp only [Option.filter, hlr, decide_false] at hctl
          have h2 : runCtl r = none := by simpa using hctl.symm
          have hR : ctlPart r.live (restoreSingle c r.live l) = [] := by
            cases hx : restoreSingle c r.live l with
            | none => rfl
            | some x =>
              have : x.state = l.state := by
                unfold restoreSingle at hx; split at hx
                · cases hx; rfl
                · cases hx
              simp [ctlPart, this, hlr]
          rw [hR]
          cases hc : r.ctl with
          | none => rfl
          | some a =>
            simp only [Option.map_some, ctlPart]
            rw [if_neg]
            intro hx
            simp [runCtl, hc, Option.filter, hx] at h2
    · -- the sets
      unfold found
      rw [flatMap_filterMap']
      rw [flatMap_filter (fun e : String × LSnap => decide (e.2.state = .running))]
      · have hsets := hf.sets
        rw [hfile] at hsets
        simp only [fileSets] at hsets
        rw [hsets, List.flatMap_map]
        have hmem : ∀ e ∈ runEng r, (r.objs e.2).state = .running ∧ (c.multi = false → (full e.2).length ≤ 1) := by
          intro e he
          refine ⟨by simpa using (List.mem_filter.1 he).2, fun hm => ?_⟩
          have : (e.1, asSnap c r full e.2) ∈ d.sets.filter (fun e => e.2.state = .running) := by
            rw [hsets]; exact List.mem_map.2 ⟨e, he, rfl⟩
          have := hd.one hm _ (List.mem_filter.1 this).1
          simpa [asSnap] using this
        clear hsets hset
        generalize runEng r = es at *
        induction es with
        | nil => rfl
        | cons e t ih =>
          rw [List.flatMap_cons, List.flatMap_cons, ih (fun x hx => hmem x (List.mem_cons_of_mem _ hx))]
          congr 1
          obtain ⟨hra, h1⟩ := hmem e List.mem_cons_self
          have := restored_kids hw.liveSeen hpid (full e.2) (hf.seen e.2 hra) (r.objs e.2).n c.multi h1
          simp only [setPart, hra, if_true]
          rw [← hf.kids e.2 hra, ← this]
          unfold restoreSet asSnap
          cases (if c.multi = true then restoreMulti c r.live ⟨.running, (r.objs e.2).n, (full e.2).map (fun e => (e.1, e.2.map c.pid))⟩
            else restoreSingle c r.live ⟨.running, (r.objs e.2).n, (full e.2).map (fun e => (e.1, e.2.map c.pid))⟩) with
          | none => rfl
          | some x => simp only [Option.map_some, setPart]; split <;> rfl
      · intro e he
        have hne : e.2.state ≠ .running := by simpa using he
        cases hx : restoreSet c r.live e.2 with
        | none => rfl
        | some x => simp [setPart, restoreSet_state hx, hne]

/-- the files clusters write can be loaded: the loaded cluster is one of those this file is about -/
theorem file_loadable {c : Cfg} (hen : c.enabled = true) {s : St} (hs : Start c s) (h : List Ev) (hid : Along IdUnused c s h) : Start c (fromFile c (run c s h)) := by
  have hi := Inv.run hen h (hs.inv hen) hid
  unfold fromFile
  cases hf : (run c s h).file with
  | none => exact .new _ _ hi.wf.liveSeen
  | some d => exact .loaded d _ _ hi.wf.liveSeen (hi.fileWf d hf)

end IPP.Cluster
