import Verif.Cluster.Manager
/-!
# C77: what the `ClusterManager` lists
-/
namespace IPP.Manager

/-! ## Keys -/

theorem abbr_inj {w : World} {d1 d2 : Text} (h1 : (∃ d, d1 = '/' :: d) ∧ ∀ n, d1 ≠ w.pre ++ '/' :: n) (h2 : (∃ d, d2 = '/' :: d) ∧ ∀ n, d2 ≠ w.pre ++ '/' :: n) (h : abbr w.pre d1 = abbr w.pre d2) : d1 = d2 := by
  unfold abbr at h
  split at h
  · next h3 =>
    obtain ⟨a, rfl⟩ := h3
    rw [List.drop_left] at h
    split at h
    · next h4 =>
      obtain ⟨b, rfl⟩ := h4
      rw [List.drop_left] at h
      rw [h]
    · obtain ⟨d, rfl⟩ := h2.1
      exact absurd (by rw [h]) (h1.2 d)
  · split at h
    · next h4 =>
      obtain ⟨b, rfl⟩ := h4
      rw [List.drop_left] at h
      obtain ⟨d, rfl⟩ := h1.1
      exact absurd (by rw [← h]) (h2.2 d)
    · exact h

theorem colon_inj {a b x y : Text} (hx : ':' ∉ x) (hy : ':' ∉ y) (h : a ++ ':' :: x = b ++ ':' :: y) : a = b ∧ x = y := by
  have key : ∀ (x y : Text), ':' ∉ x → ':' ∉ y → ∀ a b, x ++ ':' :: a = y ++ ':' :: b → x = y ∧ a = b := by
    intro x
    induction x with
    | nil =>
      intro y _ hy a b h
      cases y with
      | nil => simpa using h
      | cons c y => simp at h; exact absurd (by rw [h.1]; simp) hy
    | cons c x ih =>
      intro y hx hy a b h
      cases y with
      | nil => simp at h; exact absurd (by rw [h.1]; simp) hx
      | cons c' y =>
        simp at h
        obtain ⟨rfl, h⟩ := h
        obtain ⟨h1, h2⟩ := ih y (fun hm => hx (by simp [hm])) (fun hm => hy (by simp [hm])) a b h
        exact ⟨by rw [h1], h2⟩
  have hr := congrArg List.reverse h
  simp only [List.reverse_append, List.reverse_cons, List.append_assoc, List.singleton_append] at hr
  obtain ⟨h1, h2⟩ := key x.reverse y.reverse (by simpa using hx) (by simpa using hy) a.reverse b.reverse hr
  exact ⟨by simpa using congrArg List.reverse h2, by simpa using congrArg List.reverse h1⟩

/-- Different clusters have different keys (ordinary names). -/
theorem key_inj {w : World} {d1 i1 d2 i2 : Text} (h1 : Good w d1 i1) (h2 : Good w d2 i2) (h : key w.pre d1 i1 = key w.pre d2 i2) : d1 = d2 ∧ i1 = i2 := by
  obtain ⟨ha, hi⟩ := colon_inj h1.2.2 h2.2.2 h
  exact ⟨abbr_inj ⟨h1.1, h1.2.1⟩ ⟨h2.1, h2.2.1⟩ ha, hi⟩

/-! ## Loading a file -/

/-- the part of a file's record that is alive -/
def liveCtl (w : World) (c : Option Nat) : Option Nat := match c with | some c => if w.alive c then some c else none | none => none
def liveSets (w : World) (l : List (Nat × Nat)) : List (Nat × Nat) := l.filter fun s => w.alive s.2

theorem liveCtl_idem (w : World) (c : Option Nat) : liveCtl w (liveCtl w c) = liveCtl w c := by
  unfold liveCtl
  cases c with
  | none => rfl
  | some c => cases h : w.alive c <;> simp [h]

theorem liveSets_idem (w : World) (l : List (Nat × Nat)) : liveSets w (liveSets w l) = liveSets w l := by
  unfold liveSets; rw [List.filter_filter]; simp

theorem get?_of_mem {d : Disk} (hn : (d.map (·.1)).Nodup) {p : Path} {r : Option Rec} (h : (p, r) ∈ d) : d.get? p = some r := by
  unfold Disk.get?
  induction d with
  | nil => cases h
  | cons e d ih =>
    rw [List.map_cons, List.nodup_cons] at hn
    rcases List.mem_cons.1 h with rfl | h
    · simp
    · have : e.1 ≠ p := fun he => hn.1 (by rw [he]; exact List.mem_map.2 ⟨_, h, rfl⟩)
      rw [List.find?_cons_of_neg (by simp [this])]
      exact ih hn.2 h

theorem mem_of_get? {d : Disk} {p : Path} {r : Option Rec} (h : d.get? p = some r) : (p, r) ∈ d := by
  unfold Disk.get? at h
  cases hf : d.find? fun e => e.1 = p with
  | none => rw [hf] at h; cases h
  | some e =>
    rw [hf] at h
    have h1 := List.find?_some hf
    have h2 := List.mem_of_find?_eq_some hf
    simp at h h1
    obtain ⟨a, b⟩ := e
    subst h h1
    exact h2

/-- the disk after loading `p` -/
theorem fromFile_some {w : World} {d : Disk} {n : Nat} {p : Path} {o : Obj} {d' : Disk} (h : fromFile w d n p = some (o, d')) :
    ∃ r, d.get? (resolve w p) = some (some r) ∧ o = { oid := n, dir := w.abs r.dir, id := r.id, file := p, ctl := liveCtl w r.ctl, sets := liveSets w r.sets } ∧
      (d' = d ∨ d' = d.remove (resolve w p) ∨ d' = d.write (resolve w p) { dir := w.abs r.dir, id := r.id, ctl := liveCtl w r.ctl, sets := liveSets w r.sets }) := by
  unfold fromFile at h
  split at h
  · next r hr =>
    injection h with h
    rw [Prod.mk.injEq] at h
    obtain ⟨h1, h2⟩ := h
    refine ⟨r, hr, h1.symm, ?_⟩
    change (if ({ dir := w.abs r.dir, id := r.id, ctl := liveCtl w r.ctl, sets := liveSets w r.sets } : Rec) = r then d else if Obj.running w { oid := n, dir := w.abs r.dir, id := r.id, file := p, ctl := liveCtl w r.ctl, sets := liveSets w r.sets } = true then d.write (resolve w p) { dir := w.abs r.dir, id := r.id, ctl := liveCtl w r.ctl, sets := liveSets w r.sets } else d.remove (resolve w p)) = d' at h2
    by_cases ha : ({ dir := w.abs r.dir, id := r.id, ctl := liveCtl w r.ctl, sets := liveSets w r.sets } : Rec) = r
    · rw [if_pos ha] at h2; exact .inl h2.symm
    · rw [if_neg ha] at h2
      by_cases hb : Obj.running w { oid := n, dir := w.abs r.dir, id := r.id, file := p, ctl := liveCtl w r.ctl, sets := liveSets w r.sets } = true
      · rw [if_pos hb] at h2; exact .inr (.inr h2.symm)
      · rw [if_neg hb] at h2; exact .inr (.inl h2.symm)
  · cases h

/-- the file is removed only if nothing of the cluster is running, and written only if something is -/
theorem fromFile_disk {w : World} {d : Disk} {n : Nat} {p : Path} {o : Obj} {d' : Disk} (h : fromFile w d n p = some (o, d')) :
    (o.running w = true → d' = d ∨ ∃ r', d' = d.write (resolve w p) r') ∧ (o.running w = false → d' = d ∨ d' = d.remove (resolve w p)) := by
  unfold fromFile at h
  split at h
  · next r hr =>
    injection h with h
    rw [Prod.mk.injEq] at h
    obtain ⟨h1, h2⟩ := h
    rw [h1] at h2
    refine ⟨fun hrun => ?_, fun hrun => ?_⟩
    · rw [hrun] at h2
      revert h2
      generalize hx : (Rec.mk (w.abs r.dir) r.id _ _) = x
      intro h2
      simp only [if_true] at h2
      split at h2
      · exact .inl h2.symm
      · exact .inr ⟨x, h2.symm⟩
    · rw [hrun] at h2
      revert h2
      generalize hx : (Rec.mk (w.abs r.dir) r.id _ _) = x
      intro h2
      simp only [Bool.false_eq_true, if_false] at h2
      split at h2
      · exact .inl h2.symm
      · exact .inr h2.symm
  · cases h

theorem fromFile_none {w : World} {d : Disk} {n : Nat} {p : Path} (h : fromFile w d n p = none) : ∀ r, d.get? (resolve w p) ≠ some (some r) := by
  intro r hr
  unfold fromFile at h
  rw [hr] at h
  cases h

theorem running_live (w : World) (o : Obj) (r : Rec) (h1 : o.ctl = liveCtl w r.ctl) (h2 : o.sets = liveSets w r.sets) : o.running w = true ↔ r.live w := by
  unfold Obj.running Rec.live
  rw [h1, h2]
  simp only [Bool.or_eq_true, List.any_eq_true]
  refine or_congr ?_ ?_
  · unfold liveCtl
    cases r.ctl with
    | none => simp
    | some c => cases hc : w.alive c <;> simp [hc]
  · unfold liveSets
    constructor
    · rintro ⟨x, hx, h⟩; exact ⟨x, (List.mem_filter.1 hx).1, h⟩
    · rintro ⟨x, hx, h⟩; exact ⟨x, List.mem_filter.2 ⟨hx, h⟩, h⟩

/-! ## Assigning -/

theorem mem_assign {l : List (Text × Obj)} {k k' : Text} {o o' : Obj} : (k', o') ∈ assign l k o → (k', o') = (k, o) ∨ (k', o') ∈ l ∧ k' ≠ k := by
  intro h
  unfold assign at h
  split at h
  · obtain ⟨e, he, h1⟩ := List.mem_map.1 h
    split at h1
    · exact .inl h1.symm
    · next hne => subst h1; exact .inr ⟨he, hne⟩
  · next hn =>
    rcases List.mem_append.1 h with h | h
    · refine .inr ⟨h, fun hk => hn ?_⟩
      exact List.any_eq_true.2 ⟨_, h, by simp [hk]⟩
    · simp at h; exact .inl (by simp [h])

theorem assign_self {l : List (Text × Obj)} {k : Text} {o : Obj} : (k, o) ∈ assign l k o := by
  unfold assign
  split
  · next h =>
    obtain ⟨e, he, h1⟩ := List.any_eq_true.1 h
    exact List.mem_map.2 ⟨e, he, by simp at h1; simp [h1]⟩
  · simp

theorem assign_other {l : List (Text × Obj)} {k k' : Text} {o o' : Obj} (h : (k', o') ∈ l) (hk : k' ≠ k) : (k', o') ∈ assign l k o := by
  unfold assign
  split
  · exact List.mem_map.2 ⟨_, h, by simp [hk]⟩
  · exact List.mem_append_left _ h

theorem assign_nodup {l : List (Text × Obj)} {k : Text} {o : Obj} (h : (l.map (·.1)).Nodup) : ((assign l k o).map (·.1)).Nodup := by
  unfold assign
  split
  · have : (l.map fun e => if e.1 = k then (k, o) else e).map (·.1) = l.map (·.1) := by
      rw [List.map_map]
      apply List.map_congr_left
      intro e _
      simp only [Function.comp]
      split
      · next h => exact h.symm
      · rfl
    rw [this]; exact h
  · next hn =>
    rw [List.map_append, List.nodup_append]
    refine ⟨h, by simp, ?_⟩
    intro a ha b hb hab
    simp at hb
    subst hb hab
    obtain ⟨e, he, h1⟩ := List.mem_map.1 ha
    exact hn (List.any_eq_true.2 ⟨e, he, by simp [h1]⟩)

/-! ## The invariant of loading -/

/-- where an entry of the result comes from: it was kept, it is the default cluster of a directory, or it was loaded from a file -/
def Origin (w : World) (s0 : St) (dirs : List Text) (init : Bool) (k : Text) (o : Obj) : Prop :=
  (k, o) ∈ s0.clusters ∨
  (s0.next ≤ o.oid ∧ init = true ∧ o.dir ∈ dirs ∧ o.id = [] ∧ o.ctl = none ∧ o.sets = []) ∨
  (s0.next ≤ o.oid ∧ o.file ∉ s0.clusters.map (·.2.file) ∧ o.dir ∈ dirs ∧ ∃ r, (o.file, some r) ∈ s0.disk ∧ o.ctl = liveCtl w r.ctl ∧ o.sets = liveSets w r.sets)

def Done (w : World) (s : St) (p : Path) : Prop := ∃ o, (key w.pre p.dir p.name, o) ∈ s.clusters ∧ o.file = p

structure Inv (w : World) (s0 : St) (dirs : List Text) (init : Bool) (s : St) : Prop where
  usual : Usual w s
  next : s0.next ≤ s.next
  left : ∀ p r, (p, some r) ∈ s0.disk → (p, some r) ∈ s.disk ∨ Done w s p
  recs : ∀ p r, (p, some r) ∈ s.disk → ∃ r0, (p, some r0) ∈ s0.disk ∧ liveCtl w r.ctl = liveCtl w r0.ctl ∧ liveSets w r.sets = liveSets w r0.sets
  kept : ∀ k o, (k, o) ∈ s0.clusters → (k, o) ∈ s.clusters
  spared : ∀ p r, (p, some r) ∈ s0.disk → r.live w → ∃ r', (p, some r') ∈ s.disk ∧ liveCtl w r'.ctl = liveCtl w r.ctl ∧ liveSets w r'.sets = liveSets w r.sets
  origin : ∀ k o, (k, o) ∈ s.clusters → Origin w s0 dirs init k o

theorem disk_after {w : World} {d d' : Disk} {p : Path} {r0 r' : Rec} (h : d' = d ∨ d' = d.remove p ∨ d' = d.write p r') (h0 : (p, some r0) ∈ d) :
    (∀ q r, (q, some r) ∈ d' → (q, some r) ∈ d ∨ (q = p ∧ r = r')) ∧ (∀ q r, (q, some r) ∈ d → q ≠ p → (q, some r) ∈ d') ∧ ((d.map (·.1)).Nodup → (d'.map (·.1)).Nodup) := by
  rcases h with rfl | rfl | rfl
  · exact ⟨fun q r h => .inl h, fun q r h _ => h, id⟩
  · refine ⟨fun q r h => .inl (List.mem_filter.1 h).1, fun q r h hq => List.mem_filter.2 ⟨h, by simpa using hq⟩, fun h => ?_⟩
    exact h.sublist (List.Sublist.map _ List.filter_sublist)
  · refine ⟨fun q r h => ?_, fun q r h hq => ?_, fun h => ?_⟩
    · obtain ⟨e, he, h1⟩ := List.mem_map.1 h
      split at h1
      · simp at h1; exact .inr ⟨h1.1.symm, h1.2.symm⟩
      · rw [← h1]; exact .inl he
    · exact List.mem_map.2 ⟨_, h, by simp [hq]⟩
    · have : (d.write p r').map (·.1) = d.map (·.1) := by
        unfold Disk.write
        rw [List.map_map]
        apply List.map_congr_left
        intro e _
        simp only [Function.comp]
        split
        · next h => exact h.symm
        · rfl
      rw [this]; exact h

theorem loadFile_inv {w : World} {s0 : St} {dirs : List Text} {init : Bool} (h0 : Usual w s0) {s : St} (h : Inv w s0 dirs init s) (p : Path) (hp : w.abs p.dir = p.dir) (hd : p.dir ∈ dirs) :
    Inv w s0 dirs init (loadFile w (s0.clusters.map (·.2.file)) s p) ∧ (∀ q, Done w s q → Done w (loadFile w (s0.clusters.map (·.2.file)) s p) q) ∧
    (∀ r, (p, some r) ∈ s0.disk → Done w (loadFile w (s0.clusters.map (·.2.file)) s p) p) := by
  have hres : resolve w p = p := by unfold resolve; rw [hp]
  unfold loadFile
  split
  · next hb =>
    refine ⟨h, fun q hq => hq, fun r hr => ?_⟩
    obtain ⟨⟨k, o⟩, ho, he⟩ := List.mem_map.1 hb
    dsimp only at he
    obtain ⟨h1, h2, _, _⟩ := h0.objs k o ho
    refine ⟨o, ?_, he⟩
    have := h.kept k o ho
    rw [← he, h2]
    rw [← h1]; exact this
  · next hb =>
    split
    · next hn =>
      have hn := fromFile_none hn
      rw [hres] at hn
      refine ⟨h, fun q hq => hq, fun r hr => ?_⟩
      rcases h.left p r hr with h1 | h1
      · exact absurd (get?_of_mem h.usual.once h1) (hn r)
      · exact h1
    · next o d' hs =>
      obtain ⟨r, hr, ho, hd'⟩ := fromFile_some hs
      rw [hres] at hr hd'
      have hmem := mem_of_get? hr
      obtain ⟨hpd, hpn⟩ := h.usual.placed p r hmem
      have habs := h.usual.abs p r hmem
      have hgood := h.usual.good p r hmem
      rw [habs] at ho hd'
      have hod : o.dir = p.dir := by rw [ho]; exact hpd.symm
      have hoi : o.id = p.name := by rw [ho]; exact hpn.symm
      have hof : o.file = p := by rw [ho]
      have hoid : o.oid = s.next := by rw [ho]
      obtain ⟨da, db, dc⟩ := disk_after (w := w) hd' hmem
      have hkey : ∀ k' o', (k', o') ∈ s.clusters → k' = key w.pre o.dir o.id → o'.file = p := by
        intro k' o' hm hk
        obtain ⟨h1, h2, h3, h4⟩ := h.usual.objs k' o' hm
        rw [h1] at hk
        obtain ⟨h5, h6⟩ := key_inj h4 (by rw [hod, hoi, hpd, hpn]; exact hgood) hk
        rw [h2, h5, h6, hod, hoi]
      have hdone : Done w { clusters := assign s.clusters (key w.pre o.dir o.id) o, disk := d', next := s.next + 1 } p :=
        ⟨o, by rw [← hod, ← hoi]; exact assign_self, hof⟩
      have hmono : ∀ q, Done w s q → Done w { clusters := assign s.clusters (key w.pre o.dir o.id) o, disk := d', next := s.next + 1 } q := by
        rintro q ⟨o', h1, h2⟩
        by_cases hk : key w.pre q.dir q.name = key w.pre o.dir o.id
        · have := hkey _ _ h1 hk
          rw [h2] at this
          subst this
          exact hdone
        · exact ⟨o', assign_other h1 hk, h2⟩
      refine ⟨⟨⟨?_, ?_, dc h.usual.once, ?_, ?_, assign_nodup h.usual.keys, ?_⟩, ?_, ?_, ?_, ?_, ?_, ?_⟩, hmono, fun _ _ => hdone⟩
      · intro q r' hq
        rcases da q r' hq with hq | ⟨rfl, rfl⟩
        · exact h.usual.placed q r' hq
        · exact ⟨hpd, hpn⟩
      · intro q r' hq
        rcases da q r' hq with hq | ⟨rfl, rfl⟩
        · exact h.usual.abs q r' hq
        · exact habs
      · intro q r' hq
        rcases da q r' hq with hq | ⟨rfl, rfl⟩
        · exact h.usual.good q r' hq
        · exact hgood
      · intro k' o' hm
        rcases mem_assign hm with he | ⟨hm, _⟩
        · cases he
          exact ⟨rfl, by rw [hof, hod, hoi], by rw [hod]; exact hp, by rw [hod, hoi, hpd, hpn]; exact hgood⟩
        · exact h.usual.objs k' o' hm
      · intro k' o' hm
        rcases mem_assign hm with he | ⟨hm, _⟩
        · cases he; dsimp only; omega
        · have := h.usual.fresh k' o' hm; dsimp only; omega
      · have := h.next; dsimp only; omega
      · intro q r' hq
        rcases h.left q r' hq with h1 | h1
        · by_cases hqp : q = p
          · subst hqp; exact .inr hdone
          · exact .inl (db q r' h1 hqp)
        · exact .inr (hmono q h1)
      · intro q r' hq
        rcases da q r' hq with hq | ⟨rfl, rfl⟩
        · exact h.recs q r' hq
        · obtain ⟨r0, h1, h2, h3⟩ := h.recs q r hmem
          exact ⟨r0, h1, by rw [← h2]; exact liveCtl_idem w _, by rw [← h3]; exact liveSets_idem w _⟩
      · intro k' o' hm
        refine assign_other (h.kept k' o' hm) fun hk => hb ?_
        exact List.mem_map.2 ⟨_, hm, hkey k' o' (h.kept k' o' hm) hk⟩
      · intro q r' hq hlv
        obtain ⟨r1, h1, h2, h3⟩ := h.spared q r' hq hlv
        by_cases hqp : q = p
        · subst hqp
          have : r1 = r := by
            have := get?_of_mem h.usual.once h1
            rw [hr] at this
            cases this
            rfl
          subst this
          have hrun : o.running w = true := (running_live w o r' (by rw [ho]; exact h2) (by rw [ho]; exact h3)).2 hlv
          have hdd := (fromFile_disk hs).1 hrun
          rcases hdd with hdd | ⟨r2, hdd⟩
          · exact ⟨r1, by rw [hdd]; exact h1, h2, h3⟩
          · rcases hd' with hd'' | hd'' | hd''
            · exact ⟨r1, by rw [hd'']; exact h1, h2, h3⟩
            · -- written and removed: impossible
              exfalso
              rw [hdd, hres] at hd''
              have hm1 : q ∈ (s.disk.write q r2).map (·.1) := List.mem_map.2 ⟨(q, some r2), List.mem_map.2 ⟨_, h1, by simp⟩, rfl⟩
              rw [hd''] at hm1
              obtain ⟨e, he, he'⟩ := List.mem_map.1 hm1
              exact absurd he' (by simpa using (List.mem_filter.1 he).2)
            · refine ⟨_, by rw [hd'']; exact List.mem_map.2 ⟨_, h1, if_pos rfl⟩, ?_, ?_⟩
              · rw [← h2]; exact liveCtl_idem w _
              · rw [← h3]; exact liveSets_idem w _
        · exact ⟨r1, db q r1 h1 hqp, h2, h3⟩
      · intro k' o' hm
        rcases mem_assign hm with he | ⟨hm, _⟩
        · cases he
          obtain ⟨r0, h1, h2, h3⟩ := h.recs p r hmem
          refine .inr (.inr ⟨by rw [hoid]; exact h.next, by rw [hof]; exact hb, by rw [hod]; exact hd, r0, by rw [hof]; exact h1, ?_, ?_⟩)
          · rw [ho]; exact h2
          · rw [ho]; exact h3
        · exact h.origin k' o' hm

theorem loadFiles_inv {w : World} {s0 : St} {dirs : List Text} {init : Bool} (h0 : Usual w s0) (l : List Path) : ∀ {s : St}, Inv w s0 dirs init s → (∀ p ∈ l, w.abs p.dir = p.dir ∧ p.dir ∈ dirs) →
    Inv w s0 dirs init (l.foldl (loadFile w (s0.clusters.map (·.2.file))) s) ∧ (∀ q, Done w s q → Done w (l.foldl (loadFile w (s0.clusters.map (·.2.file))) s) q) ∧
    (∀ p ∈ l, ∀ r, (p, some r) ∈ s0.disk → Done w (l.foldl (loadFile w (s0.clusters.map (·.2.file))) s) p) := by
  induction l with
  | nil => intro s h _; exact ⟨h, fun _ h => h, fun _ h => by cases h⟩
  | cons p l ih =>
    intro s h hp
    obtain ⟨h1, h2, h3⟩ := loadFile_inv h0 h p (hp p (by simp)).1 (hp p (by simp)).2
    obtain ⟨h4, h5, h6⟩ := ih h1 fun q hq => hp q (by simp [hq])
    refine ⟨h4, fun q hq => h5 q (h2 q hq), fun q hq r hr => ?_⟩
    rcases List.mem_cons.1 hq with rfl | hq
    · exact h5 _ (h3 r hr)
    · exact h6 q hq r hr

theorem loadDir_inv {w : World} {s0 : St} {dirs : List Text} {init : Bool} (h0 : Usual w s0) {s : St} (h : Inv w s0 dirs init s) (dir : Text) (hp : w.abs dir = dir) (hd : dir ∈ dirs) (hgood : Good w dir []) :
    Inv w s0 dirs init (loadDir w init (s0.clusters.map (·.2.file)) s dir) ∧ (∀ q, Done w s q → Done w (loadDir w init (s0.clusters.map (·.2.file)) s dir) q) ∧
    (∀ p r, (p, some r) ∈ s0.disk → p.dir = dir → Done w (loadDir w init (s0.clusters.map (·.2.file)) s dir) p) := by
  have key1 : Inv w s0 dirs init (if init = true ∧ filesIn w s.disk dir = [] then
      if s.clusters.any (fun e => e.1 = key w.pre (w.abs dir) []) then { s with next := s.next + 1 }
      else { s with clusters := s.clusters ++ [(key w.pre (w.abs dir) [], { oid := s.next, dir := w.abs dir, id := [], file := ⟨w.abs dir, []⟩, ctl := none, sets := [] })], next := s.next + 1 }
    else s) ∧ ∀ q, Done w s q → Done w (if init = true ∧ filesIn w s.disk dir = [] then
      if s.clusters.any (fun e => e.1 = key w.pre (w.abs dir) []) then { s with next := s.next + 1 }
      else { s with clusters := s.clusters ++ [(key w.pre (w.abs dir) [], { oid := s.next, dir := w.abs dir, id := [], file := ⟨w.abs dir, []⟩, ctl := none, sets := [] })], next := s.next + 1 }
    else s) q := by
    have hnext : s0.next ≤ s.next + 1 := Nat.le_succ_of_le h.next
    split
    · next hi =>
      split
      · exact ⟨⟨⟨h.usual.placed, h.usual.abs, h.usual.once, h.usual.good, h.usual.objs, h.usual.keys, fun k o hm => Nat.lt_succ_of_lt (h.usual.fresh k o hm)⟩, hnext, h.left, h.recs, h.kept, h.spared, h.origin⟩,
          fun _ hq => hq⟩
      · next hn =>
        rw [hp] at hn ⊢
        have hmono : ∀ q, Done w s q → Done w { s with clusters := s.clusters ++ [(key w.pre dir [], { oid := s.next, dir := dir, id := [], file := ⟨dir, []⟩, ctl := none, sets := [] })], next := s.next + 1 } q := by
          rintro q ⟨o, h1, h2⟩
          exact ⟨o, List.mem_append_left _ h1, h2⟩
        refine ⟨⟨⟨h.usual.placed, h.usual.abs, h.usual.once, h.usual.good, ?_, ?_, ?_⟩, hnext, ?_, h.recs, ?_, h.spared, ?_⟩, hmono⟩
        · intro k o hm
          rcases List.mem_append.1 hm with hm | hm
          · exact h.usual.objs k o hm
          · simp at hm
            obtain ⟨rfl, rfl⟩ := hm
            exact ⟨rfl, rfl, hp, hgood⟩
        · rw [List.map_append, List.nodup_append]
          refine ⟨h.usual.keys, by simp, ?_⟩
          intro a ha b hb hab
          simp at hb
          subst hb hab
          obtain ⟨e, he, h1⟩ := List.mem_map.1 ha
          exact hn (List.any_eq_true.2 ⟨e, he, by simp [h1]⟩)
        · intro k o hm
          rcases List.mem_append.1 hm with hm | hm
          · exact Nat.lt_succ_of_lt (h.usual.fresh k o hm)
          · simp at hm
            obtain ⟨rfl, rfl⟩ := hm
            exact Nat.lt_succ_self _
        · intro q r hq
          rcases h.left q r hq with h1 | h1
          · exact .inl h1
          · exact .inr (hmono q h1)
        · intro k o hm
          exact List.mem_append_left _ (h.kept k o hm)
        · intro k o hm
          rcases List.mem_append.1 hm with hm | hm
          · exact h.origin k o hm
          · simp at hm
            obtain ⟨rfl, rfl⟩ := hm
            exact .inr (.inl ⟨h.next, hi.1, hd, rfl, rfl, rfl⟩)
    · exact ⟨h, fun _ hq => hq⟩
  have hfiles : ∀ p ∈ filesIn w s.disk dir, w.abs p.dir = p.dir ∧ p.dir ∈ dirs := by
    intro p hpm
    obtain ⟨e, _, rfl⟩ := List.mem_map.1 hpm
    exact ⟨hp, hd⟩
  obtain ⟨h1, h2⟩ := key1
  obtain ⟨h3, h4, h5⟩ := loadFiles_inv h0 (filesIn w s.disk dir) h1 hfiles
  refine ⟨h3, fun q hq => h4 q (h2 q hq), fun p r hr hpd => ?_⟩
  rcases h.left p r hr with hl | hl
  · refine h5 p ?_ r hr
    refine List.mem_map.2 ⟨(p, some r), List.mem_filter.2 ⟨hl, ?_⟩, ?_⟩
    · rw [hp]; simpa using hpd
    · cases p; simp at hpd ⊢; exact hpd.symm
  · exact h4 p (h2 p hl)

theorem loadDirs_inv {w : World} {s0 : St} {dirs : List Text} {init : Bool} (h0 : Usual w s0) (l : List Text) : ∀ {s : St}, Inv w s0 dirs init s → (∀ d ∈ l, w.abs d = d ∧ d ∈ dirs ∧ Good w d []) →
    Inv w s0 dirs init (l.foldl (loadDir w init (s0.clusters.map (·.2.file))) s) ∧ (∀ q, Done w s q → Done w (l.foldl (loadDir w init (s0.clusters.map (·.2.file))) s) q) ∧
    (∀ p r, (p, some r) ∈ s0.disk → p.dir ∈ l → Done w (l.foldl (loadDir w init (s0.clusters.map (·.2.file))) s) p) := by
  induction l with
  | nil => intro s h _; exact ⟨h, fun _ h => h, fun _ _ _ h => by cases h⟩
  | cons d l ih =>
    intro s h hd
    obtain ⟨h1, h2, h3⟩ := loadDir_inv h0 h d (hd d (by simp)).1 (hd d (by simp)).2.1 (hd d (by simp)).2.2
    obtain ⟨h4, h5, h6⟩ := ih h1 fun q hq => hd q (by simp [hq])
    refine ⟨h4, fun q hq => h5 q (h2 q hq), fun p r hr hp => ?_⟩
    rcases List.mem_cons.1 hp with hp | hp
    · exact h5 _ (h3 p r hr hp)
    · exact h6 p r hr hp

/-- the entries that `load_clusters` does not remove -/
def keptSt (w : World) (s : St) : St := { s with clusters := s.clusters.filter fun e => !(e.2.ctl.isSome && !e.2.running w) }

theorem kept_usual {w : World} {s : St} (h : Usual w s) : Usual w (keptSt w s) :=
  ⟨h.placed, h.abs, h.once, h.good, fun k o hm => h.objs k o (List.mem_filter.1 hm).1, h.keys.sublist (List.Sublist.map _ List.filter_sublist), fun k o hm => h.fresh k o (List.mem_filter.1 hm).1⟩

/-- The directories are spelled as absolute paths, with ordinary names. -/
def DirsOk (w : World) (dirs : List Text) : Prop := ∀ d ∈ dirs, w.abs d = d ∧ Good w d []

theorem load_inv {w : World} {s : St} (h : Usual w s) (dirs : List Text) (hd : DirsOk w dirs) (init : Bool) :
    Inv w (keptSt w s) dirs init (loadClusters w dirs init s) ∧ ∀ p r, (p, some r) ∈ s.disk → p.dir ∈ dirs → Done w (loadClusters w dirs init s) p := by
  have hk := kept_usual h
  have hinv : Inv w (keptSt w s) dirs init (keptSt w s) :=
    ⟨hk, Nat.le_refl _, fun p r hp => .inl hp, fun p r hp => ⟨r, hp, rfl, rfl⟩, fun _ _ h => h, fun p r hp _ => ⟨r, hp, rfl, rfl⟩, fun k o hm => .inl hm⟩
  obtain ⟨h1, _, h3⟩ := loadDirs_inv hk dirs hinv fun d hdm => ⟨(hd d hdm).1, hdm, (hd d hdm).2⟩
  exact ⟨h1, h3⟩

theorem get_of_mem {s : St} (hn : (s.clusters.map (·.1)).Nodup) {k : Text} {o : Obj} (h : (k, o) ∈ s.clusters) : getCluster s k = some o := by
  unfold getCluster
  generalize s.clusters = l at hn h
  induction l with
  | nil => cases h
  | cons e l ih =>
    rw [List.map_cons, List.nodup_cons] at hn
    rcases List.mem_cons.1 h with rfl | h
    · simp
    · have : e.1 ≠ k := fun he => hn.1 (by rw [he]; exact List.mem_map.2 ⟨_, h, rfl⟩)
      rw [List.find?_cons_of_neg (by simp [this])]
      exact ih hn.2 h

theorem mem_of_get {s : St} {k : Text} {o : Obj} (h : getCluster s k = some o) : (k, o) ∈ s.clusters := by
  unfold getCluster at h
  cases hf : s.clusters.find? fun e => e.1 = k with
  | none => rw [hf] at h; cases h
  | some e =>
    rw [hf] at h
    have h1 := List.find?_some hf
    have h2 := List.mem_of_find?_eq_some hf
    obtain ⟨a, b⟩ := e
    simp at h h1
    subst h h1
    exact h2

/-! ## C77 -/

/-- **Every cluster is listed**: after `load_clusters`, a cluster that has a loadable file in one of the directories is listed, under its profile and id. -/
theorem load_lists {w : World} {s : St} (h : Usual w s) (dirs : List Text) (hd : DirsOk w dirs) (init : Bool) (p : Path) (r : Rec) (hp : (p, some r) ∈ s.disk) (hdir : p.dir ∈ dirs) :
    ∃ o, getCluster (loadClusters w dirs init s) (key w.pre r.dir r.id) = some o ∧ o.file = p ∧ o.dir = r.dir ∧ o.id = r.id := by
  obtain ⟨hi, hl⟩ := load_inv h dirs hd init
  obtain ⟨o, h1, h2⟩ := hl p r hp hdir
  obtain ⟨hp1, hp2⟩ := h.placed p r hp
  obtain ⟨h3, h4, h5, h6⟩ := hi.usual.objs _ o h1
  rw [h2] at h4
  rw [hp1, hp2] at h1
  refine ⟨o, ?_, h2, by rw [← hp1, h4], by rw [← hp2, h4]⟩
  exact get_of_mem hi.usual.keys h1

/-- **Nothing is forgotten or replaced**: an entry that is running, or whose controller has not been started yet, stays, the same object under the same key. -/
theorem load_keeps {w : World} {s : St} (h : Usual w s) (dirs : List Text) (hd : DirsOk w dirs) (init : Bool) (k : Text) (o : Obj) (hg : getCluster s k = some o) (ho : o.running w = true ∨ o.ctl = none) :
    getCluster (loadClusters w dirs init s) k = some o := by
  obtain ⟨hi, _⟩ := load_inv h dirs hd init
  refine get_of_mem hi.usual.keys (hi.kept k o (List.mem_filter.2 ⟨mem_of_get hg, ?_⟩))
  rcases ho with ho | ho <;> simp [ho]

/-- **Nothing else is listed**: what is listed after `load_clusters` was listed before and is running or not started; or is the new default cluster of a directory (if asked for); or was loaded from a file that nothing listed had,
and then its components are those of the file that are alive. -/
theorem load_only {w : World} {s : St} (h : Usual w s) (dirs : List Text) (hd : DirsOk w dirs) (init : Bool) (k : Text) (o : Obj) (hg : getCluster (loadClusters w dirs init s) k = some o) :
    (getCluster s k = some o ∧ (o.running w = true ∨ o.ctl = none)) ∨
    (s.next ≤ o.oid ∧ init = true ∧ o.dir ∈ dirs ∧ o.id = [] ∧ o.running w = false) ∨
    (s.next ≤ o.oid ∧ ∃ r, (o.file, some r) ∈ s.disk ∧ o.dir ∈ dirs ∧ o.dir = r.dir ∧ o.id = r.id ∧ (o.running w = true ↔ r.live w) ∧
      (∀ c, o.ctl = some c ↔ r.ctl = some c ∧ w.alive c = true) ∧ ∀ x, x ∈ o.sets ↔ x ∈ r.sets ∧ w.alive x.2 = true) := by
  obtain ⟨hi, _⟩ := load_inv h dirs hd init
  have hm := mem_of_get hg
  rcases hi.origin k o hm with h1 | ⟨h1, h2, h3, h4, h5, h6⟩ | ⟨h1, h2, h3, r, h4, h5, h6⟩
  · left
    obtain ⟨h2, h3⟩ := List.mem_filter.1 h1
    refine ⟨get_of_mem h.keys h2, ?_⟩
    cases hr : o.running w with
    | true => exact .inl rfl
    | false => right; simpa [hr] using h3
  · exact .inr (.inl ⟨h1, h2, h3, h4, by simp [Obj.running, h5, h6]⟩)
  · obtain ⟨h7, h8⟩ := h.placed _ r h4
    obtain ⟨_, h9, _, _⟩ := hi.usual.objs k o hm
    refine .inr (.inr ⟨h1, r, h4, h3, by rw [← h7, h9], by rw [← h8, h9], running_live w o r h5 h6, fun c => ?_, fun x => by rw [h6]; exact List.mem_filter⟩)
    rw [h5]
    unfold liveCtl
    cases r.ctl with
    | none => simp
    | some c' =>
      dsimp only
      split
      · next ha => exact ⟨fun h => ⟨h, (by cases h; exact ha)⟩, fun h => h.1⟩
      · next ha => exact ⟨fun h => (by cases h), fun h => (by obtain ⟨h, hc⟩ := h; cases h; exact absurd hc ha)⟩

/-- **Stopped clusters go**: an entry whose controller was started and that has no running component any more is not listed after `load_clusters`. -/
theorem load_removes {w : World} {s : St} (h : Usual w s) (dirs : List Text) (hd : DirsOk w dirs) (init : Bool) (k : Text) (o : Obj) (hg : getCluster s k = some o) (ho : o.running w = false) (hc : o.ctl.isSome = true) (k' : Text) :
    getCluster (loadClusters w dirs init s) k' ≠ some o := by
  intro hg'
  have hf := h.fresh k o (mem_of_get hg)
  rcases load_only h dirs hd init k' o hg' with ⟨_, h1 | h1⟩ | ⟨h1, _⟩ | ⟨h1, _⟩
  · rw [ho] at h1; cases h1
  · rw [h1] at hc; cases hc
  · omega
  · omega

/-- `load_clusters` spares the files of running clusters: afterwards the file is there and names the same living components. -/
theorem load_spares {w : World} {s : St} (h : Usual w s) (dirs : List Text) (hd : DirsOk w dirs) (init : Bool) (p : Path) (r : Rec) (hp : (p, some r) ∈ s.disk) (hl : r.live w) :
    ∃ r', (p, some r') ∈ (loadClusters w dirs init s).disk ∧ r'.dir = r.dir ∧ r'.id = r.id ∧ (∀ c, w.alive c = true → (r'.ctl = some c ↔ r.ctl = some c)) ∧ ∀ x, w.alive x.2 = true → (x ∈ r'.sets ↔ x ∈ r.sets) := by
  obtain ⟨hi, _⟩ := load_inv h dirs hd init
  obtain ⟨r', h1, h2, h3⟩ := hi.spared p r hp hl
  obtain ⟨a1, a2⟩ := h.placed p r hp
  obtain ⟨b1, b2⟩ := hi.usual.placed p r' h1
  refine ⟨r', h1, by rw [← a1, ← b1], by rw [← a2, ← b2], fun c hc => ?_, fun x hx => ?_⟩
  · have hlc : ∀ o : Option Nat, liveCtl w o = some c ↔ o = some c := by
      intro o
      unfold liveCtl
      cases o with
      | none => simp
      | some c' =>
        dsimp only
        split
        · rfl
        · next ha => simp; rintro rfl; exact ha hc
    rw [← hlc, ← hlc r.ctl, h2]
  · have hls : ∀ l : List (Nat × Nat), x ∈ liveSets w l ↔ x ∈ l := by
      intro l
      unfold liveSets
      rw [List.mem_filter]
      simp [hx]
    rw [← hls, ← hls r.sets, h3]

/-- The circumstances stay as they are. -/
theorem load_usual {w : World} {s : St} (h : Usual w s) (dirs : List Text) (hd : DirsOk w dirs) (init : Bool) : Usual w (loadClusters w dirs init s) := (load_inv h dirs hd init).1.usual

/-- **`new_cluster`** adds a cluster under a key that was not used, and changes nothing else; it refuses a key that is used. -/
theorem new_adds {w : World} {s : St} (dir id : Text) :
    (getCluster s (key w.pre (w.abs dir) id) ≠ none → newCluster w dir id s = none) ∧
    (getCluster s (key w.pre (w.abs dir) id) = none → ∃ s', newCluster w dir id s = some (key w.pre (w.abs dir) id, s') ∧
      (∃ o, getCluster s' (key w.pre (w.abs dir) id) = some o ∧ o.dir = w.abs dir ∧ o.id = id ∧ o.running w = false ∧ o.oid = s.next) ∧
      (∀ k, k ≠ key w.pre (w.abs dir) id → getCluster s' k = getCluster s k) ∧ s'.disk = s.disk ∧ s.next < s'.next) := by
  have hany : ∀ k, (s.clusters.any fun e => e.1 = k) = (getCluster s k).isSome := by
    intro k
    unfold getCluster
    rw [Option.isSome_map, Bool.eq_iff_iff, List.find?_isSome, List.any_eq_true]
  refine ⟨fun hne => ?_, fun hn => ?_⟩
  · unfold newCluster
    have : (s.clusters.any fun e => e.1 = key w.pre (w.abs dir) id) = true := by rw [hany]; exact Option.isSome_iff_ne_none.2 hne
    simp only [this, if_true]
  · have h0 : (s.clusters.any fun e => e.1 = key w.pre (w.abs dir) id) = false := by rw [hany, hn]; rfl
    unfold newCluster
    simp only [h0]
    have hf : (s.clusters.find? fun e => e.1 = key w.pre (w.abs dir) id) = none := by
      unfold getCluster at hn; simpa using hn
    refine ⟨_, rfl, ⟨{ oid := s.next, dir := w.abs dir, id := id, file := ⟨w.abs dir, id⟩, ctl := none, sets := [] }, ?_, rfl, rfl, rfl, rfl⟩, fun k hk => ?_, rfl, Nat.lt_succ_self _⟩
    · unfold getCluster
      rw [List.find?_append, hf]
      simp
    · unfold getCluster
      rw [List.find?_append]
      have : List.find? (fun e : Text × Obj => decide (e.1 = k)) [(key w.pre (w.abs dir) id, { oid := s.next, dir := w.abs dir, id := id, file := ⟨w.abs dir, id⟩, ctl := none, sets := [] })] = none := by
        simp [Ne.symm hk]
      rw [this, Option.or_none]

/-- The circumstances stay as they are, also the objects stay different ones. -/
theorem new_usual {w : World} {s s' : St} {dir id k : Text} (h : Usual w s) (ha : w.abs (w.abs dir) = w.abs dir) (hg : Good w (w.abs dir) id) (hn : newCluster w dir id s = some (k, s')) : Usual w s' := by
  unfold newCluster at hn
  dsimp only at hn
  split at hn
  · cases hn
  · rename_i hk
    cases hn
    refine ⟨h.placed, h.abs, h.once, h.good, fun k o hm => ?_, ?_, fun k o hm => ?_⟩
    · rcases List.mem_append.1 hm with hm | hm
      · exact h.objs k o hm
      · simp only [List.mem_singleton, Prod.mk.injEq] at hm
        obtain ⟨rfl, rfl⟩ := hm
        exact ⟨rfl, rfl, ha, hg⟩
    · rw [List.map_append, List.nodup_append]
      refine ⟨h.keys, by simp, fun a ha b hb => ?_⟩
      simp only [List.map_cons, List.map_nil, List.mem_singleton] at hb
      rintro rfl
      apply hk
      obtain ⟨e, he, h1⟩ := List.mem_map.1 ha
      rw [List.any_eq_true]
      exact ⟨e, he, by simp [h1, hb]⟩
    · rcases List.mem_append.1 hm with hm | hm
      · exact Nat.lt_succ_of_lt (h.fresh k o hm)
      · simp only [List.mem_singleton, Prod.mk.injEq] at hm
        obtain ⟨rfl, rfl⟩ := hm
        exact Nat.lt_succ_self _

/-- **`remove_cluster`** removes the entry and nothing else. -/
theorem remove_removes {s : St} (k : Text) :
    (getCluster s k = none → removeCluster s k = none) ∧
    (getCluster s k ≠ none → ∃ s', removeCluster s k = some s' ∧ getCluster s' k = none ∧ (∀ k', k' ≠ k → getCluster s' k' = getCluster s k') ∧ s'.disk = s.disk) := by
  have hany : (s.clusters.any fun e => e.1 = k) = (getCluster s k).isSome := by
    unfold getCluster
    rw [Option.isSome_map, Bool.eq_iff_iff, List.find?_isSome, List.any_eq_true]
  unfold removeCluster
  rw [hany]
  refine ⟨fun h => by rw [h]; rfl, fun h => ?_⟩
  rw [if_pos (Option.isSome_iff_ne_none.2 h)]
  refine ⟨_, rfl, ?_, fun k' hk => ?_, rfl⟩
  · unfold getCluster
    rw [List.find?_filter]
    simp
  · unfold getCluster
    rw [List.find?_filter]
    congr 2
    funext e
    by_cases he : e.1 = k'
    · simp [he, hk]
    · simp [he]

/-- Loading again, when nothing has changed meanwhile, changes nothing: the same objects, the same files. -/
theorem load_again {w : World} {s : St} (h : Usual w s) (dirs : List Text) (hd : DirsOk w dirs) :
    loadClusters w dirs false (loadClusters w dirs false s) = loadClusters w dirs false s := by
  obtain ⟨hi, hl⟩ := load_inv h dirs hd false
  generalize hs : loadClusters w dirs false s = s1 at hi hl
  have hk : s1.clusters.filter (fun e => !(e.2.ctl.isSome && !e.2.running w)) = s1.clusters := by
    rw [List.filter_eq_self]
    rintro ⟨k, o⟩ hm
    rcases hi.origin k o hm with h1 | ⟨_, h1, _⟩ | ⟨_, _, _, r, _, h5, h6⟩
    · exact (List.mem_filter.1 h1).2
    · cases h1
    · dsimp only
      cases hc : o.ctl with
      | none => rfl
      | some c =>
        have : o.running w = true := by
          unfold Obj.running
          rw [hc]
          rw [hc] at h5
          unfold liveCtl at h5
          cases hr : r.ctl with
          | none => rw [hr] at h5; cases h5
          | some c' =>
            rw [hr] at h5
            dsimp only at h5
            split at h5
            · next ha => cases h5; simp [ha]
            · cases h5
        simp [this]
  unfold loadClusters
  rw [hk]
  have hfile : ∀ p, w.abs p.dir = p.dir → p.dir ∈ dirs → loadFile w (s1.clusters.map (·.2.file)) s1 p = s1 := by
    intro p hp hdir
    unfold loadFile
    split
    · rfl
    · next hb =>
      split
      · rfl
      · next o d' hf =>
        exfalso
        obtain ⟨r, hr, _, _⟩ := fromFile_some hf
        have hres : resolve w p = p := by unfold resolve; rw [hp]
        rw [hres] at hr
        obtain ⟨r0, h0, _, _⟩ := hi.recs p r (mem_of_get? hr)
        obtain ⟨o', h1, h2⟩ := hl p r0 h0 hdir
        exact hb (List.mem_map.2 ⟨_, h1, h2⟩)
  have hdirs : ∀ l : List Text, (∀ d ∈ l, d ∈ dirs) → l.foldl (loadDir w false (s1.clusters.map (·.2.file))) s1 = s1 := by
    intro l
    induction l with
    | nil => intro _; rfl
    | cons d l ih =>
      intro hsub
      have hdd := hsub d (by simp)
      rw [List.foldl_cons]
      have : loadDir w false (s1.clusters.map (·.2.file)) s1 d = s1 := by
        unfold loadDir
        simp only [Bool.false_eq_true, false_and, if_false]
        have hfl : ∀ l : List Path, (∀ p ∈ l, p.dir = d) → l.foldl (loadFile w (s1.clusters.map (·.2.file))) s1 = s1 := by
          intro l
          induction l with
          | nil => intro _; rfl
          | cons p l ih2 =>
            intro hl2
            have hpd := hl2 p (by simp)
            rw [List.foldl_cons, hfile p (by rw [hpd]; exact (hd d hdd).1) (by rw [hpd]; exact hdd)]
            exact ih2 fun q hq => hl2 q (by simp [hq])
        apply hfl
        intro p hp
        obtain ⟨e, _, rfl⟩ := List.mem_map.1 hp
        rfl
      rw [this]
      exact ih fun x hx => hsub x (by simp [hx])
  exact hdirs dirs fun _ h => h

end IPP.Manager
