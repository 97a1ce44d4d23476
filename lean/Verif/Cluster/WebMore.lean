import Verif.Cluster.WebProps
/-!
# The web service over whole histories: starting, stopping, and what overlaps (C97)
-/
namespace IPP.Manager

/-! ### specification -/

/-- an event is ordinary: profile directories are absolute with ordinary names, ids have no colon -/
def WEv.Ok (c : Conf) : WEv → Prop
  | .list dirs => ∀ d ∈ dirs, c.abs d = d ∧ Good ⟨c.pre, c.abs, fun _ => false⟩ d []
  | .create b rnd => c.abs (c.abs (b.dir c)) = c.abs (b.dir c) ∧
      ∀ i, (i = [] ∨ i = rnd ∨ given b.clusterId = some i) → Good ⟨c.pre, c.abs, fun _ => false⟩ (c.abs (b.dir c)) i
  | _ => True

/-- the disk that the server finds is an ordinary one -/
def DiskOk (c : Conf) (disk : Disk) : Prop := Usual ⟨c.pre, c.abs, fun _ => false⟩ { disk := disk }

/-! ### invariants -/

theorem usual_alive {pre : Text} {abs : Text → Text} {a : Nat → Bool} (a' : Nat → Bool) {s : St} (h : Usual ⟨pre, abs, a⟩ s) : Usual ⟨pre, abs, a'⟩ s :=
  ⟨h.placed, h.abs, h.once, h.good, h.objs, h.keys, h.fresh⟩

/-- different entries are different objects -/
def Uniq (s : St) : Prop := (∀ e ∈ s.clusters, e.2.oid < s.next) ∧ ∀ e ∈ s.clusters, ∀ e' ∈ s.clusters, e.2.oid = e'.2.oid → e = e'

theorem uniq_assign {s : St} (h : Uniq s) (k : Text) (o : Obj) (ho : o.oid = s.next) (d : Disk) : Uniq { clusters := assign s.clusters k o, disk := d, next := s.next + 1 } := by
  have key : ∀ e ∈ assign s.clusters k o, e = (k, o) ∨ e ∈ s.clusters := fun e he => (mem_assign (k' := e.1) (o' := e.2) he).imp id (·.1)
  refine ⟨fun e he => ?_, fun e he e' he' heq => ?_⟩
  · rcases key e he with rfl | h1
    · simp [ho]
    · exact Nat.lt_succ_of_lt (h.1 e h1)
  · rcases key e he with rfl | h1 <;> rcases key e' he' with rfl | h2
    · rfl
    · have := h.1 e' h2; rw [← heq] at this; simp only [ho] at this; omega
    · have := h.1 e h1; rw [heq] at this; simp only [ho] at this; omega
    · exact h.2 e h1 e' h2 heq

theorem uniq_append {s : St} (h : Uniq s) (k : Text) (o : Obj) (ho : o.oid = s.next) : Uniq { s with clusters := s.clusters ++ [(k, o)], next := s.next + 1 } := by
  refine ⟨fun e he => ?_, fun e he e' he' heq => ?_⟩
  · rcases List.mem_append.1 he with h1 | h1
    · exact Nat.lt_succ_of_lt (h.1 e h1)
    · simp only [List.mem_singleton] at h1; subst h1; simp [ho]
  · rcases List.mem_append.1 he with h1 | h1 <;> rcases List.mem_append.1 he' with h2 | h2
    · exact h.2 e h1 e' h2 heq
    · simp only [List.mem_singleton] at h2; subst h2; have := h.1 e h1; rw [heq] at this; simp only [ho] at this; omega
    · simp only [List.mem_singleton] at h1; subst h1; have := h.1 e' h2; rw [← heq] at this; simp only [ho] at this; omega
    · simp only [List.mem_singleton] at h1 h2; rw [h1, h2]

theorem fromFile_oid {w : World} {d : Disk} {n : Nat} {p : Path} {o : Obj} {d' : Disk} (h : fromFile w d n p = some (o, d')) : o.oid = n := by
  obtain ⟨r, -, rfl, -⟩ := fromFile_some h
  rfl

theorem uniq_loadFile {w : World} {b : List Path} {s : St} (h : Uniq s) (p : Path) : Uniq (loadFile w b s p) := by
  unfold loadFile
  split
  · exact h
  · split
    · exact h
    · rename_i o d hf; exact uniq_assign h _ o (fromFile_oid hf) d

theorem uniq_foldl {α : Type} {f : St → α → St} (hf : ∀ s a, Uniq s → Uniq (f s a)) (l : List α) : ∀ s, Uniq s → Uniq (l.foldl f s) := by
  induction l with
  | nil => exact fun s h => h
  | cons a l ih => exact fun s h => ih _ (hf s a h)

theorem uniq_next {s : St} (h : Uniq s) : Uniq { s with next := s.next + 1 } := ⟨fun e he => Nat.lt_succ_of_lt (h.1 e he), h.2⟩

theorem uniq_loadDir {w : World} {init : Bool} {b : List Path} {s : St} (h : Uniq s) (dir : Text) : Uniq (loadDir w init b s dir) := by
  unfold loadDir
  refine uniq_foldl (fun s p h => uniq_loadFile h p) _ _ ?_
  split
  · dsimp only
    split
    · exact uniq_next h
    · exact uniq_append h _ _ rfl
  · exact h

theorem uniq_load {w : World} {s : St} (h : Uniq s) (dirs : List Text) (init : Bool) : Uniq (loadClusters w dirs init s) := by
  unfold loadClusters
  exact uniq_foldl (fun s d h => uniq_loadDir h d) _ _ ⟨fun e he => h.1 e (List.mem_filter.1 he).1, fun e he e' he' => h.2 e (List.mem_filter.1 he).1 e' (List.mem_filter.1 he').1⟩

theorem uniq_new {w : World} {s s' : St} {dir id k : Text} (h : Uniq s) (hn : newCluster w dir id s = some (k, s')) : Uniq s' := by
  unfold newCluster at hn
  dsimp only at hn
  split at hn
  · cases hn
  · cases hn; exact uniq_append h _ _ rfl

theorem uniq_remove {s s' : St} {k : Text} (h : Uniq s) (hn : removeCluster s k = some s') : Uniq s' := by
  unfold removeCluster at hn
  split at hn
  · cases hn; exact ⟨fun e he => h.1 e (List.mem_filter.1 he).1, fun e he e' he' => h.2 e (List.mem_filter.1 he).1 e' (List.mem_filter.1 he').1⟩
  · cases hn

theorem usual_remove {w : World} {s s' : St} {k : Text} (h : Usual w s) (hn : removeCluster s k = some s') : Usual w s' := by
  unfold removeCluster at hn
  split at hn
  · cases hn
    exact ⟨h.placed, h.abs, h.once, h.good, fun k o hm => h.objs k o (List.mem_filter.1 hm).1, h.keys.sublist (List.Sublist.map _ List.filter_sublist), fun k o hm => h.fresh k o (List.mem_filter.1 hm).1⟩
  · cases hn

/-- an object as the service makes them -/
def ObjOk (w : World) (o : Obj) : Prop := o.file = ⟨o.dir, o.id⟩ ∧ w.abs o.dir = o.dir ∧ Good w o.dir o.id

theorem save_usual {w : World} {s : St} (h : Usual w s) (o : Obj) (ho : ObjOk w o) : Usual w { s with disk := save w s.disk o } := by
  obtain ⟨h1, h2, h3⟩ := ho
  have hres : resolve w o.file = ⟨o.dir, o.id⟩ := by unfold resolve; rw [h1]; simp [h2]
  have gen : ∀ d' : Disk, (d'.map (·.1)).Nodup → (∀ p r, (p, some r) ∈ d' → (p, some r) ∈ s.disk ∨ p = ⟨o.dir, o.id⟩ ∧ r.dir = o.dir ∧ r.id = o.id) → Usual w { s with disk := d' } := by
    intro d' hn hd
    refine ⟨fun p r hp => ?_, fun p r hp => ?_, hn, fun p r hp => ?_, h.objs, h.keys, h.fresh⟩
    · rcases hd p r hp with h4 | ⟨rfl, h5, h6⟩
      · exact h.placed p r h4
      · exact ⟨h5.symm, h6.symm⟩
    · rcases hd p r hp with h4 | ⟨rfl, h5, h6⟩
      · exact h.abs p r h4
      · rw [h5]; exact h2
    · rcases hd p r hp with h4 | ⟨rfl, h5, h6⟩
      · exact h.good p r h4
      · rw [h5, h6]; exact h3
  unfold save
  rw [hres]
  split
  · unfold put
    split
    · refine gen _ ?_ ?_
      · unfold Disk.write
        have : ∀ r : Rec, (s.disk.map fun e => if e.1 = (⟨o.dir, o.id⟩ : Path) then ((⟨o.dir, o.id⟩ : Path), some r) else e).map (·.1) = s.disk.map (·.1) := by
          intro r
          rw [List.map_map]
          apply List.map_congr_left
          intro e _
          by_cases he : e.1 = ⟨o.dir, o.id⟩ <;> simp [he]
        rw [this]; exact h.once
      · intro p r hp
        unfold Disk.write at hp
        obtain ⟨e, he, hx⟩ := List.mem_map.1 hp
        by_cases hc : e.1 = ⟨o.dir, o.id⟩
        · rw [if_pos hc] at hx
          simp only [Prod.mk.injEq, Option.some.injEq] at hx
          obtain ⟨rfl, rfl⟩ := hx
          exact .inr ⟨rfl, rfl, rfl⟩
        · rw [if_neg hc] at hx; subst hx; exact .inl he
    · rename_i hany
      refine gen _ ?_ ?_
      · rw [List.map_append, List.nodup_append]
        refine ⟨h.once, by simp, fun a ha b hb => ?_⟩
        simp only [List.map_cons, List.map_nil, List.mem_singleton] at hb
        rintro rfl
        obtain ⟨e, he, h4⟩ := List.mem_map.1 ha
        exact hany (List.any_eq_true.2 ⟨e, he, by simp [h4, hb]⟩)
      · intro p r hp
        rcases List.mem_append.1 hp with hp | hp
        · exact .inl hp
        · simp only [List.mem_singleton, Prod.mk.injEq, Option.some.injEq] at hp
          obtain ⟨rfl, rfl⟩ := hp
          exact .inr ⟨rfl, rfl, rfl⟩
  · refine gen _ ?_ (fun p r hp => .inl (List.mem_filter.1 hp).1)
    exact h.once.sublist (List.Sublist.map _ List.filter_sublist)

/-- the object is the one of an entry, or of none -/
def Fits (s : St) (o : Obj) : Prop := ∀ e ∈ s.clusters, e.2.oid = o.oid → e.2.dir = o.dir ∧ e.2.id = o.id ∧ e.2.file = o.file

theorem setObj_usual {w : World} {s : St} (h : Usual w s) (o : Obj) (ho : Fits s o) : Usual w { s with clusters := setObj s.clusters o } := by
  have hm : ∀ k x, (k, x) ∈ setObj s.clusters o → ∃ y, (k, y) ∈ s.clusters ∧ y.dir = x.dir ∧ y.id = x.id ∧ y.file = x.file ∧ y.oid = x.oid := by
    intro k x hx
    obtain ⟨e, he, h1⟩ := List.mem_map.1 hx
    by_cases hc : e.2.oid = o.oid
    · rw [if_pos hc] at h1
      simp only [Prod.mk.injEq] at h1
      obtain ⟨rfl, rfl⟩ := h1
      have := ho e he hc
      exact ⟨e.2, he, this.1, this.2.1, this.2.2, hc⟩
    · rw [if_neg hc] at h1; subst h1; exact ⟨x, he, rfl, rfl, rfl, rfl⟩
  refine ⟨h.placed, h.abs, h.once, h.good, fun k x hx => ?_, ?_, fun k x hx => ?_⟩
  · obtain ⟨y, h1, h2, h3, h4, -⟩ := hm k x hx
    rw [← h2, ← h3, ← h4]; exact h.objs k y h1
  · have : (setObj s.clusters o).map (·.1) = s.clusters.map (·.1) := by
      unfold setObj
      rw [List.map_map]
      apply List.map_congr_left
      intro e _
      by_cases hc : e.2.oid = o.oid <;> simp [hc]
    show ((setObj s.clusters o).map (·.1)).Nodup
    rw [this]; exact h.keys
  · obtain ⟨y, h1, -, -, -, h5⟩ := hm k x hx
    rw [← h5]; exact h.fresh k y h1

theorem setObj_uniq {s : St} (h : Uniq s) (o : Obj) (d : Disk) : Uniq { s with clusters := setObj s.clusters o, disk := d } := by
  have hm : ∀ x ∈ setObj s.clusters o, ∃ y ∈ s.clusters, x = (if y.2.oid = o.oid then (y.1, o) else y) ∧ y.2.oid = x.2.oid := by
    intro x hx
    obtain ⟨e, he, h1⟩ := List.mem_map.1 hx
    refine ⟨e, he, h1.symm, ?_⟩
    by_cases hc : e.2.oid = o.oid
    · rw [if_pos hc] at h1; rw [← h1, hc]
    · rw [if_neg hc] at h1; rw [← h1]
  refine ⟨fun e he => ?_, fun e he e' he' heq => ?_⟩
  · obtain ⟨y, h1, -, h3⟩ := hm e he
    rw [← h3]; exact h.1 y h1
  · obtain ⟨y, h1, h2, h3⟩ := hm e he
    obtain ⟨y', h1', h2', h3'⟩ := hm e' he'
    have := h.2 y h1 y' h1' (by rw [h3, h3', heq])
    rw [h2, h2', this]

/-- what holds of the server at any time -/
structure WInv (c : Conf) (s : Srv) : Prop where
  usual : Usual (s.w c) s.m
  uniq : Uniq s.m
  jobs : ∀ j ∈ s.jobs, ObjOk (s.w c) j.obj

theorem fits_of_mem {w : World} {s : St} (hu : Uniq s) (h : Usual w s) {k : Text} {o : Obj} (hm : (k, o) ∈ s.clusters) (o' : Obj) (h1 : o'.oid = o.oid) (h2 : o'.dir = o.dir) (h3 : o'.id = o.id) (h4 : o'.file = o.file) : Fits s o' := by
  intro e he heq
  have := hu.2 e he (k, o) hm (by simp [heq, h1])
  subst this
  exact ⟨h2.symm, h3.symm, h4.symm⟩

theorem now_ok {c : Conf} {s : Srv} (h : WInv c s) (j : Job) (hj : j ∈ s.jobs) : ObjOk (s.w c) (now s j) ∧ (now s j).oid = j.obj.oid ∧ ∀ o', o'.oid = (now s j).oid → o'.dir = (now s j).dir → o'.id = (now s j).id → o'.file = (now s j).file → Fits s.m o' := by
  unfold now
  cases hf : s.m.clusters.find? fun e => e.2.oid = j.obj.oid with
  | none =>
    refine ⟨h.jobs j hj, rfl, fun o' h1 _ _ _ e he heq => ?_⟩
    rw [List.find?_eq_none] at hf
    exact absurd (by simp [heq, h1]) (hf e he)
  | some e =>
    have he := List.mem_of_find?_eq_some hf
    have hx := List.find?_some hf
    have := h.usual.objs e.1 e.2 he
    exact ⟨⟨this.2.1, this.2.2.1, this.2.2.2⟩, by simpa using hx, fun o' h1 h2 h3 h4 => fits_of_mem h.uniq h.usual (k := e.1) (o := e.2) he o' h1 h2 h3 h4⟩

theorem good_alive {pre : Text} {abs : Text → Text} {a a' : Nat → Bool} {d i : Text} (h : Good ⟨pre, abs, a⟩ d i) : Good ⟨pre, abs, a'⟩ d i := h

theorem winv_step (c : Conf) (s : Srv) (h : WInv c s) (e : WEv) (he : e.Ok c) : WInv c (wstep c s e).1 := by
  cases e with
  | list dirs => exact ⟨load_usual h.usual dirs (fun d hd => he d hd) true, uniq_load h.uniq dirs true, h.jobs⟩
  | create b rnd =>
    show WInv c (create c s b rnd).1
    by_cases hb : b.Ok
    · rw [create_ok c s b hb rnd]
      cases hn : newCluster (s.w c) (b.dir c) (b.id s rnd) s.m with
      | none => exact h
      | some x =>
        obtain ⟨k, m⟩ := x
        dsimp only
        cases hg : getCluster m k with
        | none => exact h
        | some o =>
          refine ⟨new_usual h.usual he.1 (he.2 _ ?_) hn, uniq_new h.uniq hn, h.jobs⟩
          unfold Body.id
          cases h1 : given b.clusterId with
          | some i => exact .inr (.inr rfl)
          | none =>
            cases h2 : given b.profile with
            | none => exact .inr (.inl rfl)
            | some p =>
              dsimp only
              split
              · exact .inr (.inl rfl)
              · split
                · exact .inl rfl
                · exact .inr (.inl rfl)
    · rw [create_refused c s b hb rnd]; exact h
  | get k => exact h
  | start k n dn p q =>
    show WInv c (start c s k n dn p q).1
    unfold start
    cases hg : getCluster s.m k with
    | none => exact h
    | some o =>
      dsimp only
      have hm := mem_of_get hg
      have ho := h.usual.objs k o hm
      have key : ∀ num alive, WInv c { s with alive := alive, m := { s.m with clusters := setObj s.m.clusters (startObj o num p q), disk := save ⟨c.pre, c.abs, alive⟩ s.m.disk (startObj o num p q) } } := by
        intro num alive
        refine ⟨?_, setObj_uniq h.uniq _ _, h.jobs⟩
        have h1 := setObj_usual h.usual (startObj o num p q) (fits_of_mem h.uniq h.usual hm _ rfl rfl rfl rfl)
        exact save_usual (usual_alive alive h1) (startObj o num p q) ⟨ho.2.1, ho.2.2.1, ho.2.2.2⟩
      split <;> first | exact h | exact key _ _
  | deleteBegin r k =>
    show WInv c (deleteBegin s r k).1
    unfold deleteBegin
    cases hg : getCluster s.m k with
    | none => exact h
    | some o =>
      have ho := h.usual.objs k o (mem_of_get hg)
      refine ⟨h.usual, h.uniq, fun j hj => ?_⟩
      rcases List.mem_append.1 hj with hj | hj
      · exact h.jobs j hj
      · simp only [List.mem_singleton] at hj; subst hj; exact ⟨ho.2.1, ho.2.2.1, ho.2.2.2⟩
  | ctlStopped r =>
    show WInv c (ctlStopped c s r)
    unfold ctlStopped
    cases hf : s.jobs.find? fun j => j.r = r with
    | none => exact h
    | some j =>
      dsimp only
      split
      · exact h
      · obtain ⟨h1, h2, h3⟩ := now_ok h j (List.mem_of_find?_eq_some hf)
        exact ⟨save_usual (setObj_usual h.usual { now s j with ctl := none } (h3 _ rfl rfl rfl rfl)) { now s j with ctl := none } h1, setObj_uniq h.uniq _ _, h.jobs⟩
  | deleteEnd r =>
    show WInv c (deleteEnd c s r).1
    unfold deleteEnd
    cases hf : s.jobs.find? fun j => j.r = r with
    | none => exact h
    | some j =>
      dsimp only
      split
      · exact h
      · obtain ⟨h1, h2, h3⟩ := now_ok h j (List.mem_of_find?_eq_some hf)
        have hu := save_usual (setObj_usual h.usual { now s j with ctl := none, sets := (now s j).sets.filter fun x => x ∉ j.obj.sets } (h3 _ rfl rfl rfl rfl))
          { now s j with ctl := none, sets := (now s j).sets.filter fun x => x ∉ j.obj.sets } h1
        have hq := setObj_uniq h.uniq { now s j with ctl := none, sets := (now s j).sets.filter fun x => x ∉ j.obj.sets } (save (s.w c) s.m.disk { now s j with ctl := none, sets := (now s j).sets.filter fun x => x ∉ j.obj.sets })
        split
        · exact ⟨hu, hq, fun x hx => h.jobs x (List.mem_filter.1 hx).1⟩
        · rename_i m' hr
          exact ⟨usual_remove hu hr, uniq_remove hq hr, fun x hx => h.jobs x (List.mem_filter.1 hx).1⟩
  | dies p => exact ⟨usual_alive _ h.usual, h.uniq, h.jobs⟩
  | noticed k =>
    show WInv c (match getCluster s.m k with
      | some o => _
      | none => s)
    cases hg : getCluster s.m k with
    | none => exact h
    | some o =>
      have ho := h.usual.objs k o (mem_of_get hg)
      exact ⟨save_usual h.usual o ⟨ho.2.1, ho.2.2.1, ho.2.2.2⟩, h.uniq, h.jobs⟩

/-- **C97 (histories)** Whatever requests are handled, in whatever order, and whatever processes end meanwhile: the circumstances in which the statements about listing, reading and creating are proved do not change. -/
theorem web_inv (c : Conf) (disk : Disk) (hd : DiskOk c disk) (alive : Nat → Bool) (evs : List WEv) (he : ∀ e ∈ evs, e.Ok c) : WInv c (wrun c disk alive evs) := by
  have : ∀ (evs : List WEv) (s : Srv), WInv c s → (∀ e ∈ evs, e.Ok c) → WInv c (evs.foldl (fun s e => (wstep c s e).1) s) := by
    intro evs
    induction evs with
    | nil => exact fun s h _ => h
    | cons e evs ih => exact fun s h he => ih _ (winv_step c s h e (he e (by simp))) fun x hx => he x (by simp [hx])
  exact this evs _ ⟨usual_alive _ hd, ⟨fun e he => by simp at he, fun e he => by simp at he⟩, fun j hj => by simp at hj⟩ he

end IPP.Manager
