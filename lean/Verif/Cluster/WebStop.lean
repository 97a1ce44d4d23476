import Verif.Cluster.WebMore
/-!
# Starting and stopping clusters over the web (C97)
-/
namespace IPP.Manager

/-! ### starting -/

theorem get_setObj {s : St} (hu : Uniq s) (hk : (s.clusters.map (·.1)).Nodup) {k : Text} {o : Obj} (h : getCluster s k = some o) (o' : Obj) (ho : o'.oid = o.oid) (d : Disk) :
    getCluster { s with clusters := setObj s.clusters o', disk := d } k = some o' ∧ ∀ k', k' ≠ k → getCluster { s with clusters := setObj s.clusters o', disk := d } k' = getCluster s k' := by
  have hm := mem_of_get h
  have hk' : ((setObj s.clusters o').map (·.1)) = s.clusters.map (·.1) := by
    unfold setObj
    rw [List.map_map]
    apply List.map_congr_left
    intro e _
    by_cases hc : e.2.oid = o'.oid <;> simp [hc]
  constructor
  · refine get_of_mem (s := { s with clusters := setObj s.clusters o', disk := d }) (by show ((setObj s.clusters o').map (·.1)).Nodup; rw [hk']; exact hk) ?_
    exact List.mem_map.2 ⟨(k, o), hm, by simp [ho]⟩
  · intro k' hne
    unfold getCluster setObj
    rw [List.find?_map]
    have hf : ((fun e : Text × Obj => decide (e.1 = k')) ∘ fun e : Text × Obj => if e.2.oid = o'.oid then (e.1, o') else e) = fun e => decide (e.1 = k') := by
      funext e
      by_cases hc : e.2.oid = o'.oid <;> simp [hc]
    rw [hf]
    cases hx : s.clusters.find? fun e => e.1 = k' with
    | none => rfl
    | some e =>
      have he := List.mem_of_find?_eq_some hx
      have h1 : e.1 = k' := by simpa using List.find?_some hx
      have : ¬ e.2.oid = o'.oid := by
        intro hc
        have := hu.2 e he (k, o) hm (by simp [hc, ho])
        rw [this] at h1
        exact hne h1.symm
      simp [this]

/-- **C97 (starting)** A number of engines that is not an integer is refused, and nothing changes. -/
theorem start_refused (c : Conf) (s : Srv) (k : Text) (h : getCluster s.m k ≠ none) (n : Json) (hn : n ≠ .null) (hi : ∀ i, n ≠ .int i) (dn p q : Nat) : start c s k (some n) dn p q = (s, .badRequest) := by
  cases hg : getCluster s.m k with
  | none => exact absurd hg h
  | some o =>
    unfold start
    rw [hg]
    cases n with
    | null => exact absurd rfl hn
    | int i => exact absurd rfl (hi i)
    | _ => rfl

theorem sum_filter_append (f g : Nat → Bool) (l : List (Nat × Nat)) (n q : Nat) (h : ∀ x ∈ l, g x.2 = f x.2) (hq : g q = true) :
    (((l ++ [(n, q)]).filter fun s => g s.2).map (·.1)).sum = ((l.filter fun s => f s.2).map (·.1)).sum + n := by
  have : (l.filter fun s => g s.2) = l.filter fun s => f s.2 := List.filter_congr fun x hx => h x hx
  rw [List.filter_append, List.map_append, List.sum_append, this]
  simp [hq]

theorem put_get {d : Disk} (hn : (d.map (·.1)).Nodup) (p : Path) (r : Rec) : (put d p r).get? p = some (some r) := by
  unfold put
  split
  · rename_i hany
    refine get?_of_mem ?_ ?_
    · unfold Disk.write
      have : (d.map fun e => if e.1 = p then (p, some r) else e).map (·.1) = d.map (·.1) := by
        rw [List.map_map]
        apply List.map_congr_left
        intro e _
        by_cases he : e.1 = p <;> simp [he]
      rw [this]; exact hn
    · obtain ⟨e, he, hx⟩ := List.any_eq_true.1 hany
      exact List.mem_map.2 ⟨e, he, by rw [if_pos (by simpa using hx)]⟩
  · rename_i hany
    unfold Disk.get?
    rw [List.find?_append]
    have : d.find? (fun e => decide (e.1 = p)) = none := by
      rw [List.find?_eq_none]
      intro e he hx
      exact hany (List.any_eq_true.2 ⟨e, he, hx⟩)
    rw [this]
    simp

theorem save_get (w : World) (d : Disk) (o : Obj) (hn : (d.map (·.1)).Nodup) (hr : o.running w = true) :
    ∃ r, (save w d o).get? (resolve w o.file) = some (some r) ∧ r.dir = o.dir ∧ r.id = o.id ∧ r.sets = o.sets.filter fun s => w.alive s.2 := by
  unfold save
  rw [if_pos hr]
  exact ⟨_, put_get hn _ _, rfl, rfl, rfl⟩

/-- **C97 (starting)** Otherwise the cluster has, afterwards, that many engines more, and a controller: the one it had, or a new one. The answer describes it, its file tells it, and no other cluster changes. (`p`, `q`: the new processes.) -/
theorem start_exact (c : Conf) (s : Srv) (h : WInv c s) (k : Text) (o : Obj) (hg : getCluster s.m k = some o) (n : Option Json) (hn : n = none ∨ n = some .null ∨ ∃ i, n = some (.int i)) (dn p q : Nat)
    (hp : p ∉ o.pids) (hq : q ∉ o.pids) (hpq : p ≠ q) :
    let num := match n with
      | some (.int i) => i.toNat
      | _ => dn
    ∃ s' o' m, start c s k n dn p q = (s', .one m) ∧ getCluster s'.m k = some o' ∧ Describes (s'.w c) m k o' ∧ o'.dir = o.dir ∧ o'.id = o.id ∧
      o'.ctl = some (o.ctl.getD p) ∧ m.n = (model (s.w c) k o).n + num ∧ (m.running = true ↔ o.ctl = none ∨ (model (s.w c) k o).running = true) ∧
      (∀ k', k' ≠ k → getCluster s'.m k' = getCluster s.m k') ∧
      ∃ r, s'.m.disk.get? o.file = some (some r) ∧ r.dir = o.dir ∧ r.id = o.id ∧ (num, q) ∈ r.sets := by
  intro num
  have hm := mem_of_get hg
  have ho := h.usual.objs k o hm
  have hst : start c s k n dn p q = (let o' := startObj o num p q
      let s' := { s with alive := fun x => x = q || (o.ctl.isNone && x = p) || s.alive x }
      let s' := { s' with m := { s.m with clusters := setObj s.m.clusters o', disk := save (s'.w c) s.m.disk o' } }
      (s', .one (model (s'.w c) k o'))) := by
    unfold start
    rw [hg]
    rcases hn with rfl | rfl | ⟨i, rfl⟩ <;> rfl
  dsimp only at hst
  have hq' : ∀ x ∈ o.sets, x.2 ≠ q ∧ x.2 ≠ p := by
    intro x hx
    exact ⟨fun e => hq (List.mem_append_right _ (List.mem_map.2 ⟨x, hx, e⟩)), fun e => hp (List.mem_append_right _ (List.mem_map.2 ⟨x, hx, e⟩))⟩
  have hcq : ∀ x, o.ctl = some x → x ≠ q := by
    rintro x hx rfl
    exact hq (List.mem_append_left _ (by simp [hx]))
  have hgs := get_setObj h.uniq h.usual.keys hg (startObj o num p q) rfl (save ⟨c.pre, c.abs, fun x => x = q || (o.ctl.isNone && x = p) || s.alive x⟩ s.m.disk (startObj o num p q))
  refine ⟨_, startObj o num p q, _, hst, hgs.1, model_describes _ k _, rfl, rfl, ?_, ?_, ?_, hgs.2, ?_⟩
  · unfold startObj; cases o.ctl <;> rfl
  · show (((startObj o num p q).sets.filter fun s' => decide (s'.2 = q) || (o.ctl.isNone && decide (s'.2 = p)) || s.alive s'.2).map (·.1)).sum = ((o.sets.filter fun x => s.alive x.2).map (·.1)).sum + num
    exact sum_filter_append s.alive (fun x => decide (x = q) || (o.ctl.isNone && decide (x = p)) || s.alive x) o.sets num q (fun x hx => by simp [(hq' x hx).1, (hq' x hx).2]) (by simp)
  · cases hc : o.ctl with
    | none => simp [model, startObj, hc, Srv.w]
    | some x => simp [model, startObj, hc, Srv.w, hcq x hc]
  · have hrun : (startObj o num p q).running ⟨c.pre, c.abs, fun x => x = q || (o.ctl.isNone && x = p) || s.alive x⟩ = true := by
      unfold Obj.running
      rw [Bool.or_eq_true]
      exact .inr (List.any_eq_true.2 ⟨(num, q), by simp [startObj], by simp⟩)
    have hres : resolve ⟨c.pre, c.abs, fun x => x = q || (o.ctl.isNone && x = p) || s.alive x⟩ (startObj o num p q).file = o.file := by
      show resolve _ o.file = o.file
      unfold resolve
      have e1 : o.file = ⟨o.dir, o.id⟩ := ho.2.1
      have e2 : c.abs o.dir = o.dir := ho.2.2.1
      rw [e1]; simp [e2]
    obtain ⟨r, h1, h2, h3, h4⟩ := save_get ⟨c.pre, c.abs, fun x => x = q || (o.ctl.isNone && x = p) || s.alive x⟩ s.m.disk (startObj o num p q) h.usual.once hrun
    rw [hres] at h1
    refine ⟨r, h1, h2, h3, ?_⟩
    rw [h4]
    exact List.mem_filter.2 ⟨by simp [startObj], by simp⟩

/-- **C97, violated**: starting a cluster whose controller has died answers with success, but starts no controller. -/
theorem start_dead_violated (c : Conf) (s : Srv) (h : WInv c s) (k : Text) (o : Obj) (hg : getCluster s.m k = some o) (x : Nat) (hx : o.ctl = some x) (hd : s.alive x = false) (dn p q : Nat)
    (hp : p ∉ o.pids) (hq : q ∉ o.pids) (hpq : p ≠ q) : ∃ s' m, start c s k none dn p q = (s', .one m) ∧ m.running = false := by
  obtain ⟨s', o', m, h1, -, -, -, -, -, -, h2, -⟩ := start_exact c s h k o hg none (.inl rfl) dn p q hp hq hpq
  refine ⟨s', m, h1, ?_⟩
  cases hm : m.running with
  | false => rfl
  | true =>
    rcases h2.1 hm with h3 | h3
    · rw [hx] at h3; cases h3
    · simp [model, hx, Srv.w, hd] at h3

/-! ### stopping -/

theorem get_remove_disk (d : Disk) (p : Path) : (d.remove p).get? p = none := by
  unfold Disk.get? Disk.remove
  rw [List.find?_filter]
  simp

theorem now_same {s : Srv} (hu : Uniq s.m) {k : Text} {o : Obj} (hm : (k, o) ∈ s.m.clusters) (j : Job) (hj : j.obj.oid = o.oid) : now s j = o := by
  unfold now
  cases hf : s.m.clusters.find? fun e => e.2.oid = j.obj.oid with
  | none =>
    rw [List.find?_eq_none] at hf
    exact absurd (by simp [hj]) (hf _ hm)
  | some e =>
    have he := List.mem_of_find?_eq_some hf
    have hx : e.2.oid = j.obj.oid := by simpa using List.find?_some hf
    have := hu.2 e he (k, o) hm (by simp [hx, hj])
    rw [this]

theorem job_found {s : Srv} {r : Nat} (hr : ∀ j ∈ s.jobs, j.r ≠ r) (j : Job) (hj : j.r = r) : (s.jobs ++ [j]).find? (fun x => x.r = r) = some j := by
  rw [List.find?_append]
  have : s.jobs.find? (fun x => decide (x.r = r)) = none := by
    rw [List.find?_eq_none]
    intro x hx
    simp [hr x hx]
  rw [this]
  simp [hj]

/-- **C97 (stopping)** A request to delete a cluster answers when all its processes have ended; if no other request was handled meanwhile, the answer is success, the cluster is not known any more, its file is gone, and no other cluster has changed. -/
theorem delete_exact (c : Conf) (s : Srv) (h : WInv c s) (r : Nat) (hr : ∀ j ∈ s.jobs, j.r ≠ r) (k : Text) (o : Obj) (hg : getCluster s.m k = some o) (alive : Nat → Bool) :
    let s1 := (deleteBegin s r k).1
    let s2 := { s1 with alive := alive }
    (deleteBegin s r k).2 = none ∧
    ((∃ p ∈ o.pids, alive p = true) → deleteEnd c s2 r = (s2, none)) ∧
    ((∀ p ∈ o.pids, alive p = false) → ∃ s3, deleteEnd c s2 r = (s3, some .noContent) ∧ getCluster s3.m k = none ∧ s3.m.disk.get? o.file = none ∧
      (∀ k', k' ≠ k → getCluster s3.m k' = getCluster s.m k') ∧ (∀ p, p ≠ o.file → s3.m.disk.get? p = s.m.disk.get? p)) := by
  intro s1 s2
  have hm := mem_of_get hg
  have ho := h.usual.objs k o hm
  have e1 : s1 = { s with jobs := s.jobs ++ [⟨r, k, o⟩] } := by simp [s1, deleteBegin, hg]
  have hfind : s2.jobs.find? (fun j => j.r = r) = some ⟨r, k, o⟩ := by
    show s1.jobs.find? _ = _
    rw [e1]; exact job_found hr ⟨r, k, o⟩ rfl
  have hmm : s2.m = s.m := by show s1.m = _; rw [e1]
  refine ⟨by simp [deleteBegin, hg], fun ⟨p, hp, ha⟩ => ?_, fun hdead => ?_⟩
  · unfold deleteEnd
    rw [hfind]
    dsimp only
    rw [if_pos (List.any_eq_true.2 ⟨p, hp, ha⟩)]
  · have hnow : now s2 ⟨r, k, o⟩ = o := now_same (by rw [hmm]; exact h.uniq) (k := k) (by rw [hmm]; exact hm) _ rfl
    have hany : ¬ (o.pids.any s2.alive = true) := by
      rw [List.any_eq_true]
      rintro ⟨p, hp, ha⟩
      have := hdead p hp
      rw [show s2.alive p = alive p from rfl, this] at ha
      cases ha
    have hsets : (o.sets.filter fun x => x ∉ o.sets) = [] := by
      rw [List.filter_eq_nil_iff]
      intro x hx
      simp [hx]
    have hres : resolve (s2.w c) o.file = o.file := by
      unfold resolve
      have e1 : o.file = ⟨o.dir, o.id⟩ := ho.2.1
      have e2 : c.abs o.dir = o.dir := ho.2.2.1
      rw [e1]; simp [Srv.w, e2]
    have hsave : save (s2.w c) s.m.disk { o with ctl := none, sets := [] } = s.m.disk.remove o.file := by
      unfold save
      rw [if_neg (by simp [Obj.running])]
      show s.m.disk.remove (resolve (s2.w c) o.file) = _
      rw [hres]
    have hgs := get_setObj h.uniq h.usual.keys hg { o with ctl := none, sets := [] } rfl (s.m.disk.remove o.file)
    obtain ⟨m', hm', h4, h5, h6⟩ := (remove_removes (s := { s.m with clusters := setObj s.m.clusters { o with ctl := none, sets := [] }, disk := s.m.disk.remove o.file }) k).2 (by rw [hgs.1]; simp)
    have hend : deleteEnd c s2 r = ({ s2 with m := m', jobs := s2.jobs.filter fun x => x.r ≠ r }, some .noContent) := by
      unfold deleteEnd
      rw [hfind]
      dsimp only
      rw [if_neg hany, hnow, hsets, hmm, hsave, hm']
    refine ⟨_, hend, h4, ?_, fun k' hk' => ?_, fun p hp => ?_⟩
    · show m'.disk.get? o.file = none
      rw [h6]; exact get_remove_disk _ _
    · show getCluster m' k' = _
      rw [h5 k' hk']; exact hgs.2 k' hk'
    · show m'.disk.get? p = _
      rw [h6]
      unfold Disk.get? Disk.remove
      rw [List.find?_filter]
      congr 2
      funext e
      by_cases he : e.1 = p
      · simp [he, hp]
      · simp [he]

/-- **C97 (stopping)** In every case: when the request is answered, all processes that the cluster had when it was asked for have ended; the answer is an error exactly if by then the key is not known any more. -/
theorem delete_answer (c : Conf) (s : Srv) (r : Nat) (j : Job) (hj : s.jobs.find? (fun j => j.r = r) = some j) (a : Resp) (h : (deleteEnd c s r).2 = some a) :
    (∀ p ∈ j.obj.pids, s.alive p = false) ∧ getCluster (deleteEnd c s r).1.m j.key = none ∧ (a = .noContent ∧ getCluster s.m j.key ≠ none ∨ a = .serverError ∧ getCluster s.m j.key = none) := by
  have hset : ∀ (o : Obj) (d : Disk), (getCluster { s.m with clusters := setObj s.m.clusters o, disk := d } j.key).isSome = (getCluster s.m j.key).isSome := by
    intro o d
    unfold getCluster setObj
    rw [Option.isSome_map, Option.isSome_map, Bool.eq_iff_iff, List.find?_isSome, List.find?_isSome]
    constructor
    · rintro ⟨x, hx, h1⟩
      obtain ⟨e, he, rfl⟩ := List.mem_map.1 hx
      refine ⟨e, he, ?_⟩
      by_cases hc : e.2.oid = o.oid <;> simpa [hc] using h1
    · rintro ⟨e, he, h1⟩
      refine ⟨_, List.mem_map.2 ⟨e, he, rfl⟩, ?_⟩
      by_cases hc : e.2.oid = o.oid <;> simpa [hc] using h1
  unfold deleteEnd at h ⊢
  rw [hj] at h ⊢
  dsimp only at h ⊢
  by_cases hd : j.obj.pids.any s.alive = true
  · rw [if_pos hd] at h; cases h
  · rw [if_neg hd] at h ⊢
    refine ⟨fun p hp => ?_, ?_⟩
    · cases ha : s.alive p with
      | false => rfl
      | true => exact absurd (List.any_eq_true.2 ⟨p, hp, ha⟩) hd
    · have hs := hset { now s j with ctl := none, sets := (now s j).sets.filter fun x => x ∉ j.obj.sets } (save (s.w c) s.m.disk { now s j with ctl := none, sets := (now s j).sets.filter fun x => x ∉ j.obj.sets })
      have hrr := remove_removes (s := { s.m with clusters := setObj s.m.clusters { now s j with ctl := none, sets := (now s j).sets.filter fun x => x ∉ j.obj.sets }, disk := save (s.w c) s.m.disk { now s j with ctl := none, sets := (now s j).sets.filter fun x => x ∉ j.obj.sets } }) j.key
      cases hg : getCluster s.m j.key with
      | none =>
        rw [hg] at hs
        have hn := Option.not_isSome_iff_eq_none.1 (by rw [hs]; simp)
        rw [hrr.1 hn] at h ⊢
        simp only [Option.some.injEq] at h
        exact ⟨hn, .inr ⟨h.symm, rfl⟩⟩
      | some o =>
        rw [hg] at hs
        obtain ⟨m', h1, h2, -⟩ := hrr.2 (by intro hn; rw [hn] at hs; cases hs)
        rw [h1] at h ⊢
        simp only [Option.some.injEq] at h
        exact ⟨h2, .inl ⟨h.symm, by simp⟩⟩

/-- **C97, violated**: of two requests to delete the same cluster that overlap, the second fails with an internal error, whatever the state. -/
theorem delete_twice_violated (c : Conf) (s : Srv) (h : WInv c s) (r1 r2 : Nat) (hne : r1 ≠ r2) (h1 : ∀ j ∈ s.jobs, j.r ≠ r1) (h2 : ∀ j ∈ s.jobs, j.r ≠ r2) (k : Text) (o : Obj) (hg : getCluster s.m k = some o)
    (alive : Nat → Bool) (hd : ∀ p ∈ o.pids, alive p = false) :
    let s2 := (deleteBegin (deleteBegin s r1 k).1 r2 k).1
    let s3 := (deleteEnd c { s2 with alive := alive } r1).1
    (deleteEnd c s3 r2).2 = some .serverError := by
  intro s2 s3
  have e2 : s2 = { s with jobs := s.jobs ++ [⟨r1, k, o⟩] ++ [⟨r2, k, o⟩] } := by simp [s2, deleteBegin, hg]
  have hf1 : s2.jobs.find? (fun j => j.r = r1) = some ⟨r1, k, o⟩ := by
    rw [e2]
    show (s.jobs ++ [(⟨r1, k, o⟩ : Job)] ++ [(⟨r2, k, o⟩ : Job)]).find? _ = _
    rw [List.find?_append, job_found h1 ⟨r1, k, o⟩ rfl]; rfl
  have hans : (deleteEnd c { s2 with alive := alive } r1).2 ≠ none := by
    unfold deleteEnd
    rw [show ({ s2 with alive := alive } : Srv).jobs.find? (fun j => decide (j.r = r1)) = some ⟨r1, k, o⟩ from hf1]
    dsimp only
    rw [if_neg (by rw [List.any_eq_true]; rintro ⟨p, hp, ha⟩; rw [hd p hp] at ha; cases ha)]
    split <;> simp
  obtain ⟨a, ha⟩ := Option.ne_none_iff_exists'.1 hans
  have h3 := (delete_answer c { s2 with alive := alive } r1 ⟨r1, k, o⟩ hf1 a ha).2.1
  have hjobs : s3.jobs = s2.jobs.filter fun x => x.r ≠ r1 := by
    show (deleteEnd c { s2 with alive := alive } r1).1.jobs = _
    revert ha
    unfold deleteEnd
    rw [show ({ s2 with alive := alive } : Srv).jobs.find? (fun j => decide (j.r = r1)) = some ⟨r1, k, o⟩ from hf1]
    dsimp only
    split
    · intro ha; cases ha
    · intro _; split <;> rfl
  have halive : s3.alive = alive := by
    show (deleteEnd c { s2 with alive := alive } r1).1.alive = _
    unfold deleteEnd
    split
    · rfl
    · dsimp only
      split
      · rfl
      · split <;> rfl
  have hf2 : s3.jobs.find? (fun j => j.r = r2) = some ⟨r2, k, o⟩ := by
    rw [hjobs, e2]
    show ((s.jobs ++ [(⟨r1, k, o⟩ : Job)] ++ [(⟨r2, k, o⟩ : Job)]).filter fun x => decide (x.r ≠ r1)).find? _ = _
    rw [List.find?_filter, List.find?_append]
    have : (s.jobs ++ [(⟨r1, k, o⟩ : Job)]).find? (fun a => decide (decide (a.r ≠ r1) = true ∧ decide (a.r = r2) = true)) = none := by
      rw [List.find?_eq_none]
      intro x hx
      rcases List.mem_append.1 hx with hx | hx
      · simp [h2 x hx]
      · simp only [List.mem_singleton] at hx; subst hx; simp
    rw [this]
    simp [Ne.symm hne]
  have hans2 : (deleteEnd c s3 r2).2 ≠ none := by
    unfold deleteEnd
    rw [hf2]
    dsimp only
    rw [if_neg (by rw [List.any_eq_true, halive]; rintro ⟨p, hp, ha⟩; rw [hd p hp] at ha; cases ha)]
    split <;> simp
  obtain ⟨b, hb⟩ := Option.ne_none_iff_exists'.1 hans2
  rcases (delete_answer c s3 r2 ⟨r2, k, o⟩ hf2 b hb).2.2 with ⟨-, h4⟩ | ⟨rfl, -⟩
  · exact absurd h3 h4
  · exact hb

/-! ### addresses -/

/-- **C97 (addresses)** JupyterLab reaches every cluster whose id has none of `/`, `?` and `#`. -/
theorem lab_reaches (id : Text) (h0 : id ≠ []) (h1 : '/' ∉ id) (h2 : '?' ∉ id) (h3 : '#' ∉ id) : route (labSegment id) = some id := by
  have : labSegment id = id := by
    have key : ∀ l : Text, '?' ∉ l → '#' ∉ l → (l.takeWhile fun x => x ≠ '?' ∧ x ≠ '#') = l := by
      intro l
      induction l with
      | nil => exact fun _ _ => rfl
      | cons x l ih =>
        intro h2 h3
        have a : x ≠ '?' := fun e => h2 (by simp [e])
        have b : x ≠ '#' := fun e => h3 (by simp [e])
        rw [List.takeWhile_cons, if_pos (by simp [a, b]), ih (fun h => h2 (by simp [h])) (fun h => h3 (by simp [h]))]
    exact key id h2 h3
  rw [this]
  unfold route
  rw [if_pos ⟨h0, h1⟩]

/-- **C97, violated**: a cluster of a profile directory outside `$IPYTHONDIR` is listed, but JupyterLab can neither start nor stop it: its address is not one of the service. -/
theorem lab_cannot_reach_violated (pre dir id : Text) (hd : dir.head? = some '/') (hp : ¬ pre <+: dir) : route (labSegment (key pre dir id)) = none := by
  cases dir with
  | nil => cases hd
  | cons a dir =>
    simp only [List.head?_cons, Option.some.injEq] at hd
    subst hd
    unfold key abbr
    rw [if_neg hp]
    unfold route
    rw [if_neg]
    simp [labSegment]

/-! ### cases -/

def exConf : Conf := ⟨"/i/profile_".toList, id, "/i/profile_default".toList⟩

/-- a cluster `x` of the default profile with controller 1 and four engines in process 2 -/
def exWeb : List WEv := [.list ["/i/profile_default".toList], .create { profile := some (.str "default".toList), clusterId := some (.str "x".toList), n := some .null } "r".toList,
  .start "default:x".toList (some (.int 4)) 8 1 2]

example : ∀ e ∈ exWeb, e.Ok exConf := by
  intro e he
  simp only [exWeb, List.mem_cons, List.not_mem_nil, or_false] at he
  have hg : ∀ i : Text, ':' ∉ i → Good ⟨exConf.pre, exConf.abs, fun _ => false⟩ "/i/profile_default".toList i := by
    refine fun i hi => ⟨⟨"i/profile_default".toList, by decide +kernel⟩, fun n h => ?_, hi⟩
    have h2 : exConf.pre.length = 11 := by decide +kernel
    have h3 : List.drop 11 "/i/profile_default".toList = 'd' :: "efault".toList := by decide +kernel
    have h4 := congrArg (List.drop 11) h
    rw [List.drop_left' h2, h3] at h4
    exact absurd (List.cons.inj h4).1 (by decide)
  rcases he with rfl | rfl | rfl
  · intro d hd
    simp only [List.mem_singleton] at hd
    subst hd
    exact ⟨rfl, hg [] (by simp)⟩
  · have hdir : exConf.abs (Body.dir exConf { profile := some (.str "default".toList), clusterId := some (.str "x".toList), n := some .null }) = "/i/profile_default".toList := by decide +kernel
    refine ⟨rfl, fun i hi => ?_⟩
    rw [hdir]
    refine hg i ?_
    rcases hi with rfl | rfl | hi
    · simp
    · decide
    · have : given (some (.str "x".toList)) = some "x".toList := rfl
      rw [this] at hi
      cases hi; decide
  · trivial

/-- the running cluster is listed before the default one, which was listed first -/
example : (getList exConf (wrun exConf [] (fun _ => false) exWeb) ["/i/profile_default".toList]).2 =
    .list [⟨"default:x".toList, "default".toList, "x".toList, true, 4, ⟨"/i/profile_default".toList, "x".toList⟩⟩,
      ⟨"default:".toList, "default".toList, [], false, 0, ⟨"/i/profile_default".toList, []⟩⟩] := by decide +kernel

example : (create exConf (wrun exConf [] (fun _ => false) []) { profile := some (.str "p".toList) } "r".toList).2 = .one ⟨"p:".toList, "p".toList, [], false, 0, ⟨"/i/profile_p".toList, []⟩⟩ ∧
    (create exConf (wrun exConf [] (fun _ => false) [.create { profile := some (.str "p".toList) } "r".toList]) { profile := some (.str "p".toList) } "r".toList).2 =
      .one ⟨"p:r".toList, "p".toList, "r".toList, false, 0, ⟨"/i/profile_p".toList, "r".toList⟩⟩ := by decide +kernel

/-- **C97, violated**: a request to delete a cluster fails with an internal error if the clusters are listed at the moment when its processes have ended. -/
theorem list_during_delete_violated :
    (deleteEnd exConf (wrun exConf [] (fun _ => false) (exWeb ++ [.deleteBegin 0 "default:x".toList, .dies 1, .dies 2, .noticed "default:x".toList, .list ["/i/profile_default".toList]])) 0).2 = some .serverError := by decide +kernel

/-- **C97, violated**: a request to start more engines while the cluster is being deleted is answered with success, and so is the deletion; the engines run on. -/
theorem start_during_delete_violated :
    let s := wrun exConf [] (fun _ => false) (exWeb ++ [.deleteBegin 0 "default:x".toList, .start "default:x".toList none 8 3 4, .dies 1, .dies 2])
    (deleteEnd exConf s 0).2 = some .noContent ∧ (deleteEnd exConf s 0).1.alive 4 = true ∧ getCluster (deleteEnd exConf s 0).1.m "default:x".toList = none := by decide +kernel

end IPP.Manager
