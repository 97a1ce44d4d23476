import Verif.Cluster.ManagerProps
/-!
# C77: cleaning up, and what does not hold
-/
namespace IPP.Manager

/-! ## Cleaning up -/

theorem filesIn_abs {w : World} {d : Disk} {dir : Text} (hd : w.abs dir = dir) : filesIn w d dir = (d.filter fun e => e.1.dir = dir).map (·.1) := by
  unfold filesIn
  rw [hd]
  apply List.map_congr_left
  intro e he
  have := (List.mem_filter.1 he).2
  simp at this
  obtain ⟨⟨a, b⟩, r⟩ := e
  simp at this ⊢
  exact this.symm

/-- the disk after one file has been dealt with -/
theorem cleanFile_spec {w : World} {force log : Bool} {d d' : Disk} {p : Path} {oc : Outcome} (hlog : log = true) (hn : (d.map (·.1)).Nodup) (hp : w.abs p.dir = p.dir) (h : cleanFile w log force d p = (d', oc)) :
    (d'.map (·.1)).Nodup ∧
    (oc = .done ∧ d' = d.remove p ∧ (force = false → ∀ r, (p, some r) ∈ d → ¬ r.live w) ∨
     oc = .running p ∧ force = false ∧ (∃ r, (p, some r) ∈ d ∧ r.live w) ∧ d'.map (·.1) = d.map (·.1) ∧ ∀ e ∈ d, e.1 ≠ p → e ∈ d') := by
  have hres : resolve w p = p := by unfold resolve; rw [hp]
  have hnr : ((d.remove p).map (·.1)).Nodup := hn.sublist (List.Sublist.map _ List.filter_sublist)
  have hrm : ∀ e : Disk, e = d ∨ e = d.remove p → rmFile log e p = (d.remove p, .done) := by
    intro e he
    subst hlog
    unfold rmFile
    rcases he with rfl | rfl
    · split
      · rfl
      · next hx =>
        have : e.remove p = e := by
          unfold Disk.remove
          rw [List.filter_eq_self]
          intro x hxm
          simp only [ne_eq, decide_not, Bool.not_eq_eq_eq_not, Bool.not_true, decide_eq_false_iff_not]
          intro hxp
          apply hx
          obtain ⟨a, b⟩ := x
          dsimp only at hxp
          subst hxp
          rw [get?_of_mem hn hxm]
          rfl
        rw [this]; rfl
    · have : (d.remove p).remove p = d.remove p := by unfold Disk.remove; rw [List.filter_filter]; simp
      split
      · rw [this]
      · rfl
  unfold cleanFile at h
  rw [hres] at h
  split at h
  · next hf =>
    rw [hrm d (.inl rfl)] at h
    cases h
    exact ⟨hnr, .inl ⟨rfl, rfl, fun h => by rw [hf] at h; cases h⟩⟩
  · next hforce =>
    split at h
    · next hff =>
      rw [hrm d (.inl rfl)] at h
      cases h
      refine ⟨hnr, .inl ⟨rfl, rfl, fun _ r hr => ?_⟩⟩
      exact absurd (by rw [hres]; exact get?_of_mem hn hr) (fromFile_none hff r)
    · next o d1 hff =>
      obtain ⟨r, hr, ho, hd1⟩ := fromFile_some hff
      rw [hres] at hr hd1
      have hmem := mem_of_get? hr
      have hlive := running_live w o r (by rw [ho]) (by rw [ho])
      obtain ⟨da, db, dc⟩ := disk_after (w := w) hd1 hmem
      split at h
      · next hrun =>
        obtain ⟨rfl, rfl⟩ := Prod.mk.inj h
        refine ⟨dc hn, .inr ⟨rfl, by simpa using hforce, ⟨r, hmem, hlive.1 hrun⟩, ?_, ?_⟩⟩
        · -- a running cluster's file is not removed
          have hnotrm := (fromFile_disk hff).1 hrun
          rw [hres] at hnotrm
          rcases hnotrm with rfl | ⟨r', rfl⟩
          · rfl
          · unfold Disk.write
            rw [List.map_map]
            apply List.map_congr_left
            intro e _
            simp only [Function.comp]
            split
            · next h => exact h.symm
            · rfl
        · rintro ⟨q, r'⟩ he hq
          rcases hd1 with rfl | rfl | rfl
          · exact he
          · exact List.mem_filter.2 ⟨he, by simpa using hq⟩
          · dsimp only at hq
            exact List.mem_map.2 ⟨_, he, by simp [hq]⟩
      · next hrun =>
        have hd1' := (fromFile_disk hff).2 (by simpa using hrun)
        rw [hres] at hd1'
        rw [hrm d1 hd1'] at h
        cases h
        refine ⟨hnr, .inl ⟨rfl, rfl, fun _ r' hr' => ?_⟩⟩
        have h1 := get?_of_mem hn hr'
        rw [hr] at h1
        cases h1
        exact fun hl => hrun (hlive.2 hl)

theorem cleanLoop_spec {w : World} {force : Bool} (l : List Path) : ∀ (d d' : Disk) (oc : Outcome), (d.map (·.1)).Nodup → (∀ p ∈ l, w.abs p.dir = p.dir) → l.Nodup → cleanLoop w true force d l = (d', oc) →
    (d'.map (·.1)).Nodup ∧
    (oc = .done ∧ d' = d.filter (fun e => e.1 ∉ l) ∧ (force = false → ∀ p ∈ l, ∀ r, (p, some r) ∈ d → ¬ r.live w) ∨
     ∃ p ∈ l, oc = .running p ∧ force = false ∧ (∃ r, (p, some r) ∈ d ∧ r.live w) ∧ p ∈ d'.map (·.1) ∧ (∀ e ∈ d', e.1 ∈ d.map (·.1)) ∧ ∀ q r, (q, some r) ∈ d → r.live w → q ∈ d'.map (·.1)) := by
  induction l with
  | nil =>
    intro d d' oc hn _ _ h
    cases h
    exact ⟨hn, .inl ⟨rfl, (List.filter_eq_self.2 (by simp)).symm, fun _ p hp => by cases hp⟩⟩
  | cons p l ih =>
    intro d d' oc hn hl hnd h
    rw [List.nodup_cons] at hnd
    unfold cleanLoop at h
    cases hc : cleanFile w true force d p with
    | mk d1 oc1 =>
      rw [hc] at h
      obtain ⟨hn1, h1 | h1⟩ := cleanFile_spec rfl hn (hl p (by simp)) hc
      · obtain ⟨rfl, rfl, hlive⟩ := h1
        dsimp only at h
        obtain ⟨hn2, h2 | ⟨q, hq, h3, h4, ⟨r, h5, h6⟩, h7, h8, h9⟩⟩ := ih _ _ _ hn1 (fun q hq => hl q (by simp [hq])) hnd.2 h
        · obtain ⟨h3, h4, h5⟩ := h2
          refine ⟨hn2, .inl ⟨h3, ?_, fun hf q hq r hr => ?_⟩⟩
          · rw [h4]
            unfold Disk.remove
            rw [List.filter_filter]
            congr 1
            funext e
            by_cases he : e.1 = p <;> simp [he]
          · rcases List.mem_cons.1 hq with rfl | hq
            · exact hlive hf r hr
            · have hqp : q ≠ p := fun h => hnd.1 (h ▸ hq)
              exact h5 hf q hq r (List.mem_filter.2 ⟨hr, by simpa using hqp⟩)
        · refine ⟨hn2, .inr ⟨q, by simp [hq], h3, h4, ⟨r, (List.mem_filter.1 h5).1, h6⟩, h7, fun e he => ?_, fun q' r' hm hlv => ?_⟩⟩
          · obtain ⟨x, hx, hxe⟩ := List.mem_map.1 (h8 e he)
            exact List.mem_map.2 ⟨x, (List.mem_filter.1 hx).1, hxe⟩
          · by_cases hqp : q' = p
            · subst hqp; exact absurd hlv (hlive h4 r' hm)
            · exact h9 q' r' (List.mem_filter.2 ⟨hm, by simpa using hqp⟩) hlv
      · obtain ⟨rfl, hf, ⟨r, hr, hlv⟩, hkeys, hoth⟩ := h1
        cases h
        refine ⟨hn1, .inr ⟨p, by simp, rfl, hf, ⟨r, hr, hlv⟩, ?_, fun e he => ?_, fun q r' hm _ => ?_⟩⟩
        · rw [hkeys]; exact List.mem_map.2 ⟨_, hr, rfl⟩
        · rw [← hkeys]; exact List.mem_map.2 ⟨_, he, rfl⟩
        · rw [hkeys]; exact List.mem_map.2 ⟨_, hm, rfl⟩

/-- **Cleaning up** (with a log): it succeeds exactly if no cluster with a file in the directories is running, or if forced. -/
theorem clean_outcome {w : World} {force : Bool} (dirs : List Text) : ∀ (f f' : Files) (oc : Outcome), (f.disk.map (·.1)).Nodup → (∀ d ∈ dirs, w.abs d = d) → clean w true force f dirs = (f', oc) →
    (oc = .done ∧ f'.disk = f.disk.filter (fun e => e.1.dir ∉ dirs) ∧ f'.logs = f.logs.filter (fun e => e.1 ∉ dirs) ∧ f'.conns = f.conns.filter (fun e => e.1 ∉ dirs) ∧
      (force = false → ∀ p r, (p, some r) ∈ f.disk → p.dir ∈ dirs → ¬ r.live w)) ∨
    (∃ p, oc = .running p ∧ force = false ∧ p.dir ∈ dirs ∧ (∃ r, (p, some r) ∈ f.disk ∧ r.live w) ∧ ∀ q r, (q, some r) ∈ f.disk → r.live w → q ∈ f'.disk.map (·.1)) := by
  induction dirs with
  | nil =>
    intro f f' oc _ _ h
    cases h
    exact .inl ⟨rfl, (List.filter_eq_self.2 (by simp)).symm, (List.filter_eq_self.2 (by simp)).symm, (List.filter_eq_self.2 (by simp)).symm, fun _ _ _ _ h => by cases h⟩
  | cons dir dirs ih =>
    intro f f' oc hn hd h
    have hdir := hd dir (by simp)
    have hlist : ∀ p ∈ filesIn w f.disk dir, p.dir = dir := by
      intro p hp
      obtain ⟨e, _, rfl⟩ := List.mem_map.1 hp
      rfl
    have hin : ∀ (p : Path) (x : Option Rec), (p, x) ∈ f.disk → (p ∈ filesIn w f.disk dir ↔ p.dir = dir) := by
      intro p x hx
      refine ⟨hlist p, fun hp => ?_⟩
      rw [filesIn_abs hdir]
      exact List.mem_map.2 ⟨_, List.mem_filter.2 ⟨hx, by simpa using hp⟩, rfl⟩
    have hnd : (filesIn w f.disk dir).Nodup := by
      rw [filesIn_abs hdir]
      exact hn.sublist (List.Sublist.map _ List.filter_sublist)
    unfold clean at h
    cases hc : cleanLoop w true force f.disk (filesIn w f.disk dir) with
    | mk d1 oc1 =>
      rw [hc] at h
      obtain ⟨hn1, h1 | ⟨p, hp, h3, h4, h5, h6, h7, h8⟩⟩ := cleanLoop_spec _ _ _ _ hn (fun p hp => by rw [hlist p hp]; exact hdir) hnd hc
      · obtain ⟨rfl, h2, h3⟩ := h1
        dsimp only at h
        have hd1 : d1 = f.disk.filter fun e => e.1.dir ≠ dir := by
          rw [h2]
          apply List.filter_congr
          rintro ⟨p, x⟩ hx
          have := hin p x hx
          by_cases hpd : p.dir = dir
          · simp [this.2 hpd, hpd]
          · have : p ∉ filesIn w f.disk dir := fun hm => hpd (this.1 hm)
            simp [this, hpd]
        rcases ih _ _ _ hn1 (fun d hdm => hd d (by simp [hdm])) h with ⟨h4, h5, h6, h7, h8⟩ | ⟨q, h4, h5, h6, ⟨r, h7, h8⟩, h9⟩
        · refine .inl ⟨h4, ?_, ?_, ?_, fun hf q r hq hqd => ?_⟩
          · rw [h5, hd1, List.filter_filter]
            congr 1
            funext e
            by_cases he : e.1.dir = dir <;> simp [he]
          · rw [h6, hdir, List.filter_filter]
            congr 1
            funext e
            by_cases he : e.1 = dir <;> simp [he]
          · rw [h7, hdir, List.filter_filter]
            congr 1
            funext e
            by_cases he : e.1 = dir <;> simp [he]
          · by_cases hqd' : q.dir = dir
            · exact h3 hf q ((hin q _ hq).2 hqd') r hq
            · refine h8 hf q r ?_ (by simpa [hqd'] using hqd)
              dsimp only
              rw [hd1]
              exact List.mem_filter.2 ⟨hq, by simpa using hqd'⟩
        · rw [hd1] at h7 h9
          refine .inr ⟨q, h4, h5, by simp [h6], ⟨r, (List.mem_filter.1 h7).1, h8⟩, fun q' r' hm hlv => ?_⟩
          by_cases hqd' : q'.dir = dir
          · exact absurd hlv (h3 h5 q' ((hin q' _ hm).2 hqd') r' hm)
          · exact h9 q' r' (List.mem_filter.2 ⟨hm, by simpa using hqd'⟩) hlv
      · subst h3
        cases h
        exact .inr ⟨p, rfl, h4, by rw [hlist p hp]; simp, h5, h8⟩

/-- **A running cluster keeps its file**, whatever happens, unless forced. -/
theorem clean_spares {w : World} (dirs : List Text) (f : Files) (hn : (f.disk.map (·.1)).Nodup) (hd : ∀ d ∈ dirs, w.abs d = d) (p : Path) (r : Rec) (hp : (p, some r) ∈ f.disk) (hl : r.live w) :
    p ∈ (clean w true false f dirs).1.disk.map (·.1) := by
  rcases clean_outcome dirs f _ _ hn hd rfl with ⟨_, h2, _, _, h5⟩ | ⟨_, _, _, _, _, h⟩
  · rw [h2]
    refine List.mem_map.2 ⟨_, List.mem_filter.2 ⟨hp, ?_⟩, rfl⟩
    simpa using fun hpd => h5 rfl p r hp hpd hl
  · exact h p r hp hl

/-! ## What does not hold -/

/-- `/i/profile_`; absolute paths as they are, others below `/i/`; process 1 is alive -/
def exW : World := { pre := "/i/profile_".toList, abs := fun d => match d with | '/' :: _ => d | _ => "/i/".toList ++ d, alive := fun n => n = 1 }

def exDir : Text := "/i/profile_default".toList

theorem exDir_ne (n : Text) : exDir[11]? ≠ (exW.pre ++ '/' :: n)[11]? := by
  have h1 : exW.pre.length = 11 := by decide +kernel
  have h2 : (exW.pre ++ '/' :: n)[11]? = some '/' := by rw [List.getElem?_append_right (by omega), h1]; rfl
  rw [h2]
  decide +kernel

/-- **A dead cluster is listed for ever**: the file of a cluster that died without removing it is read (and removed) by `load_clusters`, and the cluster is listed; and since its controller is gone it looks like one that has not been
started: no later `load_clusters` removes it. -/
theorem dead_listed_violated (c : Nat) (hc : c ≠ 1) :
    let s : St := { disk := [(⟨exDir, []⟩, some { dir := exDir, id := [], ctl := some c, sets := [] })] }
    let s1 := loadClusters exW [exDir] false s
    s1.disk = [] ∧ ∃ o, getCluster s1 "default:".toList = some o ∧ o.running exW = false ∧ ∀ n, getCluster (Nat.repeat (loadClusters exW [exDir] false) n s1) "default:".toList = some o := by
  intro s s1
  have h1 : s1 = { clusters := [("default:".toList, { oid := 0, dir := exDir, id := [], file := ⟨exDir, []⟩, ctl := none, sets := [] })], disk := [], next := 1 } := by
    have hk : key exW.pre exDir [] = "default:".toList := by decide +kernel
    have ha : exW.abs exDir = exDir := by decide +kernel
    have hal : exW.alive c = false := decide_eq_false hc
    have hg : Disk.get? [(⟨exDir, []⟩, some { dir := exDir, id := [], ctl := some c, sets := [] })] ⟨exDir, []⟩ = some (some { dir := exDir, id := [], ctl := some c, sets := [] }) := by simp [Disk.get?]
    simp [s1, s, loadClusters, loadDir, filesIn, loadFile, fromFile, resolve, ha, hg, hal, Obj.running, Disk.remove, assign, hk]
  have hrep : ∀ n, Nat.repeat (loadClusters exW [exDir] false) n s1 = s1 := by
    intro n
    induction n with
    | zero => rfl
    | succ n ih =>
      rw [Nat.repeat, ih, h1]
      decide +kernel
  refine ⟨by rw [h1], { oid := 0, dir := exDir, id := [], file := ⟨exDir, []⟩, ctl := none, sets := [] }, by rw [h1]; decide +kernel, by decide +kernel, fun n => by rw [hrep, h1]; decide +kernel⟩

/-- **A relative directory**: `load_clusters(profile_dir='profile_default')` makes a second object for a cluster that is listed and running, and lists it in place of the first. -/
theorem relative_dir_violated :
    let r : Rec := { dir := exDir, id := [], ctl := some 1, sets := [] }
    let o : Obj := { oid := 0, dir := exDir, id := [], file := ⟨exDir, []⟩, ctl := some 1, sets := [] }
    let s : St := { clusters := [("default:".toList, o)], disk := [(⟨exDir, []⟩, some r)], next := 1 }
    Usual exW s ∧ o.running exW = true ∧ (getCluster (loadClusters exW ["profile_default".toList] false s) "default:".toList).map (·.oid) = some 1 ∧
      getCluster (loadClusters exW [exDir] false s) "default:".toList = some o := by
  have hg : Good exW exDir [] := by
    refine ⟨⟨_, rfl⟩, fun n h => ?_, by simp⟩
    have := congrArg (fun l : Text => l[11]?) h
    exact absurd this (exDir_ne n)
  refine ⟨⟨?_, ?_, by simp, ?_, ?_, by simp, ?_⟩, by decide +kernel, by decide +kernel, by decide +kernel⟩
  · intro p r h; simp at h; obtain ⟨rfl, rfl⟩ := h; exact ⟨rfl, rfl⟩
  · intro p r h; simp at h; obtain ⟨rfl, rfl⟩ := h; rfl
  · intro p r h; simp at h; obtain ⟨rfl, rfl⟩ := h; exact hg
  · intro k o h; simp at h; obtain ⟨rfl, rfl⟩ := h; exact ⟨by decide +kernel, rfl, rfl, hg⟩
  · intro k o h; simp at h; obtain ⟨rfl, rfl⟩ := h; exact Nat.zero_lt_one

/-- **Colons**: two running clusters, of the profiles `a` and `a:b`, with ids `b:c` and `c`, have the same key, so only one of them is listed. -/
theorem colon_violated :
    let da := "/i/profile_a".toList
    let db := "/i/profile_a:b".toList
    let s : St := { disk := [(⟨da, "b:c".toList⟩, some { dir := da, id := "b:c".toList, ctl := some 1, sets := [] }), (⟨db, "c".toList⟩, some { dir := db, id := "c".toList, ctl := some 1, sets := [] })] }
    (loadClusters exW [da, db] false s).clusters.map (fun e => (e.1, e.2.dir)) = [("a:b:c".toList, db)] := by decide +kernel

/-- **Cleaning without a log** fails at the first file of a cluster that is not running: loading the file has removed it, removing it once more fails, and the failure cannot be logged. -/
theorem clean_no_log_violated (w : World) (f : Files) (dir : Text) (rest : List Text) (hd : w.abs dir = dir) (p : Path) (r : Rec) (l : Disk) (hf : f.disk = (p, some r) :: l) (hn : (f.disk.map (·.1)).Nodup) (hp : p.dir = dir)
    (hdead : ¬ r.live w) (hstale : r.ctl ≠ none ∨ r.sets ≠ []) : (clean w false false f (dir :: rest)).2 = .noLog := by
  have hpp : w.abs p.dir = p.dir := by rw [hp]; exact hd
  have hres : resolve w p = p := by unfold resolve; rw [hpp]
  have hmem : (p, some r) ∈ f.disk := by rw [hf]; simp
  have hfiles : ∃ l', filesIn w f.disk dir = p :: l' := by
    rw [filesIn_abs hd, hf, List.filter_cons_of_pos (by simpa using hp)]
    exact ⟨_, rfl⟩
  obtain ⟨l', hl'⟩ := hfiles
  have hget := get?_of_mem hn hmem
  have hcf : cleanFile w false false f.disk p = (f.disk.remove p, .noLog) := by
    have hrun : Obj.running w { oid := 0, dir := w.abs r.dir, id := r.id, file := p, ctl := liveCtl w r.ctl, sets := liveSets w r.sets } = false :=
      Bool.eq_false_iff.2 fun h => hdead ((running_live w _ r rfl rfl).1 h)
    have hne : ¬ ({ dir := w.abs r.dir, id := r.id, ctl := liveCtl w r.ctl, sets := liveSets w r.sets } : Rec) = r := by
      intro he
      have h1 : liveCtl w r.ctl = r.ctl := congrArg Rec.ctl he
      have h2 : liveSets w r.sets = r.sets := congrArg Rec.sets he
      rcases hstale with h | h
      · cases hc : r.ctl with
        | none => exact h hc
        | some c =>
          rw [hc] at h1
          unfold liveCtl at h1
          dsimp only at h1
          split at h1
          · next ha => exact hdead (.inl ⟨c, hc, ha⟩)
          · cases h1
      · cases hs : r.sets with
        | nil => exact h hs
        | cons x t =>
          have hx : x ∈ liveSets w r.sets := by rw [h2, hs]; simp
          exact hdead (.inr ⟨x, by rw [hs]; simp, (List.mem_filter.1 hx).2⟩)
    have hff : fromFile w f.disk 0 p = some ({ oid := 0, dir := w.abs r.dir, id := r.id, file := p, ctl := liveCtl w r.ctl, sets := liveSets w r.sets }, f.disk.remove p) := by
      unfold fromFile
      rw [hres, hget]
      change some (_, if ({ dir := w.abs r.dir, id := r.id, ctl := liveCtl w r.ctl, sets := liveSets w r.sets } : Rec) = r then f.disk
        else if Obj.running w { oid := 0, dir := w.abs r.dir, id := r.id, file := p, ctl := liveCtl w r.ctl, sets := liveSets w r.sets } = true then _ else f.disk.remove p) = _
      rw [if_neg hne, hrun]
      rfl
    unfold cleanFile
    rw [hff]
    dsimp only
    rw [hrun, hres]
    simp only [Bool.false_eq_true, if_false]
    unfold rmFile
    have : (f.disk.remove p).get? p = none := by
      unfold Disk.get? Disk.remove
      rw [List.find?_filter]
      simp
    rw [this]
    rfl
  unfold clean
  rw [hl']
  unfold cleanLoop
  rw [hcf]

/-! ## An example -/

/-- a running cluster that is listed, one that has been created and not started, a stopped one, and a running one of another process -/
def exS : St :=
  let o (n : Nat) (id : String) (c : Option Nat) : Text × Obj := (key exW.pre exDir id.toList, { oid := n, dir := exDir, id := id.toList, file := ⟨exDir, id.toList⟩, ctl := c, sets := [] })
  { clusters := [o 0 "run" (some 1), o 1 "new" none, o 2 "old" (some 5)]
    disk := [(⟨exDir, "run".toList⟩, some { dir := exDir, id := "run".toList, ctl := some 1, sets := [] }), (⟨exDir, "x".toList⟩, some { dir := exDir, id := "x".toList, ctl := some 9, sets := [(3, 1), (4, 8)] }),
      (⟨exDir, "broken".toList⟩, none)]
    next := 3 }

example : (loadClusters exW [exDir] true exS).clusters.map (fun e => (String.ofList e.1, e.2.oid, e.2.ctl, e.2.sets)) =
    [("default:run", 0, some 1, []), ("default:new", 1, none, []), ("default:x", 3, none, [(3, 1)])] := by decide +kernel

theorem exS_usual : Usual exW exS := by
  have hg : ∀ id : Text, ':' ∉ id → Good exW exDir id := by
    refine fun id hid => ⟨⟨_, rfl⟩, fun n h => ?_, hid⟩
    have := congrArg (fun l : Text => l[11]?) h
    exact absurd this (exDir_ne n)
  refine ⟨?_, ?_, by decide +kernel, ?_, ?_, by decide +kernel, ?_⟩
  · intro p r h; simp [exS] at h; rcases h with ⟨rfl, rfl⟩ | ⟨rfl, rfl⟩ <;> exact ⟨rfl, rfl⟩
  · intro p r h; simp [exS] at h; rcases h with ⟨rfl, rfl⟩ | ⟨rfl, rfl⟩ <;> rfl
  · intro p r h; simp [exS] at h; rcases h with ⟨rfl, rfl⟩ | ⟨rfl, rfl⟩ <;> exact hg _ (by decide +kernel)
  · intro k o h; simp [exS] at h; rcases h with ⟨rfl, rfl⟩ | ⟨rfl, rfl⟩ | ⟨rfl, rfl⟩ <;> exact ⟨rfl, rfl, rfl, hg _ (by decide +kernel)⟩
  · intro k o h; simp [exS] at h; rcases h with ⟨rfl, rfl⟩ | ⟨rfl, rfl⟩ | ⟨rfl, rfl⟩ <;> decide

example : (clean exW true false { disk := exS.disk, logs := [(exDir, 1)], conns := [] } [exDir]).2 = .running ⟨exDir, "run".toList⟩ := by decide +kernel

end IPP.Manager
