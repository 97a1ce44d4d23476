import Verif.LB.Inv
/-!
# Engines that are quiet when the scheduler gives up on them
-/
namespace IPP.LB
open IPP.Namespace

variable {V : Type}

theorem run_snoc (i : Interp V) (cfg : Sched.Config) (h : List (Ev V)) (x : Ev V) : run i cfg (h ++ [x]) = step i cfg (run i cfg h) x := by simp [run, List.foldl_append]

/-- When the scheduler gives up on an engine, the engine has stopped and its last replies have arrived.
(task_scheduler.py:293-296: it waits 5 seconds after it was told that the engine is gone.) -/
def Settled (i : Interp V) (cfg : Sched.Config) (h : List (Ev V)) : Prop :=
  ∀ p e q, h = p ++ .strandTimer e :: q → e ∈ (run i cfg p).sched.strandTimers → (run i cfg p).outbox e = [] ∧ ((run i cfg p).dead e = true ∨ (run i cfg p).inbox e = [])

theorem Settled.snoc {i : Interp V} {cfg : Sched.Config} {h : List (Ev V)} {x : Ev V} (hs : Settled i cfg (h ++ [x])) : Settled i cfg h :=
  fun p e q hq => hs p e (q ++ [x]) (by rw [hq]; simp)

/-- what is with a living engine is what the scheduler assigned to it -/
def Holds (s : Sys V) : Prop := ∀ e m, ((s.outbox e).map (·.1)).count m ≤ (Sched.assigned e s.sched.trace).count m ∧
  (s.dead e = false → ((s.outbox e).map (·.1)).count m + (s.inbox e).count m = (Sched.assigned e s.sched.trace).count m)

/-- an event that is no reply -/
theorem Holds.dispatch {cfg : Sched.Config} {s : Sys V} (h : Holds s) (ev : Sched.Event) (hf : Sched.FreshIn s.sched ev) (hl : Sched.LoadInv cfg s.sched)
    (hl' : Sched.LoadInv cfg (Sched.step cfg s.sched ev)) (hj : Sched.JobInv (Sched.step cfg s.sched ev)) (hev : ∀ e m ok dm, ev ≠ .result e m ok dm)
    (hst : ∀ e, ev = .strandTimer e → e ∈ s.sched.strandTimers → s.outbox e = [] ∧ (s.dead e = true ∨ s.inbox e = [])) (cur : Option (Outcome V)) : Holds (dispatch cfg s ev cur) := by
  obtain ⟨r, ht, hk, _, _⟩ := facts cfg s.sched ev hf
  have hd : (Sched.step cfg s.sched ev).trace.drop s.sched.trace.length = r := by rw [ht]; simp
  intro e m
  show ((s.outbox e).map (·.1)).count m ≤ (Sched.assigned e (Sched.step cfg s.sched ev).trace).count m ∧
    (s.dead e = false → ((s.outbox e).map (·.1)).count m + (s.inbox e ++ ((Sched.step cfg s.sched ev).trace.drop s.sched.trace.length).filterMap (sentTo e)).count m
      = (Sched.assigned e (Sched.step cfg s.sched ev).trace).count m)
  rw [hd]
  have ext : (∀ o ∈ r, Sched.isReceived o = false) → (∀ m, Sched.Obs.stranded e m ∉ r) →
      ((s.outbox e).map (·.1)).count m ≤ (Sched.assigned e (Sched.step cfg s.sched ev).trace).count m ∧
      (s.dead e = false → ((s.outbox e).map (·.1)).count m + (s.inbox e ++ r.filterMap (sentTo e)).count m = (Sched.assigned e (Sched.step cfg s.sched ev).trace).count m) := by
    intro h1 h2
    rw [ht, assigned_ext e _ r h1 h2, List.count_append, List.count_append]
    have := h e m
    exact ⟨by omega, fun hdd => by have := this.2 hdd; omega⟩
  cases hk with
  | reply e' m' ok dm r' h' _ _ => exact absurd h' (hev _ _ _ _)
  | quiet _ h' =>
    refine ext (notReceived_of_notBack h') fun m' hm' => ?_
    have := h' _ hm'
    simp [Sched.isBack] at this
  | strand e' hev' he h1 h2 _ =>
    by_cases hee : e' = e
    · subst hee
      have hns : ∀ m', Sched.Obs.send e' m' ∉ r := by
        intro m' hm'
        obtain ⟨p, q, hpq⟩ := List.append_of_mem hm'
        have hsplit : (Sched.step cfg s.sched ev).trace = (s.sched.trace ++ p) ++ .send e' m' :: q := by rw [ht, hpq]; simp
        have hreg := (hj.sent _ _ _ _ hsplit).1
        have h3 := hl'.once e'
        have h4 : 0 < s.sched.trace.count (.unregistered e') := List.count_pos_iff.2 (hl.strand e' he)
        rw [hsplit] at h3
        simp only [Sched.Registered, List.count_append] at hreg h3
        omega
      obtain ⟨ho, hi⟩ := hst e' hev' he
      rw [ho]
      refine ⟨by simp, fun hdd => ?_⟩
      have hi : s.inbox e' = [] := by rcases hi with hi | hi; · rw [hdd] at hi; cases hi
                                      · exact hi
      have h0 : Sched.assigned e' s.sched.trace = [] := by
        rw [← List.length_eq_zero_iff]
        refine Nat.le_zero.1 (length_le_of_count _ [] fun x => ?_)
        have := (h e' x).2 hdd
        rw [ho, hi] at this
        simp at this ⊢
        omega
      rw [ht, assigned_nil e' _ h0 r hns, hi]
      have : r.filterMap (sentTo e') = [] := by
        refine List.filterMap_eq_nil_iff.2 fun o ho => ?_
        cases o with
        | send e2 m2 =>
          have : e2 ≠ e' := fun he => hns m2 (he ▸ ho)
          simp [sentTo, this]
        | _ => rfl
      rw [this]
      simp
    · exact ext h1 fun m' hm' => hee (h2 _ _ hm').symm

theorem Holds.deliver {cfg : Sched.Config} {s : Sys V} (h : Holds s) (e : Sched.Engine) (m : MsgId) (o : Outcome V) (rest : List (MsgId × Outcome V)) (ok dm : Bool)
    (ho : s.outbox e = (m, o) :: rest) (hf : Sched.FreshIn s.sched (.result e m ok dm)) (cur : Option (Outcome V)) :
    Holds (LB.dispatch cfg { s with outbox := upd s.outbox e rest } (.result e m ok dm) cur) := by
  obtain ⟨r, ht, hk, _, _⟩ := facts cfg s.sched _ hf
  have hd : (Sched.step cfg s.sched (.result e m ok dm)).trace.drop s.sched.trace.length = r := by rw [ht]; simp
  have ⟨r', hr, hnb⟩ : ∃ r', r = .received e m ok dm :: r' ∧ ∀ x ∈ r', Sched.isBack x = false := by
    cases hk with
    | reply e' m' ok dm r' h hr hb => cases h; exact ⟨r', hr, hb⟩
    | strand e' h => cases h
    | quiet h _ => exact absurd rfl (h _ _ _ _)
  have htr : (Sched.step cfg s.sched (.result e m ok dm)).trace = (s.sched.trace ++ [.received e m ok dm]) ++ r' := by rw [ht, hr]; simp
  intro e' m'
  show ((upd s.outbox e rest e').map (·.1)).count m' ≤ (Sched.assigned e' (Sched.step cfg s.sched _).trace).count m' ∧
    (s.dead e' = false → ((upd s.outbox e rest e').map (·.1)).count m' + (s.inbox e' ++ ((Sched.step cfg s.sched _).trace.drop s.sched.trace.length).filterMap (sentTo e')).count m'
      = (Sched.assigned e' (Sched.step cfg s.sched _).trace).count m')
  have hfm : r.filterMap (sentTo e') = r'.filterMap (sentTo e') := by rw [hr]; rfl
  rw [hd, hfm, htr, assigned_ext e' _ r' (notReceived_of_notBack hnb) (fun x hx => by have := hnb _ hx; simp [Sched.isBack] at this), List.count_append, List.count_append,
    Sched.assigned_snoc]
  have := h e' m'
  dsimp only
  unfold upd
  by_cases he : e = e'
  · subst he
    rw [ho] at this
    simp only [if_true, List.map_cons, List.count_cons] at this ⊢
    rw [List.count_erase]
    refine ⟨?_, fun hdd => ?_⟩
    · split at this <;> rename_i hm <;> simp [hm] <;> omega
    · have := this.2 hdd
      split at this <;> rename_i hm <;> simp [hm] <;> omega
  · rw [if_neg he, if_neg (fun h => he h.symm)]
    exact ⟨by omega, fun hdd => by have := this.2 hdd; omega⟩

theorem holds (i : Interp V) (cfg : Sched.Config) (h : List (Ev V)) (ha : (submits h).Nodup) (hb : (registers h).Nodup) (hs : Settled i cfg h) : Holds (run i cfg h) := by
  induction h using Sched.snoc_induction with
  | nil => intro e m; simp [run, init, Sched.assigned]
  | snoc h x ih =>
    have ha' : (submits h).Nodup := by rw [submits_snoc] at ha; exact (List.nodup_append.1 ha).1
    have hb' : (registers h).Nodup := by rw [registers_snoc] at hb; exact (List.nodup_append.1 hb).1
    have ih := ih ha' hb' hs.snoc
    have hi := inv i cfg h ha' hb'
    rw [submits_snoc] at ha
    rw [registers_snoc] at hb
    have quiet : ∀ (s : Sys V) ev, s.sched = (run i cfg h).sched → s.outbox = (run i cfg h).outbox → s.inbox = (run i cfg h).inbox → s.dead = (run i cfg h).dead →
        Sched.Fresh ((run i cfg h).evs ++ [ev]) → (∀ e m ok dm, ev ≠ .result e m ok dm) →
        (∀ e, ev = .strandTimer e → e ∈ s.sched.strandTimers → s.outbox e = [] ∧ (s.dead e = true ∨ s.inbox e = [])) → Holds (dispatch cfg s ev none) := by
      intro s ev h1 h2 h3 h4 hf hev hst
      have hbase := Sched.run_base cfg _ hf.snoc
      have hbase' := Sched.run_base cfg _ hf
      have hfr := hf.freshIn hbase.1 hbase.2
      have hj := Sched.run_jobInv cfg _ hf
      rw [Sched.run_snoc] at hj hbase'
      rw [← hi.sync, ← h1] at hfr hj hbase hbase'
      refine Holds.dispatch ?_ ev hfr hbase.1 hbase'.1 hj hev hst none
      intro e m
      rw [h1, h2, h3, h4]
      exact ih e m
    rw [run_snoc]
    cases x with
    | submit m sub t =>
      exact quiet { run i cfg h with task := _ } (.submit m sub) rfl rfl rfl rfl (fresh_of (by rw [hi.subs]; rfl) (by rw [hi.regs]; rfl) ha hb) (by simp) (by simp)
    | register e => exact quiet _ (.register e) rfl rfl rfl rfl (fresh_of (by rw [hi.subs]; rfl) (by rw [hi.regs]; rfl) ha hb) (by simp) (by simp)
    | unregister e => exact quiet _ (.unregister e) rfl rfl rfl rfl (fresh_of (by rw [hi.subs]; rfl) (by rw [hi.regs]; rfl) ha hb) (by simp) (by simp)
    | strandTimer e =>
      refine quiet _ (.strandTimer e) rfl rfl rfl rfl (fresh_of (by rw [hi.subs]; rfl) (by rw [hi.regs]; rfl) ha hb) (by simp) ?_
      intro e' he ht
      cases he
      exact hs h e [] rfl ht
    | jobTimer m tid => exact quiet _ (.jobTimer m tid) rfl rfl rfl rfl (fresh_of (by rw [hi.subs]; rfl) (by rw [hi.regs]; rfl) ha hb) (by simp) (by simp)
    | deliver e =>
      simp only [LB.step]
      split
      · exact ih
      · rename_i m o rest ho
        have hf : Sched.Fresh ((run i cfg h).evs ++ [.result e m (succeeded o) (!refused o)]) :=
          fresh_of (by rw [hi.subs]; exact List.append_nil _) (by rw [hi.regs]; exact List.append_nil _) ha' hb'
        have hbase := Sched.run_base cfg _ hf.snoc
        have hfr := hf.freshIn hbase.1 hbase.2
        rw [← hi.sync] at hfr
        exact ih.deliver e m o rest _ _ ho hfr _
    | crash e k =>
      intro e' m
      have := ih e' m
      show ((upd (run i cfg h).outbox e (((run i cfg h).outbox e).take k) e').map (·.1)).count m ≤ (Sched.assigned e' (run i cfg h).sched.trace).count m ∧
        (upd (run i cfg h).dead e true e' = false → ((upd (run i cfg h).outbox e (((run i cfg h).outbox e).take k) e').map (·.1)).count m + (upd (run i cfg h).inbox e [] e').count m
          = (Sched.assigned e' (run i cfg h).sched.trace).count m)
      unfold upd
      by_cases he : e' = e
      · subst he
        simp only [if_true]
        exact ⟨Nat.le_trans (((List.take_sublist _ _).map _).count_le m) this.1, by simp⟩
      · simp only [if_neg he]
        exact this
    | work e =>
      simp only [LB.step]
      split
      · exact ih
      · rename_i hdead
        have hdead : (run i cfg h).dead e = false := by simpa using hdead
        split
        · exact ih
        · rename_i m rest hin
          split
          · exact ih
          · rename_i t htm
            intro e' m'
            have := ih e' m'
            dsimp only
            unfold upd
            by_cases he : e' = e
            · subst he
              have := this.2 hdead
              rw [hin] at this
              simp only [if_true, List.map_append, List.count_append, List.map_cons, List.map_nil, List.count_cons, List.count_nil] at this ⊢
              exact ⟨by omega, fun _ => by omega⟩
            · simp only [if_neg he]
              exact this

/-- what the scheduler is told -/
theorem evs_result {i : Interp V} {cfg : Sched.Config} {h : List (Ev V)} (ha : (submits h).Nodup) (hb : (registers h).Nodup) (hs : Settled i cfg h) :
    Sched.Prompt cfg (run i cfg h).evs := by
  induction h using Sched.snoc_induction with
  | nil => intro p e m ok dm q hq; simp [run, init] at hq
  | snoc h x ih =>
    have ha' : (submits h).Nodup := by rw [submits_snoc] at ha; exact (List.nodup_append.1 ha).1
    have hb' : (registers h).Nodup := by rw [registers_snoc] at hb; exact (List.nodup_append.1 hb).1
    have ih := ih ha' hb' hs.snoc
    have hi := inv i cfg h ha' hb'
    have hh := holds i cfg h ha' hb' hs.snoc
    have add : ∀ ev, (∀ e m ok dm, ev = Sched.Event.result e m ok dm → m ∈ Sched.assigned e (run i cfg h).sched.trace) → Sched.Prompt cfg ((run i cfg h).evs ++ [ev]) := by
      intro ev hev p e m ok dm q hq
      rcases List.eq_nil_or_concat q with rfl | ⟨q', y, rfl⟩
      · have h1 := List.append_inj_right' hq rfl
        have h2 := List.append_inj_left' hq rfl
        rw [← h2, ← hi.sync]
        exact hev e m ok dm (List.singleton_inj.1 h1)
      · rw [List.concat_eq_append, ← List.cons_append, ← List.append_assoc] at hq
        exact ih p e m ok dm q' (List.append_inj_left' hq rfl)
    rw [run_snoc]
    cases x with
    | submit m sub t => exact add _ (by simp)
    | register e => exact add _ (by simp)
    | unregister e => exact add _ (by simp)
    | strandTimer e => exact add _ (by simp)
    | jobTimer m tid => exact add _ (by simp)
    | crash e k => exact ih
    | work e =>
      simp only [LB.step]
      split
      · exact ih
      · split
        · exact ih
        · split <;> exact ih
    | deliver e =>
      simp only [LB.step]
      split
      · exact ih
      · rename_i m o rest ho
        refine add _ fun e' m' ok dm heq => ?_
        cases heq
        have := (hh e m).1
        rw [ho] at this
        exact List.count_pos_iff.1 (Nat.lt_of_lt_of_le (by simp) this)

end IPP.LB
