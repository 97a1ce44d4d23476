import Verif.LB.Settled
/-!
# Nothing gets lost on a living engine
-/
namespace IPP.LB
open IPP.Namespace

variable {V : Type}

/-- outcome class of a reply, as the scheduler sees it -/
def isClass (m : MsgId) (ok dm : Bool) (x : MsgId × Outcome V) : Bool := decide (x.1 = m ∧ succeeded x.2 = ok ∧ (!refused x.2) = dm)

def Exact (s : Sys V) : Prop := ∀ e, s.dead e = false → ∀ m,
  (s.log.countP (fun l => l.engine = e ∧ l.msg = m) + (s.inbox e).count m = s.sched.trace.count (.send e m)) ∧
  ∀ ok dm, s.sched.trace.count (.received e m ok dm) + (s.outbox e).countP (isClass m ok dm) = s.log.countP (fun l => l.engine = e && isClass m ok dm (l.msg, l.out))

theorem count_received_zero {e : Sched.Engine} {m : MsgId} {ok dm : Bool} {r : List Sched.Obs} (h : ∀ o ∈ r, Sched.isReceived o = false) : r.count (.received e m ok dm) = 0 := by
  refine List.count_eq_zero.2 fun hm => ?_
  have := h _ hm
  simp [Sched.isReceived] at this

theorem Exact.dispatch {cfg : Sched.Config} {s : Sys V} (h : Exact s) (ev : Sched.Event) (hf : Sched.FreshIn s.sched ev) (hev : ∀ e m ok dm, ev ≠ .result e m ok dm)
    (cur : Option (Outcome V)) : Exact (dispatch cfg s ev cur) := by
  obtain ⟨r, ht, hk, _, _⟩ := facts cfg s.sched ev hf
  have hd : (Sched.step cfg s.sched ev).trace.drop s.sched.trace.length = r := by rw [ht]; simp
  have hnr : ∀ o ∈ r, Sched.isReceived o = false := by
    cases hk with
    | reply e m ok dm r' h _ _ => exact absurd h (hev _ _ _ _)
    | strand e _ _ h1 _ _ => exact h1
    | quiet _ h => exact notReceived_of_notBack h
  unfold LB.dispatch
  simp only [hd]
  intro e he m
  obtain ⟨h1, h2⟩ := h e he m
  dsimp only
  rw [ht]
  refine ⟨?_, fun ok dm => ?_⟩
  · rw [List.count_append, List.count_append, count_sentTo]; omega
  · rw [List.count_append, count_received_zero hnr]; exact h2 ok dm

theorem Exact.deliver {cfg : Sched.Config} {s : Sys V} (h : Exact s) (e : Sched.Engine) (m : MsgId) (o : Outcome V) (rest : List (MsgId × Outcome V))
    (ho : s.outbox e = (m, o) :: rest) (hf : Sched.FreshIn s.sched (.result e m (succeeded o) (!refused o))) (cur : Option (Outcome V)) :
    Exact (LB.dispatch cfg { s with outbox := upd s.outbox e rest } (.result e m (succeeded o) (!refused o)) cur) := by
  obtain ⟨r, ht, hk, _, _⟩ := facts cfg s.sched _ hf
  have hd : (Sched.step cfg s.sched (.result e m (succeeded o) (!refused o))).trace.drop s.sched.trace.length = r := by rw [ht]; simp
  have ⟨r', hr, hnb⟩ : ∃ r', r = .received e m (succeeded o) (!refused o) :: r' ∧ ∀ x ∈ r', Sched.isBack x = false := by
    cases hk with
    | reply e' m' ok dm r' h hr hb => cases h; exact ⟨r', hr, hb⟩
    | strand e' h => cases h
    | quiet h _ => exact absurd rfl (h _ _ _ _)
  unfold LB.dispatch
  simp only [hd]
  intro e' he' m'
  obtain ⟨h1, h2⟩ := h e' he' m'
  dsimp only
  rw [ht, hr]
  refine ⟨?_, fun ok dm => ?_⟩
  · rw [List.count_append, List.count_append, count_sentTo]
    omega
  · have h2 := h2 ok dm
    rw [List.count_append, List.count_cons, count_received_zero (notReceived_of_notBack hnb)]
    unfold upd
    by_cases he : e' = e
    · subst he
      rw [ho, List.countP_cons] at h2
      simp only [if_true]
      have : (Sched.Obs.received e' m (succeeded o) (!refused o) == Sched.Obs.received e' m' ok dm) = isClass m' ok dm (m, o) := by
        rw [Bool.eq_iff_iff]
        simp [isClass]
      rw [this]
      omega
    · have h0 : (Sched.Obs.received e m (succeeded o) (!refused o) == Sched.Obs.received e' m' ok dm) = false := by
        simp only [beq_eq_false_iff_ne, ne_eq, Sched.Obs.received.injEq, not_and]
        exact fun h => absurd h.symm he
      rw [h0, if_neg he]
      simpa using h2

theorem exact (i : Interp V) (cfg : Sched.Config) (h : List (Ev V)) (ha : (submits h).Nodup) (hb : (registers h).Nodup) : Exact (run i cfg h) := by
  induction h using Sched.snoc_induction with
  | nil => intro e _ m; exact ⟨rfl, fun _ _ => rfl⟩
  | snoc h x ih =>
    have ha' : (submits h).Nodup := by rw [submits_snoc] at ha; exact (List.nodup_append.1 ha).1
    have hb' : (registers h).Nodup := by rw [registers_snoc] at hb; exact (List.nodup_append.1 hb).1
    have ih := ih ha' hb'
    have hi := inv i cfg h ha' hb'
    rw [submits_snoc] at ha
    rw [registers_snoc] at hb
    have quiet : ∀ (s : Sys V) ev, s.sched = (run i cfg h).sched → s.outbox = (run i cfg h).outbox → s.inbox = (run i cfg h).inbox → s.dead = (run i cfg h).dead →
        s.log = (run i cfg h).log → Sched.Fresh ((run i cfg h).evs ++ [ev]) → (∀ e m ok dm, ev ≠ .result e m ok dm) → Exact (dispatch cfg s ev none) := by
      intro s ev h1 h2 h3 h4 h5 hf hev
      have hbase := Sched.run_base cfg _ hf.snoc
      have hfr := hf.freshIn hbase.1 hbase.2
      rw [← hi.sync, ← h1] at hfr
      refine Exact.dispatch ?_ ev hfr hev none
      intro e
      rw [h1, h2, h3, h4, h5]
      exact ih e
    rw [run_snoc]
    cases x with
    | submit m sub t =>
      exact quiet { run i cfg h with task := _ } (.submit m sub) rfl rfl rfl rfl rfl (fresh_of (by rw [hi.subs]; rfl) (by rw [hi.regs]; rfl) ha hb) (by simp)
    | register e => exact quiet _ (.register e) rfl rfl rfl rfl rfl (fresh_of (by rw [hi.subs]; rfl) (by rw [hi.regs]; rfl) ha hb) (by simp)
    | unregister e => exact quiet _ (.unregister e) rfl rfl rfl rfl rfl (fresh_of (by rw [hi.subs]; rfl) (by rw [hi.regs]; rfl) ha hb) (by simp)
    | strandTimer e => exact quiet _ (.strandTimer e) rfl rfl rfl rfl rfl (fresh_of (by rw [hi.subs]; rfl) (by rw [hi.regs]; rfl) ha hb) (by simp)
    | jobTimer m tid => exact quiet _ (.jobTimer m tid) rfl rfl rfl rfl rfl (fresh_of (by rw [hi.subs]; rfl) (by rw [hi.regs]; rfl) ha hb) (by simp)
    | deliver e =>
      simp only [LB.step]
      split
      · exact ih
      · rename_i m o rest ho
        have hf : Sched.Fresh ((run i cfg h).evs ++ [.result e m (succeeded o) (!refused o)]) :=
          fresh_of (by rw [hi.subs]; exact List.append_nil _) (by rw [hi.regs]; exact List.append_nil _) ha' hb'
        have hbase := Sched.run_base cfg _ hf.snoc
        have hfr := hf.freshIn hbase.1 hbase.2
        rw [← hi.sync] at hfr
        exact ih.deliver e m o rest ho hfr _
    | crash e k =>
      intro e' hd m
      have hd : upd (run i cfg h).dead e true e' = false := hd
      unfold upd at hd
      by_cases he : e' = e
      · subst he; simp at hd
      · rw [if_neg he] at hd
        show _ + (upd (run i cfg h).inbox e [] e').count m = _ ∧ ∀ ok dm, _ + (upd (run i cfg h).outbox e (((run i cfg h).outbox e).take k) e').countP _ = _
        unfold upd
        rw [if_neg he, if_neg he]
        exact ih e' hd m
    | work e =>
      simp only [LB.step]
      split
      · exact ih
      · split
        · exact ih
        · rename_i m rest hin
          split
          · exact ih
          · rename_i t htm
            intro e' he' m'
            obtain ⟨h1, h2⟩ := ih e' he' m'
            dsimp only
            unfold upd
            by_cases he : e' = e
            · subst he
              simp only [if_true, List.countP_append, List.countP_cons, List.countP_nil]
              refine ⟨?_, fun ok dm => ?_⟩
              · rw [hin, List.count_cons] at h1
                by_cases hm : m = m'
                · subst hm; simp at h1 ⊢; omega
                · simp [hm] at h1 ⊢; omega
              · have := h2 ok dm
                simp only [decide_true, Bool.true_and]
                omega
            · simp only [if_neg he, List.countP_append, List.countP_cons, List.countP_nil]
              have h0 : decide (e = e') = false := by simpa using fun h => he h.symm
              refine ⟨?_, fun ok dm => ?_⟩
              · have : ¬ (e = e' ∧ m = m') := fun hc => he hc.1.symm
                simp [this]
                simpa using h1
              · rw [h0]
                simpa using h2 ok dm

end IPP.LB
