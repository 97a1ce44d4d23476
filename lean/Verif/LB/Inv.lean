import Verif.LB.Lemmas
/-!
# The invariants of load-balanced tasks
-/
namespace IPP.LB
open IPP.Namespace

variable {V : Type}

/-! ## one event of the scheduler -/

inductive Kind (ev : Sched.Event) (s : Sched.State) (r : List Sched.Obs) : Prop
  | reply (e : Sched.Engine) (m : MsgId) (ok dm : Bool) (r' : List Sched.Obs) (hev : ev = .result e m ok dm) (hr : r = .received e m ok dm :: r') (h : ∀ o ∈ r', Sched.isBack o = false)
  | strand (e : Sched.Engine) (hev : ev = .strandTimer e) (he : e ∈ s.strandTimers) (h1 : ∀ o ∈ r, Sched.isReceived o = false) (h2 : ∀ e' m, Sched.Obs.stranded e' m ∈ r → e' = e)
    (h3 : ∀ m, Sched.Obs.stranded e m ∈ r → m ∈ (s.pending e).getD [])
  | quiet (hev : ∀ e m ok dm, ev ≠ .result e m ok dm) (h : ∀ o ∈ r, Sched.isBack o = false)

theorem facts (cfg : Sched.Config) (s : Sched.State) (ev : Sched.Event) (hf : Sched.FreshIn s ev) :
    ∃ r, (Sched.step cfg s ev).trace = s.trace ++ r ∧ Kind ev s r ∧ (∀ e m ok, Sched.Obs.relay e m ok ∈ r → ev = .result e m ok true ∨ (ev = .strandTimer e ∧ Sched.Obs.stranded e m ∈ r)) ∧
    ∀ e, Sched.Obs.registered e ∈ r → ev = .register e := by
  obtain ⟨r, h1, h2, h3⟩ := step_adds cfg s ev hf
  refine ⟨r, h1, ?_, h2, h3⟩
  cases Sched.adds cfg s ev hf with
  | reply e m ok dm h r' ht hr => exact .reply e m ok dm r' h (List.append_cancel_left (h1.symm.trans ht)) hr
  | strand e h he hs =>
    obtain ⟨r', k1, k2, k3, k4⟩ := hs
    have : r = r' := List.append_cancel_left (h1.symm.trans k1)
    refine .strand e h he (this ▸ k2) (this ▸ k4) fun m hm => ?_
    refine List.count_pos_iff.1 (Nat.lt_of_lt_of_le ?_ (k3 m))
    exact List.countP_pos_iff.2 ⟨_, this ▸ hm, by simp [Sched.isStrandedOf]⟩
  | quiet hq r' ht hr =>
    have : r = r' := List.append_cancel_left (h1.symm.trans ht)
    exact .quiet hq (this ▸ hr)

theorem notReceived_of_notBack {r : List Sched.Obs} (h : ∀ o ∈ r, Sched.isBack o = false) : ∀ o ∈ r, Sched.isReceived o = false := by
  intro o ho
  have := h o ho
  cases o <;> simp_all [Sched.isBack, Sched.isReceived]

theorem outstanding_ext (e : Sched.Engine) (tr : List Sched.Obs) : ∀ r : List Sched.Obs, (∀ o ∈ r, Sched.isReceived o = false) →
    Sched.outstanding e (tr ++ r) = Sched.outstanding e tr ++ r.filterMap (sentTo e) := by
  intro r
  induction r using Sched.snoc_induction with
  | nil => intro _; simp
  | snoc r o ih =>
    intro h
    have ih' := ih fun x hx => h x (by simp [hx])
    have ho := h o (by simp)
    rw [← List.append_assoc, Sched.outstanding_snoc, List.filterMap_append, ih']
    cases o with
    | send e' m => dsimp only; by_cases he : e' = e <;> simp [sentTo, he]
    | received => simp [Sched.isReceived] at ho
    | _ => simp [sentTo]

theorem assigned_ext (e : Sched.Engine) (tr : List Sched.Obs) : ∀ r : List Sched.Obs, (∀ o ∈ r, Sched.isReceived o = false) → (∀ m, Sched.Obs.stranded e m ∉ r) →
    Sched.assigned e (tr ++ r) = Sched.assigned e tr ++ r.filterMap (sentTo e) := by
  intro r
  induction r using Sched.snoc_induction with
  | nil => intro _ _; simp
  | snoc r o ih =>
    intro h h'
    have ih' := ih (fun x hx => h x (by simp [hx])) (fun m hm => h' m (by simp [hm]))
    have ho := h o (by simp)
    rw [← List.append_assoc, Sched.assigned_snoc, List.filterMap_append, ih']
    cases o with
    | send e' m => dsimp only; by_cases he : e' = e <;> simp [sentTo, he]
    | received => simp [Sched.isReceived] at ho
    | stranded e' m =>
      have he : e' ≠ e := fun he => h' m (by simp [he])
      simp [sentTo, he]
    | _ => simp [sentTo]

/-- without messages to `e` nothing is assigned to it that was not before -/
theorem assigned_nil (e : Sched.Engine) (tr : List Sched.Obs) (h0 : Sched.assigned e tr = []) : ∀ r : List Sched.Obs, (∀ m, Sched.Obs.send e m ∉ r) → Sched.assigned e (tr ++ r) = [] := by
  intro r
  induction r using Sched.snoc_induction with
  | nil => intro _; simpa using h0
  | snoc r o ih =>
    intro h
    have ih' := ih (fun m hm => h m (by simp [hm]))
    rw [← List.append_assoc, Sched.assigned_snoc, ih']
    cases o with
    | send e' m =>
      have he : e' ≠ e := fun he => h m (by simp [he])
      simp [he]
    | received e' m => dsimp only; split <;> simp
    | stranded e' m => dsimp only; split <;> simp
    | _ => rfl

theorem count_sentTo (e : Sched.Engine) (m : MsgId) (r : List Sched.Obs) : (r.filterMap (sentTo e)).count m = r.count (.send e m) := by
  induction r with
  | nil => rfl
  | cons o r ih =>
    rw [List.filterMap_cons, List.count_cons]
    cases o with
    | send e' m' =>
      by_cases he : e' = e
      · by_cases hm : m' = m <;> simp [sentTo, he, hm, List.count_cons, ih]
      · simp [sentTo, he, ih]
    | _ => simp [sentTo, ih]

theorem countP_toClient (cur : Option (Outcome V)) (m : MsgId) (r : List Sched.Obs) :
    (r.filterMap (toClient cur)).countP (fun x => x.1 = m) = Sched.replies m r := by
  unfold Sched.replies
  induction r with
  | nil => rfl
  | cons o r ih =>
    rw [List.filterMap_cons, List.countP_cons]
    cases o <;> simp [toClient, List.countP_cons, ih]

/-! ## the invariant -/

/-- refusals of `m` by `e` that the scheduler has got -/
def gotRefusals (e : Sched.Engine) (m : MsgId) (tr : List Sched.Obs) : Nat := tr.countP fun
  | .received e' m' _ false => e' = e && m' = m
  | _ => false

theorem gotRefusals_ext (e : Sched.Engine) (m : MsgId) (r : List Sched.Obs) (h : ∀ o ∈ r, Sched.isReceived o = false) : gotRefusals e m r = 0 := by
  refine List.countP_eq_zero.2 fun o ho => ?_
  have := h o ho
  cases o <;> simp_all [Sched.isReceived]

theorem gotRefusals_append (e : Sched.Engine) (m : MsgId) (a b : List Sched.Obs) : gotRefusals e m (a ++ b) = gotRefusals e m a + gotRefusals e m b := List.countP_append

/-- ids that the history submits, engines that it registers -/
def submits (h : List (Ev V)) : List MsgId := h.filterMap fun | .submit m _ _ => some m | _ => none
def registers (h : List (Ev V)) : List Sched.Engine := h.filterMap fun | .register e => some e | _ => none

structure Inv (i : Interp V) (cfg : Sched.Config) (h : List (Ev V)) (s : Sys V) : Prop where
  sync : s.sched = Sched.run cfg s.evs
  subs : s.evs.filterMap Sched.Event.subId = submits h
  regs : s.evs.filterMap Sched.Event.regId = registers h
  subev : ∀ m sub, Sched.Event.submit m sub ∈ s.evs ↔ ∃ t, Ev.submit m sub t ∈ h
  box : ∀ e m, ((s.outbox e).map (·.1)).count m + (s.inbox e).count m ≤ (Sched.outstanding e s.sched.trace).count m
  asked : ∀ p e m ok dm q, s.evs = p ++ .result e m ok dm :: q → m ∈ Sched.outstanding e (Sched.run cfg p).trace
  outb : ∀ e x, x ∈ s.outbox e → ∃ l ∈ s.log, l.engine = e ∧ l.msg = x.1 ∧ l.out = x.2
  cli : ∀ m o, (m, Final.reply o) ∈ s.client → ∃ l ∈ s.log, l.msg = m ∧ l.out = o ∧ refused o = false
  cnt : ∀ m, s.client.countP (fun x => x.1 = m) = Sched.replies m s.sched.trace
  tsk : ∀ m t, s.task m = some t → ∃ sub, Ev.submit m sub t ∈ h
  exe : ∀ l ∈ s.log, ∃ t, s.task l.msg = some t ∧ execute i l.before (toString l.msg) t = (l.after, l.started, l.out)
  execs : ∀ e m, s.log.countP (fun l => l.engine = e ∧ l.msg = m) + (s.inbox e).count m ≤ s.sched.trace.count (.send e m)
  refs : ∀ e m, gotRefusals e m s.sched.trace + (s.outbox e).countP (fun x => x.1 = m ∧ refused x.2 = true) ≤ s.log.countP (fun l => l.engine = e ∧ l.msg = m ∧ refused l.out = true)
  unre : ∀ e, Sched.Event.unregister e ∈ s.evs → Ev.unregister e ∈ h
  err : ∀ m, (m, Final.engineError) ∈ s.client → ∃ e, Ev.unregister e ∈ h ∧ Sched.Obs.send e m ∈ s.sched.trace
  fai : ∀ m why, (m, Final.failed why) ∈ s.client → Sched.Obs.fail m why ∈ s.sched.trace

theorem submits_snoc (h : List (Ev V)) (x : Ev V) : submits (h ++ [x]) = submits h ++ submits [x] := by simp [submits, List.filterMap_append]
theorem registers_snoc (h : List (Ev V)) (x : Ev V) : registers (h ++ [x]) = registers h ++ registers [x] := by simp [registers, List.filterMap_append]

/-- dispatching an event that is not a reply -/
theorem Inv.dispatch {i : Interp V} {cfg : Sched.Config} {h h' : List (Ev V)} {s : Sys V} (hi : Inv i cfg h s) (ev : Sched.Event) (hev : ∀ e m ok dm, ev ≠ .result e m ok dm)
    (hsub : submits h ++ [ev].filterMap Sched.Event.subId = submits h') (hreg : registers h ++ [ev].filterMap Sched.Event.regId = registers h')
    (hh : ∀ x ∈ h, x ∈ h') (hse : ∀ m sub, (∃ t, Ev.submit m sub t ∈ h') ↔ (∃ t, Ev.submit m sub t ∈ h) ∨ ev = .submit m sub)
    (hun : ∀ e, ev = .unregister e → Ev.unregister e ∈ h') (hf : Sched.Fresh (s.evs ++ [ev])) : Inv i cfg h' (dispatch cfg s ev none) := by
  have hb := Sched.run_base cfg s.evs hf.snoc
  have hfr := hf.freshIn hb.1 hb.2
  rw [← hi.sync] at hfr
  obtain ⟨r, ht, hk, hrel, _⟩ := facts cfg s.sched ev hfr
  have hnr : ∀ o ∈ r, Sched.isReceived o = false := by
    cases hk with
    | reply e m ok dm r' h _ _ => exact absurd h (hev _ _ _ _)
    | strand e _ _ h1 _ _ => exact h1
    | quiet _ h => exact notReceived_of_notBack h
  have hd : (Sched.step cfg s.sched ev).trace.drop s.sched.trace.length = r := by rw [ht]; simp
  unfold LB.dispatch
  simp only [hd]
  refine { sync := ?_, subs := ?_, regs := ?_, subev := ?_, box := ?_, asked := ?_, outb := hi.outb, cli := ?_, cnt := ?_, tsk := ?_, exe := hi.exe, execs := ?_, refs := ?_, unre := ?_, err := ?_, fai := ?_ }
  · show Sched.step cfg s.sched ev = _
    rw [Sched.run_snoc, ← hi.sync]
  · rw [List.filterMap_append, hi.subs, hsub]
  · rw [List.filterMap_append, hi.regs, hreg]
  · intro m sub
    rw [hse, ← hi.subev]
    simp [eq_comm]
  · intro e m
    dsimp only
    rw [ht, outstanding_ext e _ r hnr, List.count_append, List.count_append]
    have := hi.box e m
    omega
  · intro p e m ok dm q hq
    rcases List.eq_nil_or_concat q with rfl | ⟨q', x, rfl⟩
    · have := List.append_inj_right' hq rfl
      simp at this
      exact absurd this (hev _ _ _ _)
    · rw [List.concat_eq_append, ← List.cons_append, ← List.append_assoc] at hq
      exact hi.asked p e m ok dm q' (List.append_inj_left' hq rfl)
  · intro m o hm
    rcases List.mem_append.1 hm with hm | hm
    · exact hi.cli m o hm
    · obtain ⟨x, _, hx⟩ := List.mem_filterMap.1 hm
      cases x <;> simp [toClient] at hx
  · intro m
    dsimp only
    rw [List.countP_append, hi.cnt, countP_toClient, ht]
    exact (List.countP_append).symm
  · intro m t hm
    obtain ⟨sub, hm⟩ := hi.tsk m t hm
    exact ⟨sub, hh _ hm⟩
  · intro e m
    dsimp only
    rw [ht, List.count_append, List.count_append, count_sentTo]
    have := hi.execs e m
    omega
  · intro e m
    dsimp only
    rw [ht, gotRefusals_append, gotRefusals_ext e m r hnr]
    exact hi.refs e m
  · intro e he
    rcases List.mem_append.1 he with he | he
    · exact hh _ (hi.unre e he)
    · exact hun e (List.mem_singleton.1 he).symm
  · intro m hm
    rcases List.mem_append.1 hm with hm | hm
    · obtain ⟨e, h1, h2⟩ := hi.err m hm
      exact ⟨e, hh _ h1, by show Sched.Obs.send e m ∈ (Sched.step cfg s.sched ev).trace; rw [ht]; exact List.mem_append_left _ h2⟩
    · obtain ⟨x, hxr, hx⟩ := List.mem_filterMap.1 hm
      cases x with
      | relay e2 m2 ok2 =>
        simp [toClient] at hx
        subst hx
        rcases hrel e2 m2 ok2 hxr with h1 | ⟨h1, h2⟩
        · exact absurd h1 (hev _ _ _ _)
        · cases hk with
          | reply _ _ _ _ _ h _ _ => rw [h1] at h; cases h
          | quiet _ h => have := h _ h2; simp [Sched.isBack] at this
          | strand e3 h3 h4 _ _ h5 =>
            rw [h1] at h3
            cases h3
            have hu := hb.2 _ (by rw [← hi.sync]; exact (hi.sync ▸ hb.1).strand _ h4)
            have hp := h5 m2 h2
            refine ⟨e2, hh _ (hi.unre e2 hu), ?_⟩
            show Sched.Obs.send e2 m2 ∈ (Sched.step cfg s.sched ev).trace
            rw [ht]
            cases hpe : s.sched.pending e2 with
            | none => rw [hpe] at hp; simp at hp
            | some p =>
              rw [hpe] at hp
              exact List.mem_append_left _ ((hi.sync ▸ Sched.run_jobInv cfg s.evs hf.snoc).pend e2 p m2 hpe hp)
      | fail m2 why => simp [toClient] at hx
      | _ => simp [toClient] at hx
  · intro m why hm
    show Sched.Obs.fail m why ∈ (Sched.step cfg s.sched ev).trace
    rw [ht]
    rcases List.mem_append.1 hm with hm | hm
    · exact List.mem_append_left _ (hi.fai m why hm)
    · obtain ⟨x, hxr, hx⟩ := List.mem_filterMap.1 hm
      cases x with
      | fail m2 why2 =>
        simp [toClient] at hx
        obtain ⟨rfl, rfl⟩ := hx
        exact List.mem_append_right _ hxr
      | _ => simp [toClient] at hx

theorem fresh_of {evs : List Sched.Event} {ev : Sched.Event} {a : List MsgId} {b : List Sched.Engine} (h1 : evs.filterMap Sched.Event.subId ++ [ev].filterMap Sched.Event.subId = a)
    (h2 : evs.filterMap Sched.Event.regId ++ [ev].filterMap Sched.Event.regId = b) (ha : a.Nodup) (hb : b.Nodup) : Sched.Fresh (evs ++ [ev]) := by
  unfold Sched.Fresh
  rw [List.filterMap_append, List.filterMap_append, h1, h2]
  exact ⟨ha, hb⟩

theorem Inv.deliver {i : Interp V} {cfg : Sched.Config} {h : List (Ev V)} {s : Sys V} (hi : Inv i cfg h s) (e : Sched.Engine) (m : MsgId) (o : Outcome V) (rest : List (MsgId × Outcome V))
    (ho : s.outbox e = (m, o) :: rest) (ha : (submits h).Nodup) (hb' : (registers h).Nodup) :
    Inv i cfg h (LB.dispatch cfg { s with outbox := upd s.outbox e rest } (.result e m (succeeded o) (!refused o)) (some o)) := by
  have hf : Sched.Fresh (s.evs ++ [.result e m (succeeded o) (!refused o)]) :=
    fresh_of (by rw [hi.subs]; exact List.append_nil _) (by rw [hi.regs]; exact List.append_nil _) ha hb'
  have hb := Sched.run_base cfg s.evs hf.snoc
  have hfr := hf.freshIn hb.1 hb.2
  rw [← hi.sync] at hfr
  obtain ⟨r, ht, hk, hrel, _⟩ := facts cfg s.sched _ hfr
  have ⟨r', hr, hnb⟩ : ∃ r', r = .received e m (succeeded o) (!refused o) :: r' ∧ ∀ x ∈ r', Sched.isBack x = false := by
    cases hk with
    | reply e' m' ok dm r' h hr hb => cases h; exact ⟨r', hr, hb⟩
    | strand e' h => cases h
    | quiet h _ => exact absurd rfl (h _ _ _ _)
  have hnr := notReceived_of_notBack hnb
  have hd : (Sched.step cfg s.sched (.result e m (succeeded o) (!refused o))).trace.drop s.sched.trace.length = r := by rw [ht]; simp
  have htr : (Sched.step cfg s.sched (.result e m (succeeded o) (!refused o))).trace = (s.sched.trace ++ [.received e m (succeeded o) (!refused o)]) ++ r' := by rw [ht, hr]; simp
  have hfm : ∀ e', r.filterMap (sentTo e') = r'.filterMap (sentTo e') := by intro e'; rw [hr]; rfl
  have hmo : 0 < (Sched.outstanding e s.sched.trace).count m := by
    have := hi.box e m
    rw [ho] at this
    simp at this
    omega
  unfold LB.dispatch
  simp only [hd, hfm]
  refine { sync := ?_, subs := ?_, regs := ?_, subev := ?_, box := ?_, asked := ?_, outb := ?_, cli := ?_, cnt := ?_, tsk := hi.tsk, exe := hi.exe, execs := ?_, refs := ?_, unre := ?_, err := ?_, fai := ?_ }
  · show Sched.step cfg s.sched _ = _
    rw [Sched.run_snoc, ← hi.sync]
  · rw [List.filterMap_append, hi.subs]; exact List.append_nil _
  · rw [List.filterMap_append, hi.regs]; exact List.append_nil _
  · intro m' sub
    rw [← hi.subev]
    simp
  · intro e' m'
    dsimp only
    rw [htr, outstanding_ext e' _ r' hnr, List.count_append, List.count_append, Sched.outstanding_snoc]
    have := hi.box e' m'
    dsimp only
    unfold upd
    by_cases he : e = e'
    · subst he
      rw [ho] at this
      simp only [if_true, List.map_cons, List.count_cons] at this ⊢
      rw [List.count_erase]
      by_cases hm : m = m'
      · subst hm; simp at this ⊢; omega
      · have h1 : (m == m') = false := by simpa using hm
        rw [h1] at this ⊢
        simp at this ⊢
        omega
    · rw [if_neg he, if_neg (fun h => he h.symm)]
      omega
  · intro p e' m' ok dm q hq
    rcases List.eq_nil_or_concat q with rfl | ⟨q', x, rfl⟩
    · have h1 := List.append_inj_right' hq rfl
      have h2 := List.append_inj_left' hq rfl
      simp at h1
      obtain ⟨rfl, rfl, _⟩ := h1
      rw [← h2, ← hi.sync]
      exact List.count_pos_iff.1 hmo
    · rw [List.concat_eq_append, ← List.cons_append, ← List.append_assoc] at hq
      exact hi.asked p e' m' ok dm q' (List.append_inj_left' hq rfl)
  · intro e' x hx
    dsimp only at hx
    unfold upd at hx
    split at hx
    · rename_i he
      subst he
      exact hi.outb _ x (by rw [ho]; exact List.mem_cons_of_mem _ hx)
    · exact hi.outb e' x hx
  · intro m' o' hm
    rcases List.mem_append.1 hm with hm | hm
    · exact hi.cli m' o' hm
    · obtain ⟨x, hxr, hx⟩ := List.mem_filterMap.1 hm
      cases x with
      | relay e2 m2 ok2 =>
        simp [toClient] at hx
        obtain ⟨rfl, rfl⟩ := hx
        have := hrel e2 m2 ok2 hxr
        simp at this
        obtain ⟨_, rfl, _, hrf⟩ := this
        obtain ⟨l, hl, _, h2, h3⟩ := hi.outb e (m, o) (by rw [ho]; simp)
        exact ⟨l, hl, h2, h3, hrf⟩
      | fail m2 why => simp [toClient] at hx
      | _ => simp [toClient] at hx
  · intro m'
    dsimp only
    rw [List.countP_append, hi.cnt, countP_toClient, ht]
    exact (List.countP_append).symm
  · intro e' m'
    dsimp only
    rw [htr, List.count_append, List.count_append, List.count_append, count_sentTo]
    have := hi.execs e' m'
    have h0 : List.count (Sched.Obs.send e' m') [Sched.Obs.received e m (succeeded o) (!refused o)] = 0 := by simp
    omega
  · intro e' m'
    dsimp only
    rw [htr, gotRefusals_append, gotRefusals_append, gotRefusals_ext e' m' r' hnr]
    have := hi.refs e' m'
    unfold upd
    by_cases he : e = e'
    · subst he
      rw [ho, List.countP_cons] at this
      simp only [if_true]
      have h1 : gotRefusals e m' [Sched.Obs.received e m (succeeded o) (!refused o)] = if m = m' ∧ refused o = true then 1 else 0 := by
        unfold gotRefusals
        cases hro : refused o <;> by_cases hm : m = m' <;> simp [hm]
      rw [h1]
      simp only [decide_eq_true_eq] at this
      omega
    · have h1 : gotRefusals e' m' [Sched.Obs.received e m (succeeded o) (!refused o)] = 0 := by
        unfold gotRefusals
        cases hro : refused o <;> simp [he]
      rw [h1, if_neg (fun h => he h.symm)]
      omega
  · intro e' he
    rcases List.mem_append.1 he with he | he
    · exact hi.unre e' he
    · simp at he
  · intro m' hm
    rcases List.mem_append.1 hm with hm | hm
    · obtain ⟨e', h1, h2⟩ := hi.err m' hm
      exact ⟨e', h1, by show Sched.Obs.send e' m' ∈ (Sched.step cfg s.sched _).trace; rw [ht]; exact List.mem_append_left _ h2⟩
    · obtain ⟨x, hxr, hx⟩ := List.mem_filterMap.1 hm
      cases x <;> simp [toClient] at hx
  · intro m' why hm
    show Sched.Obs.fail m' why ∈ (Sched.step cfg s.sched _).trace
    rw [ht]
    rcases List.mem_append.1 hm with hm | hm
    · exact List.mem_append_left _ (hi.fai m' why hm)
    · obtain ⟨x, hxr, hx⟩ := List.mem_filterMap.1 hm
      cases x with
      | fail m2 why2 =>
        simp [toClient] at hx
        obtain ⟨rfl, rfl⟩ := hx
        exact List.mem_append_right _ hxr
      | _ => simp [toClient] at hx

theorem Inv.step {i : Interp V} {cfg : Sched.Config} {h : List (Ev V)} {s : Sys V} (hi : Inv i cfg h s) (x : Ev V) (ha : (submits (h ++ [x])).Nodup) (hb : (registers (h ++ [x])).Nodup) :
    Inv i cfg (h ++ [x]) (step i cfg s x) := by
  have grow : submits (h ++ [x]) = submits h → registers (h ++ [x]) = registers h → (∀ m sub t, x ≠ .submit m sub t) → ∀ s', Inv i cfg h s' → Inv i cfg (h ++ [x]) s' := by
    intro h1 h2 h3 s' hs
    exact { hs with
      subs := by rw [h1]; exact hs.subs
      regs := by rw [h2]; exact hs.regs
      subev := by
        intro m sub
        rw [hs.subev]
        constructor
        · rintro ⟨t, ht⟩; exact ⟨t, List.mem_append_left _ ht⟩
        · rintro ⟨t, ht⟩
          rcases List.mem_append.1 ht with ht | ht
          · exact ⟨t, ht⟩
          · exact absurd (List.mem_singleton.1 ht).symm (h3 _ _ _)
      unre := fun e he => List.mem_append_left _ (hs.unre e he)
      err := fun m hm => let ⟨e, h1, h2⟩ := hs.err m hm; ⟨e, List.mem_append_left _ h1, h2⟩
      tsk := fun m t hm => let ⟨sub, hm⟩ := hs.tsk m t hm; ⟨sub, List.mem_append_left _ hm⟩ }
  have hmem : ∀ y ∈ h, y ∈ h ++ [x] := fun y hy => List.mem_append_left _ hy
  rw [submits_snoc] at ha
  rw [registers_snoc] at hb
  cases x with
  | submit m sub t =>
    have hfr : m ∉ submits h := by
      intro hm
      have := List.nodup_append.1 ha
      exact this.2.2 m hm m (by simp [submits]) rfl
    have hnone : s.task m = none := by
      cases htm : s.task m with
      | none => rfl
      | some t' =>
        obtain ⟨sub', hs⟩ := hi.tsk m t' htm
        exact absurd (show m ∈ submits h from List.mem_filterMap.2 ⟨Ev.submit m sub' t', hs, rfl⟩) hfr
    have hi' : ∀ ev, ev = Sched.Event.submit m sub → Sched.Fresh (s.evs ++ [ev]) → Inv i cfg (h ++ [Ev.submit m sub t]) (LB.dispatch cfg s ev none) := by
      intro ev hev hf
      subst hev
      refine hi.dispatch _ (by simp) ?_ ?_ hmem ?_ (by simp) hf
      · rw [submits_snoc]; rfl
      · rw [registers_snoc]; rfl
      · intro m' sub'
        simp only [List.mem_append, List.mem_singleton, Ev.submit.injEq, Sched.Event.submit.injEq]
        constructor
        · rintro ⟨t', h1 | ⟨h1, h2, _⟩⟩
          · exact .inl ⟨t', h1⟩
          · exact .inr ⟨h1.symm, h2.symm⟩
        · rintro (⟨t', h1⟩ | ⟨h1, h2⟩)
          · exact ⟨t', .inl h1⟩
          · exact ⟨t, .inr ⟨h1.symm, h2.symm, rfl⟩⟩
    have := hi' _ rfl (fresh_of (by rw [hi.subs]; rfl) (by rw [hi.regs]; rfl) ha hb)
    show Inv i cfg _ (LB.dispatch cfg { s with task := fun x => if x = m then some t else s.task x } (.submit m sub) none)
    refine { this with tsk := ?_, exe := ?_ }
    · intro m' t' hm
      have hm' : (if m' = m then some t else s.task m') = some t' := hm
      split at hm'
      · rename_i he
        cases hm'
        subst he
        exact ⟨sub, by simp⟩
      · obtain ⟨sub', h1⟩ := hi.tsk m' t' hm'
        exact ⟨sub', hmem _ h1⟩
    · intro l hl
      obtain ⟨t', h1, h2⟩ := hi.exe l hl
      refine ⟨t', ?_, h2⟩
      show (if l.msg = m then some t else s.task l.msg) = some t'
      rw [if_neg]
      · exact h1
      · intro he; rw [he, hnone] at h1; cases h1
  | register e =>
    refine hi.dispatch (.register e) (by simp) (by rw [submits_snoc]; rfl) (by rw [registers_snoc]; rfl) hmem (by simp) (by simp) (fresh_of (by rw [hi.subs]; rfl) (by rw [hi.regs]; rfl) ha hb)
  | unregister e =>
    refine hi.dispatch (.unregister e) (by simp) (by rw [submits_snoc]; rfl) (by rw [registers_snoc]; rfl) hmem (by simp) (by simp) (fresh_of (by rw [hi.subs]; rfl) (by rw [hi.regs]; rfl) ha hb)
  | strandTimer e =>
    refine hi.dispatch (.strandTimer e) (by simp) (by rw [submits_snoc]; rfl) (by rw [registers_snoc]; rfl) hmem (by simp) (by simp) (fresh_of (by rw [hi.subs]; rfl) (by rw [hi.regs]; rfl) ha hb)
  | jobTimer m tid =>
    refine hi.dispatch (.jobTimer m tid) (by simp) (by rw [submits_snoc]; rfl) (by rw [registers_snoc]; rfl) hmem (by simp) (by simp) (fresh_of (by rw [hi.subs]; rfl) (by rw [hi.regs]; rfl) ha hb)
  | deliver e =>
    have hs : submits h ++ submits [Ev.deliver e (V := V)] = submits h := by simp [submits]
    have hr : registers h ++ registers [Ev.deliver e (V := V)] = registers h := by simp [registers]
    refine grow (by rw [submits_snoc, hs]) (by rw [registers_snoc, hr]) (by simp) _ ?_
    simp only [LB.step]
    split
    · exact hi
    · rename_i m o rest ho
      exact hi.deliver e m o rest ho (hs ▸ ha) (hr ▸ hb)
  | crash e k =>
    have hs : submits h ++ submits [Ev.crash e k (V := V)] = submits h := by simp [submits]
    have hr : registers h ++ registers [Ev.crash e k (V := V)] = registers h := by simp [registers]
    refine grow (by rw [submits_snoc, hs]) (by rw [registers_snoc, hr]) (by simp) _ ?_
    have sub : ∀ e', (upd s.outbox e ((s.outbox e).take k) e').Sublist (s.outbox e') ∧ (upd s.inbox e [] e').Sublist (s.inbox e') := by
      intro e'
      unfold upd
      split
      · rename_i he; subst he; exact ⟨List.take_sublist _ _, List.nil_sublist _⟩
      · exact ⟨List.Sublist.refl _, List.Sublist.refl _⟩
    refine { hi with box := ?_, outb := ?_, execs := ?_, refs := ?_ }
    · intro e' m
      have := hi.box e' m
      have h1 := ((sub e').1.map (·.1)).count_le m
      have h2 := (sub e').2.count_le m
      show (List.map (·.1) (upd s.outbox e _ e')).count m + (upd s.inbox e [] e').count m ≤ _
      exact Nat.le_trans (Nat.add_le_add h1 h2) this
    · intro e' x hx
      exact hi.outb e' x ((sub e').1.subset hx)
    · intro e' m
      have := hi.execs e' m
      have h2 := (sub e').2.count_le m
      show s.log.countP (fun l => decide (l.engine = e' ∧ l.msg = m)) + (upd s.inbox e [] e').count m ≤ s.sched.trace.count (.send e' m)
      omega
    · intro e' m
      have := hi.refs e' m
      have h1 := (sub e').1.countP_le (p := fun x => decide (x.1 = m ∧ refused x.2 = true))
      show gotRefusals e' m s.sched.trace + (upd s.outbox e _ e').countP _ ≤ s.log.countP (fun l => decide (l.engine = e' ∧ l.msg = m ∧ refused l.out = true))
      omega
  | work e =>
    have hs : submits h ++ submits [Ev.work e (V := V)] = submits h := by simp [submits]
    have hr : registers h ++ registers [Ev.work e (V := V)] = registers h := by simp [registers]
    refine grow (by rw [submits_snoc, hs]) (by rw [registers_snoc, hr]) (by simp) _ ?_
    simp only [LB.step]
    split
    · exact hi
    · split
      · exact hi
      · rename_i m rest hin
        split
        · exact hi
        · rename_i t htm
          refine { hi with box := ?_, outb := ?_, cli := ?_, exe := ?_, execs := ?_, refs := ?_ }
          · intro e' m'
            have := hi.box e' m'
            dsimp only
            unfold upd
            split
            · rename_i he
              subst he
              rw [hin] at this
              simp only [List.map_append, List.count_append, List.map_cons, List.map_nil, List.count_cons, List.count_nil] at this ⊢
              omega
            · exact this
          · intro e' x hx
            dsimp only at hx ⊢
            unfold upd at hx
            split at hx
            · rename_i he
              subst he
              rcases List.mem_append.1 hx with hx | hx
              · obtain ⟨l, hl, h1⟩ := hi.outb _ x hx
                exact ⟨l, List.mem_append_left _ hl, h1⟩
              · rw [List.mem_singleton.1 hx]
                exact ⟨_, List.mem_append_right _ (List.mem_singleton.2 rfl), rfl, rfl, rfl⟩
            · obtain ⟨l, hl, h1⟩ := hi.outb _ x hx
              exact ⟨l, List.mem_append_left _ hl, h1⟩
          · intro m' o hm
            obtain ⟨l, hl, h1⟩ := hi.cli m' o hm
            exact ⟨l, List.mem_append_left _ hl, h1⟩
          · intro l hl
            rcases List.mem_append.1 hl with hl | hl
            · exact hi.exe l hl
            · rw [List.mem_singleton.1 hl]
              exact ⟨t, htm, rfl⟩
          · intro e' m'
            have := hi.execs e' m'
            dsimp only
            rw [List.countP_append]
            unfold upd
            split
            · rename_i he
              subst he
              rw [hin] at this
              simp only [List.countP_cons, List.countP_nil, List.count_cons] at this ⊢
              by_cases hm : m = m' <;> simp [hm] at this ⊢ <;> omega
            · rename_i he
              simp only [List.countP_cons, List.countP_nil]
              have h0 : ¬ (e = e' ∧ m = m') := fun hc => he hc.1.symm
              simp [h0]
              simpa using hi.execs e' m'
          · intro e' m'
            have := hi.refs e' m'
            dsimp only
            rw [List.countP_append]
            unfold upd
            split
            · rename_i he
              subst he
              rw [List.countP_append]
              simp only [List.countP_cons, List.countP_nil, true_and] at this ⊢
              omega
            · rename_i he
              have h0 : ¬ (e = e' ∧ m = m' ∧ refused (execute i (s.ns e) (toString m) t).2.2 = true) := fun hc => he hc.1.symm
              simp only [List.countP_cons, List.countP_nil, h0, decide_false]
              simpa using this

theorem inv (i : Interp V) (cfg : Sched.Config) (h : List (Ev V)) (ha : (submits h).Nodup) (hb : (registers h).Nodup) : Inv i cfg h (run i cfg h) := by
  induction h using Sched.snoc_induction with
  | nil =>
    refine ⟨rfl, rfl, rfl, ?_, ?_, ?_, ?_, ?_, ?_, ?_, ?_, ?_, ?_, ?_, ?_, ?_⟩
    · intro m sub; simp [run, init]
    · intro e m; simp [run, init]
    · intro p e m ok dm q hq; simp [run, init] at hq
    · intro e x hx; simp [run, init] at hx
    · intro m o hx; simp [run, init] at hx
    · intro m; rfl
    · intro m t hx; simp [run, init] at hx
    · intro l hl; simp [run, init] at hl
    · intro e m; exact Nat.le_refl _
    · intro e m; exact Nat.le_refl _
    · intro m hx; simp [run, init] at hx
    · intro m hx; simp [run, init] at hx
    · intro m why hx; simp [run, init] at hx
  | snoc h x ih =>
    have ha' : (submits h).Nodup := by rw [submits_snoc] at ha; exact (List.nodup_append.1 ha).1
    have hb' : (registers h).Nodup := by rw [registers_snoc] at hb; exact (List.nodup_append.1 hb).1
    have : run i cfg (h ++ [x]) = step i cfg (run i cfg h) x := by simp [run, List.foldl_append]
    rw [this]
    exact (ih ha' hb').step x ha hb

end IPP.LB
