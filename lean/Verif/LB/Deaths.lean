import Verif.LB.Props
import Verif.Sched.Once
/-!
# Tasks and engines that die
-/
namespace IPP.Sched

theorem mem_run (cfg : Config) (o : Obs) (a b : List Event) (hf : Fresh (a ++ b)) (h : o ∈ (run cfg a).trace) : o ∈ (run cfg (a ++ b)).trace := by
  induction b using snoc_induction with
  | nil => simpa using h
  | snoc b ev ih =>
    rw [← List.append_assoc] at hf ⊢
    have hb := run_base cfg _ hf.snoc
    rw [run_snoc]
    exact step_pres (mem_closed cfg ev _) _ (ih hf.snoc) (hf.freshIn hb.1 hb.2)

/-- the scheduler knows when an engine is gone -/
theorem unregistered_in (cfg : Config) (evs : List Event) (e : Engine) (hf : Fresh (evs ++ [.unregister e])) (h : Obs.registered e ∈ (run cfg evs).trace) :
    Obs.unregistered e ∈ (run cfg (evs ++ [.unregister e])).trace := by
  have hb := run_base cfg _ hf.snoc
  have hfr := hf.freshIn hb.1 hb.2
  by_cases ht : e ∈ (run cfg evs).targets
  · rw [run_snoc]
    refine Hoare.final (I := fun s => Obs.unregistered e ∈ s.trace) (P := fun s => s = run cfg evs) ?_ rfl
    unfold handle unregisterEngine emit
    refine Hoare.getS fun s hs => ?_
    subst hs
    split
    · rename_i hn
      rw [List.idxOf?_eq_none_iff] at hn
      exact absurd ht hn
    · refine Hoare.modS fun s' hs' => Hoare.modS fun s2 hs2 => ?_
      have h2 : Obs.unregistered e ∈ s2.trace := by subst hs2; simp
      refine Hoare.lookupE (fun _ s h => h ▸ h2) fun p hp => ?_
      refine Hoare.ite (fun _ => Hoare.modS_last fun s h => h ▸ h2) fun _ => ?_
      refine Hoare.lookupE (fun _ s h => h ▸ h2) fun p hp => ?_
      refine Hoare.modS fun s3 hs3 => ?_
      have h3 : Obs.unregistered e ∈ s3.trace := hs3 ▸ h2
      refine Hoare.lookupE (fun _ s h => h ▸ h3) fun p hp => ?_
      exact Hoare.modS_last fun s h => h ▸ h3
  · have h1 : ¬ Registered e (run cfg evs).trace := fun hr => ht ((registered_iff hb.1 e).1 hr)
    unfold Registered at h1
    have h2 : 0 < (run cfg evs).trace.count (.registered e) := List.count_pos_iff.2 h
    exact mem_run cfg _ evs _ hf (List.count_pos_iff.1 (by omega))

theorem gone {cfg : Config} {evs : List Event} (hf : Fresh evs) {e : Engine} (h : Obs.unregistered e ∈ (run cfg evs).trace) : ¬ Registered e (run cfg evs).trace := by
  have h1 := (run_base cfg evs hf).1.once e
  have h2 : 0 < (run cfg evs).trace.count (.unregistered e) := List.count_pos_iff.2 h
  unfold Registered
  omega

/-- after the scheduler has dealt with the tasks of an engine that is gone, the engine has none, for ever -/
theorem stays_empty (cfg : Config) (a b : List Event) (e : Engine) (hf : Fresh (a ++ .strandTimer e :: b)) (ho : Orderly cfg (a ++ .strandTimer e :: b)) (hp : Prompt cfg (a ++ .strandTimer e :: b))
    (h : Obs.unregistered e ∈ (run cfg a).trace) : assigned e (run cfg (a ++ .strandTimer e :: b)).trace = [] := by
  induction b using snoc_induction with
  | nil =>
    exact no_task_stranded_partial cfg a e hf (Orderly.prefix ho) (Prompt.prefix hp) (gone (cfg := cfg) (Fresh.prefix hf) h)
  | snoc b ev ih =>
    rw [show a ++ .strandTimer e :: (b ++ [ev]) = (a ++ .strandTimer e :: b) ++ [ev] by simp] at *
    have ih := ih hf.snoc (Orderly.prefix ho) (Prompt.prefix hp)
    have h1 : Obs.unregistered e ∈ (run cfg (a ++ .strandTimer e :: b)).trace := mem_run cfg _ a _ hf.snoc h
    obtain ⟨r, hr, _⟩ := new_sends_assigned cfg _ ev hf
    rw [hr]
    have hns : ∀ m, Obs.send e m ∉ r := by
      intro m hm
      obtain ⟨c, d, hcd⟩ := List.append_of_mem hm
      have hsplit : (run cfg ((a ++ .strandTimer e :: b) ++ [ev])).trace = ((run cfg (a ++ .strandTimer e :: b)).trace ++ c) ++ .send e m :: d := by rw [hr, hcd]; simp
      have h2 := ((run_jobInv cfg _ hf).sent _ _ _ _ hsplit).1
      have h3 := (run_base cfg _ hf).1.once e
      have h4 : 0 < (run cfg (a ++ .strandTimer e :: b)).trace.count (.unregistered e) := List.count_pos_iff.2 h1
      rw [hsplit] at h3
      simp only [Registered, List.count_append] at h2 h3
      omega
    exact LB.assigned_nil e _ ih r hns

/-- a task is only taken back as refused when the engine said so -/
theorem refusal_received (cfg : Config) (evs : List Event) (hf : Fresh evs) (e : Engine) (m : MsgId) (h : Obs.retry e m .unmet ∈ (run cfg evs).trace) :
    ∃ ok, Obs.received e m ok false ∈ (run cfg evs).trace := by
  refine run_inv cfg evs hf (fun s => Obs.retry e m .unmet ∈ s.trace → ∃ ok, Obs.received e m ok false ∈ s.trace) (by simp) (fun ev _ => ?_) h
  intro s s' hm ih
  have simple : ∀ {o : Obs} {t : List Obs}, t = s.trace ++ [o] → o ≠ .retry e m .unmet → Obs.retry e m .unmet ∈ t → ∃ ok, Obs.received e m ok false ∈ t := by
    rintro o t rfl ho h
    rcases List.mem_append.1 h with h | h
    · obtain ⟨ok, h⟩ := ih h
      exact ⟨ok, List.mem_append_left _ h⟩
    · exact absurd (List.mem_singleton.1 h).symm ho
  have simple2 : ∀ {o o' : Obs} {t : List Obs}, t = s.trace ++ [o] ++ [o'] → o ≠ .retry e m .unmet → o' ≠ .retry e m .unmet → Obs.retry e m .unmet ∈ t → ∃ ok, Obs.received e m ok false ∈ t := by
    rintro o o' t rfl ho ho' h
    rcases List.mem_append.1 h with h | h
    · obtain ⟨ok, h⟩ := simple rfl ho h
      exact ⟨ok, List.mem_append_left _ h⟩
    · exact absurd (List.mem_singleton.1 h).symm ho'
  have hrec : ∀ {o e' m' ok dm}, IsReply ev s o e' m' ok dm → o ≠ .retry e m .unmet := by
    intro o e' m' ok dm ho
    rcases ho with ⟨rfl, _⟩ | ⟨rfl, _⟩ <;> simp
  cases hm with
  | book hs => rw [hs.trace]; exact ih
  | fail s' m' why hs hok => exact simple (o := .fail m' why) (by rw [← hs.trace]; rfl) (by simp)
  | send m' j idx target => exact simple (sentState_trace ..) (by simp)
  | register e' => exact simple rfl (by simp)
  | unregister e' => exact simple rfl (by simp)
  | strand e' he => exact ih
  | submit m' sub => exact simple rfl (by simp)
  | submitJob m' sub j => exact simple rfl (by simp)
  | recv e' m' ok dm o ho => exact simple (recvBase_trace ..) (hrec ho)
  | recvDec e' m' o r ho => exact simple (recvBase_trace ..) (hrec ho)
  | recvRetry e' m' o r s' ho hr ht =>
    obtain ⟨p, j, _, _, _, rfl⟩ := takeBack_some ht
    exact simple2 (o := o) (o' := .retry e' m' .failure) (by simp only [recvBase_trace]) (hrec ho) (by simp)
  | recvUnmet e' m' ok o s' ho ht =>
    obtain ⟨p, j, _, _, _, rfl⟩ := takeBack_some ht
    simp only [recvBase_trace]
    intro h
    rcases List.mem_append.1 h with h | h
    · obtain ⟨ok, h⟩ := simple rfl (hrec ho) h
      exact ⟨ok, List.mem_append_left _ h⟩
    · have := List.mem_singleton.1 h
      cases this
      rcases ho with ⟨rfl, _⟩ | ⟨_, _, hd, _⟩
      · exact ⟨ok, by simp⟩
      · cases hd
  | recvRelay e' m' ok o r ho => exact simple2 (o := o) (o' := .relay e' m' ok) (by simp only [relayState, recvBase_trace]) (hrec ho) (by simp)
  | popPending => exact ih
  | complete => exact ih
  | failedBy => exact ih

end IPP.Sched

namespace IPP.LB
open IPP.Namespace

variable {V : Type}

theorem two_le_countP {A : Type} (p : A → Bool) : ∀ (L : List A) (a b : A), a ∈ L → b ∈ L → a ≠ b → p a = true → p b = true → 2 ≤ L.countP p
  | [], _, _, ha, _, _, _, _ => by cases ha
  | x :: L, a, b, ha, hb, hne, pa, pb => by
    rw [List.countP_cons]
    rcases List.mem_cons.1 ha with ha | ha
    · rcases List.mem_cons.1 hb with hb | hb
      · exact absurd (ha.trans hb.symm) hne
      · have : 0 < L.countP p := List.countP_pos_iff.2 ⟨b, hb, pb⟩
        rw [← ha, pa, if_pos rfl]
        omega
    · rcases List.mem_cons.1 hb with hb | hb
      · have : 0 < L.countP p := List.countP_pos_iff.2 ⟨a, ha, pa⟩
        rw [← hb, pb, if_pos rfl]
        omega
      · have := two_le_countP p L a b ha hb hne pa pb
        omega

/-! ## One execution per engine -/

/-- **Each engine executes a task at most once**, also when engines die, refuse it or fail. -/
theorem executed_once_partial (i : Interp V) (cfg : Sched.Config) (h : List (Ev V)) (hd : Distinct h) (hu : Usual cfg h) (hs : Settled i cfg h) (e : Sched.Engine) (m : MsgId) :
    (run i cfg h).log.countP (fun l => l.engine = e ∧ l.msg = m) ≤ 1 := by
  have hi := inv i cfg h hd.1 hd.2
  have h1 := Sched.sent_once_partial cfg _ (fresh_evs (i := i) (cfg := cfg) hd) (orderly_of_usual hd hu) (evs_result hd.1 hd.2 hs) e m
  have h2 := hi.execs e m
  rw [hi.sync] at h2
  omega

/-! ## Events of the scheduler in histories of the system -/

theorem evs_snoc (i : Interp V) (cfg : Sched.Config) (s : Sys V) (x : Ev V) : ∃ r, (step i cfg s x).evs = s.evs ++ r ∧
    (∀ e, x = .register e → r = [.register e]) ∧ (∀ e, x = .unregister e → r = [.unregister e]) ∧ ∀ e, x = .strandTimer e → r = [.strandTimer e] := by
  cases x with
  | work e =>
    refine ⟨[], ?_, by simp, by simp, by simp⟩
    simp only [step]
    split
    · simp
    · split
      · simp
      · split <;> simp
  | deliver e =>
    simp only [step]
    split
    · exact ⟨[], by simp, by simp, by simp, by simp⟩
    · exact ⟨_, rfl, by simp, by simp, by simp⟩
  | crash e k => exact ⟨[], by simp [step], by simp, by simp, by simp⟩
  | submit m sub t => exact ⟨_, rfl, by simp, by simp, by simp⟩
  | register e => exact ⟨_, rfl, by simp, by simp, by simp⟩
  | unregister e => exact ⟨_, rfl, by simp, by simp, by simp⟩
  | strandTimer e => exact ⟨_, rfl, by simp, by simp, by simp⟩
  | jobTimer m t => exact ⟨_, rfl, by simp, by simp, by simp⟩

theorem evs_append (i : Interp V) (cfg : Sched.Config) (a b : List (Ev V)) : ∃ r, (run i cfg (a ++ b)).evs = (run i cfg a).evs ++ r := by
  induction b using Sched.snoc_induction with
  | nil => exact ⟨[], by simp⟩
  | snoc b x ih =>
    obtain ⟨r, hr⟩ := ih
    rw [← List.append_assoc, run_snoc]
    obtain ⟨r', hr', _⟩ := evs_snoc i cfg (run i cfg (a ++ b)) x
    exact ⟨r ++ r', by rw [hr', hr]; simp⟩

theorem Distinct.prefix {a b : List (Ev V)} (h : Distinct (a ++ b)) : Distinct a := by
  constructor
  · have := h.1; unfold submits at this; rw [List.filterMap_append] at this; exact (List.nodup_append.1 this).1
  · have := h.2; unfold registers at this; rw [List.filterMap_append] at this; exact (List.nodup_append.1 this).1

theorem register_evs {i : Interp V} {cfg : Sched.Config} {h : List (Ev V)} (hd : Distinct h) {e : Sched.Engine} (he : Ev.register e ∈ h) : Sched.Event.register e ∈ (run i cfg h).evs := by
  have hi := inv i cfg h hd.1 hd.2
  have : e ∈ registers h := List.mem_filterMap.2 ⟨_, he, rfl⟩
  rw [← hi.regs] at this
  obtain ⟨ev, h1, h2⟩ := List.mem_filterMap.1 this
  cases ev <;> simp [Sched.Event.regId] at h2
  exact h2 ▸ h1

/-- The scheduler has been told that engine `e` is gone, and has dealt with its tasks. -/
def Buried (e : Sched.Engine) (h : List (Ev V)) : Prop := ∃ p q r, h = p ++ .unregister e :: q ++ .strandTimer e :: r ∧ Ev.register e ∈ p

theorem buried_empty (i : Interp V) (cfg : Sched.Config) (h : List (Ev V)) (hd : Distinct h) (ho : Sched.Orderly cfg (run i cfg h).evs) (hp : Sched.Prompt cfg (run i cfg h).evs)
    (e : Sched.Engine) (hb : Buried e h) : Sched.assigned e (Sched.run cfg (run i cfg h).evs).trace = [] ∧ ¬ Sched.Registered e (Sched.run cfg (run i cfg h).evs).trace := by
  obtain ⟨p, q, r, rfl, hreg⟩ := hb
  have hf := fresh_evs (i := i) (cfg := cfg) hd
  -- the scheduler's events
  obtain ⟨r1, h1⟩ := evs_append i cfg (p ++ [.unregister e]) q
  obtain ⟨r2, h2⟩ := evs_append i cfg (p ++ [.unregister e] ++ q ++ [.strandTimer e]) r
  have h3 : (run i cfg (p ++ [.unregister e])).evs = (run i cfg p).evs ++ [.unregister e] := by rw [run_snoc]; rfl
  have h4 : (run i cfg (p ++ [.unregister e] ++ q ++ [.strandTimer e])).evs = (run i cfg (p ++ [.unregister e] ++ q)).evs ++ [.strandTimer e] := by rw [run_snoc]; rfl
  have hall : (run i cfg (p ++ .unregister e :: q ++ .strandTimer e :: r)).evs = ((run i cfg p).evs ++ [.unregister e] ++ r1) ++ .strandTimer e :: r2 := by
    rw [show p ++ .unregister e :: q ++ .strandTimer e :: r = p ++ [.unregister e] ++ q ++ [.strandTimer e] ++ r by simp, h2, h4, h1, h3]
    simp
  rw [hall] at hf ho hp ⊢
  have hfp : Sched.Fresh ((run i cfg p).evs ++ [.unregister e]) := by
    have : Sched.Fresh (((run i cfg p).evs ++ [.unregister e]) ++ (r1 ++ .strandTimer e :: r2)) := by simpa using hf
    exact Sched.Fresh.prefix this
  have hdp : Distinct p := by
    have : Distinct (p ++ (.unregister e :: q ++ .strandTimer e :: r)) := by simpa using hd
    exact this.prefix
  have hr0 := registered_in cfg _ (fresh_evs (i := i) (cfg := cfg) hdp) e (register_evs hdp hreg)
  have hu0 := Sched.unregistered_in cfg _ e hfp hr0
  have hu1 : Sched.Obs.unregistered e ∈ (Sched.run cfg ((run i cfg p).evs ++ [.unregister e] ++ r1)).trace := Sched.mem_run cfg _ _ r1 (Sched.Fresh.prefix hf) hu0
  exact ⟨Sched.stays_empty cfg _ r2 e hf ho hp hu1, Sched.gone hf (Sched.mem_run cfg _ _ _ hf hu1)⟩

/-! ## No task is forgotten -/

/-- **No task is forgotten, also when engines die**: tasks have no message dependencies, the scheduler has been told of each engine that died and has dealt with its tasks, and all other engines have done
and reported what they were sent. Then each submitted task has been answered, or each engine that is left and on which it may run has executed it, and no execution has ended well: it was refused, or
it failed (with an exception, or because the engine died) and the task has retries left. -/
theorem answered_or_tried_deaths_partial (i : Interp V) (cfg : Sched.Config) (h : List (Ev V)) (hd : Distinct h) (hr : Sched.InRange cfg) (hn : ∀ m sub t, Ev.submit m sub t ∈ h → Sched.NoDeps sub)
    (hs : Settled i cfg h) (hgone : ∀ e, (run i cfg h).dead e = true → Ev.register e ∈ h → Buried e h)
    (hidle : ∀ e, (run i cfg h).outbox e = [] ∧ ((run i cfg h).dead e = true ∨ (run i cfg h).inbox e = []))
    (m : MsgId) (sub : Sched.Submission) (t : Task V) (hm : Ev.submit m sub t ∈ h) :
    answers m (run i cfg h) = 1 ∨
    ((∀ e, Ev.register e ∈ h → Ev.unregister e ∉ h → (sub.targets ≠ [] ∧ e ∉ sub.targets) ∨ ∃ l ∈ (run i cfg h).log, l.engine = e ∧ l.msg = m) ∧
      ∀ l ∈ (run i cfg h).log, l.msg = m → (∃ err, l.out = .raised err ∧ (err = .user "UnmetDependency" ∨ 0 < sub.retries)) ∨ ((run i cfg h).dead l.engine = true ∧ 0 < sub.retries)) := by
  have hi := inv i cfg h hd.1 hd.2
  have hf := fresh_evs (i := i) (cfg := cfg) hd
  have hind : Sched.Independent (run i cfg h).evs := by
    intro m' sub' hm'
    obtain ⟨t', ht'⟩ := (hi.subev m' sub').1 hm'
    exact hn m' sub' t' ht'
  have hprompt : Sched.Prompt cfg (run i cfg h).evs := evs_result hd.1 hd.2 hs
  have ho : Sched.Orderly cfg (run i cfg h).evs := .inr ⟨hind, hr⟩
  have hholds : Holds (run i cfg h) := holds i cfg h hd.1 hd.2 hs
  have hev : Sched.Event.submit m sub ∈ (run i cfg h).evs := (hi.subev m sub).2 ⟨t, hm⟩
  have hsub := submitted_in cfg _ hf m sub (hn m sub t hm) hev
  have hex := exact i cfg h hd.1 hd.2
  have hasg : ∀ e, Sched.assigned e (Sched.run cfg (run i cfg h).evs).trace = [] := by
    intro e
    cases hde : (run i cfg h).dead e with
    | false =>
      rw [← List.length_eq_zero_iff, ← hi.sync]
      refine Nat.le_zero.1 (length_le_of_count _ [] fun x => ?_)
      have := (hholds e x).2 hde
      have h2 : (run i cfg h).inbox e = [] := by rcases (hidle e).2 with h2 | h2; · rw [hde] at h2; cases h2
                                                 · exact h2
      rw [h2, (hidle e).1] at this
      simp at this ⊢
      omega
    | true =>
      by_cases hre : Ev.register e ∈ h
      · exact (buried_empty i cfg h hd ho hprompt e (hgone e hde hre)).1
      · refine assigned_nil e [] rfl (Sched.run cfg (run i cfg h).evs).trace fun m' hm' => ?_
        have hm'' : Sched.Obs.send e m' ∈ (Sched.run cfg (run i cfg h).evs).trace := hm'
        obtain ⟨a, b, hab⟩ := List.append_of_mem hm''
        have h1 := ((Sched.run_jobInv cfg _ hf).sent _ _ _ _ hab).1
        have h2 : Sched.Obs.registered e ∈ (Sched.run cfg (run i cfg h).evs).trace := by
          rw [hab]; exact List.mem_append_left _ (List.count_pos_iff.1 (by unfold Sched.Registered at h1; omega))
        have h3 := (Sched.run_base cfg _ hf).2 _ h2
        have h4 : e ∈ (run i cfg h).evs.filterMap Sched.Event.regId := List.mem_filterMap.2 ⟨_, h3, rfl⟩
        rw [hi.regs] at h4
        obtain ⟨x, hx, hx2⟩ := List.mem_filterMap.1 h4
        cases x <;> simp at hx2
        exact hre (hx2 ▸ hx)
  have hcnt := hi.cnt m
  rcases Nat.eq_zero_or_pos (Sched.replies m (run i cfg h).sched.trace) with h0 | h0
  · right
    rw [hi.sync] at h0
    have hrel : Sched.relays m (Sched.run cfg (run i cfg h).evs).trace = 0 := Nat.le_zero.1 (h0 ▸ Sched.relays_le_replies m _)
    have hlive : ∀ e, Ev.register e ∈ h → Ev.unregister e ∉ h → (run i cfg h).dead e = false := by
      intro e he hne
      cases hde : (run i cfg h).dead e with
      | false => rfl
      | true =>
        obtain ⟨p, q, r, hpq, _⟩ := hgone e hde he
        exact absurd (by rw [hpq]; simp) hne
    refine ⟨fun e he hne => ?_, fun l hl hlm => ?_⟩
    · have hreg1 := registered_in cfg _ hf e (register_evs hd he)
      have hreg : Sched.Registered e (Sched.run cfg (run i cfg h).evs).trace := by
        unfold Sched.Registered
        have h1 : 0 < (Sched.run cfg (run i cfg h).evs).trace.count (.registered e) := List.count_pos_iff.2 hreg1
        have h2 : (Sched.run cfg (run i cfg h).evs).trace.count (.unregistered e) = 0 := by
          refine List.count_eq_zero.2 fun h3 => ?_
          exact hne (hi.unre e ((Sched.run_base cfg _ hf).2 _ h3))
        omega
      have hde := hlive e he hne
      have hin : (run i cfg h).inbox e = [] := by rcases (hidle e).2 with h2 | h2; · rw [hde] at h2; cases h2
                                                  · exact h2
      rcases Sched.no_engine_idles_partial cfg _ hf hind hr hprompt m sub hev h0 (fun e' h' => by rw [hasg e'] at h'; cases h') e hreg with ⟨h1, h2⟩ | ⟨c, h1⟩ | h1
      · rw [hasg e] at h2; simp at h2; omega
      · right
        have h2 := (Sched.run_jobInv cfg _ hf).retr e m c h1
        have h3 := (hex e hde m).1
        rw [hin, hi.sync] at h3
        have h4 : 0 < (Sched.run cfg (run i cfg h).evs).trace.count (.send e m) := List.count_pos_iff.2 h2
        simp only [List.count_nil] at h3
        obtain ⟨l, hl, hp⟩ := List.countP_pos_iff.1 (show 0 < List.countP (fun l => decide (l.engine = e ∧ l.msg = m)) (run i cfg h).log by omega)
        simp at hp
        exact ⟨l, hl, hp.1, hp.2⟩
      · exact .inl h1
    · have hfa := hprompt.faithful hf
      have hfail : 0 < Sched.failures m (Sched.run cfg (run i cfg h).evs).trace → 0 < sub.retries := by
        intro h7
        rcases Nat.eq_zero_or_pos sub.retries with h8 | h8
        · have := Sched.too_many_failures_relayed cfg _ hf hfa m sub hsub (by omega)
          omega
        · exact h8
      cases hde : (run i cfg h).dead l.engine with
      | false =>
        left
        have h3 := (hex l.engine hde m).2 (succeeded l.out) (!refused l.out)
        rw [(hidle l.engine).1] at h3
        have h4 : 0 < (run i cfg h).log.countP (fun l' => decide (l'.engine = l.engine) && isClass m (succeeded l.out) (!refused l.out) (l'.msg, l'.out)) :=
          List.countP_pos_iff.2 ⟨l, hl, by simp [isClass, hlm]⟩
        simp only [List.countP_nil, Nat.add_zero] at h3
        have h5 : Sched.Obs.received l.engine m (succeeded l.out) (!refused l.out) ∈ (Sched.run cfg (run i cfg h).evs).trace := by
          rw [← hi.sync]; exact List.count_pos_iff.1 (by omega)
        cases hout : l.out with
        | ok r =>
          rw [hout] at h5
          obtain ⟨p, q, hpq⟩ := List.append_of_mem h5
          rcases Sched.success_relayed_at_once cfg _ hf hfa p q l.engine m hpq with h6 | ⟨q', h6⟩
          · exfalso
            have : Sched.relays m p ≤ Sched.relays m (Sched.run cfg (run i cfg h).evs).trace := by rw [hpq]; unfold Sched.relays; rw [List.countP_append]; omega
            omega
          · exfalso
            have : 0 < Sched.relays m (Sched.run cfg (run i cfg h).evs).trace := List.countP_pos_iff.2 ⟨.relay l.engine m true, by rw [hpq, h6]; simp, by simp⟩
            omega
        | raised err =>
          refine ⟨err, rfl, ?_⟩
          by_cases herr : err = .user "UnmetDependency"
          · exact .inl herr
          · right
            rw [hout] at h5
            have h6 : refused (Outcome.raised err : Outcome V) = false := decide_eq_false herr
            rw [h6] at h5
            exact hfail (List.countP_pos_iff.2 ⟨_, h5, by simp [succeeded]⟩)
      | true =>
        have hsend : Sched.Obs.send l.engine m ∈ (Sched.run cfg (run i cfg h).evs).trace := by
          have h1 := hi.execs l.engine m
          have h2 : 0 < (run i cfg h).log.countP (fun l' => l'.engine = l.engine ∧ l'.msg = m) := List.countP_pos_iff.2 ⟨l, hl, by simp [hlm]⟩
          rw [hi.sync] at h1
          exact List.count_pos_iff.1 (by omega)
        rcases Sched.sent_accounted_partial cfg _ hf ho hprompt l.engine m hsend with h1 | ⟨c, h1⟩ | h1
        · rw [hasg] at h1; cases h1
        · cases c with
          | failure =>
            right
            refine ⟨rfl, ?_⟩
            have h2 := Sched.retried_at_most cfg _ hf hfa m sub hsub
            have h3 : 0 < Sched.retried m (Sched.run cfg (run i cfg h).evs).trace := List.countP_pos_iff.2 ⟨_, h1, by simp⟩
            omega
          | unmet =>
            left
            obtain ⟨ok, h2⟩ := Sched.refusal_received cfg _ hf l.engine m h1
            have h3 : 0 < gotRefusals l.engine m (run i cfg h).sched.trace := by
              rw [hi.sync]
              exact List.countP_pos_iff.2 ⟨_, h2, by simp⟩
            have h4 := hi.refs l.engine m
            obtain ⟨l', hl', hp'⟩ := List.countP_pos_iff.1 (show 0 < (run i cfg h).log.countP (fun l' => l'.engine = l.engine ∧ l'.msg = m ∧ refused l'.out = true) by omega)
            simp at hp'
            have h5 := executed_once_partial i cfg h hd (.inr ⟨hn, hr⟩) hs l.engine m
            have h6 : l' = l := by
              refine Classical.byContradiction fun hne => ?_
              have := two_le_countP (fun x : Exec V => decide (x.engine = l.engine ∧ x.msg = m)) _ l l' hl hl' (Ne.symm hne) (by simp [hlm]) (by simp [hp'.1, hp'.2.1])
              omega
            subst h6
            cases hout : l'.out with
            | ok r => rw [hout] at hp'; simp [refused] at hp'
            | raised err =>
              rw [hout] at hp'
              exact ⟨err, rfl, .inl (of_decide_eq_true hp'.2.2)⟩
        · exact absurd h0 h1
  · left
    have h1 := Sched.at_most_one_reply_partial cfg _ hf ho hprompt m
    rw [← hi.sync] at h1
    unfold answers
    omega

end IPP.LB
