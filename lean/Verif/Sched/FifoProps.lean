import Verif.Sched.Fifo
import Verif.Sched.Violations

/-!
# C23: plain tasks are sent in the order of their submission
-/
namespace IPP.Sched

variable {cfg : Config} {s s' : State} {n : Nat}

/-- the invariant between handlers -/
abbrev OrdQ (s : State) : Prop := Ord s.queue s

theorem OrdQ.congr (h : OrdQ s) (ht : s'.trace = s.trace) (hw : WF s') (hj : s'.jobs = s.jobs) (hr : s'.retries = s.retries) (hg : s'.graph = s.graph)
    (hq : s'.queue = s.queue) : OrdQ s' := by
  unfold OrdQ
  rw [hq]
  exact Ord.congr h ht hw hj hr hg

theorem handleResult_fifo (e : Engine) (m : MsgId) (ok : Bool) {s₀ : State} (h : OrdQ s₀) :
    HoareE (fun s => s = s₀) (handleResult cfg n e m ok) (fun _ => OrdQ) AnyErr := by
  unfold handleResult
  refine HoareE.emit fun s hs => ?_
  subst hs
  have hd : Ord s.queue { s with trace := s.trace ++ [.relay e m ok] } := h.dull rfl
  refine HoareE.getS fun s₁ hs₁ => ?_
  subst hs₁
  refine HoareE.lookupE (fun _ _ _ => trivial) fun p _ => ?_
  refine HoareE.ite (fun _ => HoareE.bind (R := fun _ _ => False) (HoareE.throwE fun _ _ => trivial) fun _ _ h => h.elim) fun _ => ?_
  refine HoareE.modS fun s₂ hs₂ => ?_
  subst hs₂
  refine HoareE.ite (fun _ => ?_) fun _ => ?_ <;>
  · refine HoareE.lookupE (fun _ _ _ => trivial) fun c _ => ?_
    refine HoareE.modS fun s₃ hs₃ => ?_
    subst hs₃
    refine HoareE.modS fun s₄ hs₄ => ?_
    subst hs₄
    refine updateGraph_fifo (some m) ?_ (by simp)
    exact hd.congr rfl hd.wf rfl rfl rfl

theorem dispatchResult_fifo (e : Engine) (m : MsgId) (ok : Bool) {s₀ : State} (h : OrdQ s₀) :
    HoareE (fun s => s = s₀) (dispatchResult cfg n e m ok true) (fun _ => OrdQ) AnyErr := by
  unfold dispatchResult
  refine HoareE.getS fun s hs => ?_
  subst hs
  have rest : ∀ s₁, OrdQ s₁ → HoareE (fun s => s = s₁) (if true = true then do
      let r ← lookupE (s.retries m)
      if !ok ∧ r > 0 then
        modS fun s => { s with retries := upd s.retries m (some (r - 1)) }
        handleUnmet cfg n e m .failure
      else
        modS fun s => { s with retries := upd s.retries m none }
        handleResult cfg n e m ok
    else handleUnmet cfg n e m .unmet) (fun _ => OrdQ) AnyErr := by
    intro s₁ h1
    refine HoareE.ite (fun _ => ?_) fun hh => absurd rfl hh
    refine HoareE.lookupE (fun _ _ _ => trivial) fun r hr => ?_
    refine HoareE.ite (fun hc => ?_) fun _ => HoareE.modS fun s₂ h2 => ?_
    · have := h.ret m r hr
      omega
    · subst h2
      refine handleResult_fifo e m ok ⟨h1.wf, h1.plain, fun x r hx => ?_, h1.gr, h1.fifo, h1.nd, h1.sub, h1.opn, h1.rem⟩
      by_cases hxm : x = m
      · subst hxm
        simp [upd] at hx
      · simp only [upd, hxm, if_false] at hx
        exact h1.ret x r hx
  cases hi : s.targets.idxOf? e with
  | none => exact rest s h
  | some idx =>
    refine HoareE.modS fun s' hs => ?_
    subst hs
    refine rest _ (OrdQ.congr h rfl ⟨⟨?_, h.wf.1.2⟩, h.wf.2⟩ rfl rfl rfl rfl)
    simp [h.wf.1.1]

theorem registerEngine_fifo (e : Engine) {s₀ : State} (h : OrdQ s₀) (he : e ∉ s₀.targets) :
    HoareE (fun s => s = s₀) (registerEngine cfg n e) (fun _ => OrdQ) AnyErr := by
  unfold registerEngine
  refine HoareE.emit fun s hs => ?_
  subst hs
  have hd : Ord s.queue { s with trace := s.trace ++ [.registered e] } := h.dull rfl
  refine HoareE.modS fun s₁ hs₁ => ?_
  subst hs₁
  refine updateGraph_fifo none ?_ fun _ hnil => ?_
  · refine hd.congr rfl ⟨⟨?_, List.nodup_cons.mpr ⟨he, h.wf.1.2⟩⟩, h.wf.2⟩ rfl rfl rfl
    simp [h.wf.1.1]
  · have : 0 ∈ availableEngines cfg { s with
        trace := s.trace ++ [.registered e]
        targets := e :: s.targets
        loads := 0 :: s.loads
        completed := upd s.completed e (some [])
        failed := upd s.failed e (some [])
        pending := upd s.pending e (some []) } := by
      refine available_complete (e := e) rfl ?_
      by_cases h0 : cfg.hwm = 0
      · exact Or.inl h0
      · refine Or.inr ?_
        simp
        omega
    rw [hnil] at this
    cases this

theorem unregisterEngine_fifo (e : Engine) {s₀ : State} (h : OrdQ s₀) :
    HoareE (fun s => s = s₀) (unregisterEngine e) (fun _ => OrdQ) (fun _ => OrdQ) := by
  unfold unregisterEngine
  refine HoareE.getS fun s hs => ?_
  subst hs
  cases hi : s.targets.idxOf? e with
  | none => exact HoareE.throwE fun _ hs => hs ▸ h
  | some idx =>
    have hd : Ord s.queue { s with trace := s.trace ++ [.unregistered e] } := h.dull rfl
    have key : ∀ s' : State, s'.trace = s.trace ++ [.unregistered e] → s'.targets = s.targets.eraseIdx idx → s'.loads = s.loads.eraseIdx idx → s'.jobs = s.jobs → s'.queue = s.queue →
        s'.retries = s.retries → s'.graph = s.graph → OrdQ s' := by
      intro s' h0 h1 h2 h3 h4 h5 h6
      unfold OrdQ
      rw [h4]
      refine hd.congr h0 ⟨⟨?_, ?_⟩, ?_⟩ h3 h5 h6
      · rw [h1, h2, List.length_eraseIdx, List.length_eraseIdx, h.wf.1.1]
      · rw [h1]; exact h.wf.1.2.sublist (List.eraseIdx_sublist _ _)
      · rw [h3]; exact h.wf.2
    refine HoareE.emit fun s₁ hs => ?_
    subst hs
    refine HoareE.modS fun s₂ hs => ?_
    subst hs
    refine HoareE.lookupE (fun _ s hs => by subst hs; exact key _ rfl rfl rfl rfl rfl rfl rfl) fun p _ => ?_
    refine HoareE.ite (fun _ => HoareE.modS_last fun s hs => by subst hs; exact key _ rfl rfl rfl rfl rfl rfl rfl) fun _ => ?_
    refine HoareE.lookupE (fun _ s hs => by subst hs; exact key _ rfl rfl rfl rfl rfl rfl rfl) fun c _ => ?_
    refine HoareE.modS fun s₃ hs => ?_
    subst hs
    refine HoareE.lookupE (fun _ s hs => by subst hs; exact key _ rfl rfl rfl rfl rfl rfl rfl) fun f _ => ?_
    exact HoareE.modS_last fun s hs => by subst hs; exact key _ rfl rfl rfl rfl rfl rfl rfl

theorem strandedLoop_fifo {D : Prop} (hL : LocAt cfg D n) (hD : D) (e : Engine) (ms : List MsgId) : ∀ q, Enough L u (q + ms.length) n →
    HoareE (fun s => (Inv cfg D (top D [e] ms) s ∧ FInv L u q s) ∧ OrdQ s) (strandedLoop cfg n e ms) (fun _ => OrdQ) (fun _ _ => False) := by
  induction ms with
  | nil => intro q _; exact HoareE.pure fun _ h => h.2
  | cons m ms ih =>
    intro q hn
    simp only [List.length_cons] at hn
    have ih' := ih (q + 1) (by rw [Nat.add_right_comm, Nat.add_assoc]; exact hn)
    unfold strandedLoop
    refine HoareE.getS fun s h => ?_
    obtain ⟨⟨h, hF⟩, hd⟩ := h
    obtain ⟨a1, a2, a3, a4, a5⟩ := h.sin e (by simp [top])
    refine HoareE.lookupE (fun hn => absurd hn a4) fun p hp => ?_
    have hpa := h.ps e p hp
    refine HoareE.ite (fun hm => ?_) fun hm => ?_
    · rw [hpa] at hm
      refine HoareE.emit fun s₁ hs₁ => ?_
      subst hs₁
      refine HoareE.bind (R := fun _ s => (Inv cfg D (top D [e] ms) s ∧ FInv L u (q + 1) s) ∧ OrdQ s) ?_ fun _ => ih'
      have hF' : FInv L u q { s₁ with trace := s₁.trace ++ [.stranded e m] } := ⟨hF.ids, hF.grn, hF.pen, hF.len, hF.un, hF.ql⟩
      have hd' : OrdQ { s₁ with trace := s₁.trace ++ [.stranded e m] } := hd.dull rfl
      refine logErrorsE_pres ((((dispatchResult_loc hL (e := e) (m := m) (ok := false) (dm := true) (A' := ms) h (Or.inr rfl) hm ?_).and
        ((dispatchResult_fuel (hn.mono (Nat.le_refl _) (by omega)) e m false true).at hF')).and (dispatchResult_fifo e m false hd')).conseq
          (fun s hs => ⟨⟨hs, hs⟩, hs⟩) (fun _ _ h => h) (fun _ _ h => absurd hD (h.1.1 h.1.2.1).1))
      intro e' he' x hx
      simp only [List.mem_singleton] at he'
      subst he'
      rw [assigned_snoc] at hx
      simp only [if_true] at hx
      have hnd := h.nod e'
      have hxm : x ≠ m := fun hh => by
        rw [hh] at hx
        exact (hnd.mem_erase_iff.mp hx).1 rfl
      have := a5 x (List.mem_of_mem_erase hx)
      rcases List.mem_cons.mp this with h1 | h1
      · exact absurd h1 hxm
      · exact h1
    · refine ih'.at ⟨⟨h.left ?_, hF.up⟩, hd⟩
      intro e' he' x hx
      simp only [List.mem_singleton] at he'
      subst he'
      have := a5 x hx
      rcases List.mem_cons.mp this with h1 | h1
      · rw [h1, ← hpa] at hx; exact absurd hx hm
      · exact h1

theorem handleStranded_fifo {D : Prop} (hL : LocAt cfg D n) (hD : D) (e : Engine) (hn : Enough L u (q + L) n) {s₀ : State} (h : Inv cfg D (top D [] A) s₀) (he : e ∈ s₀.strandTimers)
    (hF : FInv L u q s₀) (hd : OrdQ s₀) :
    HoareE (fun s => s = { s₀ with strandTimers := s₀.strandTimers.erase e }) (handleStranded cfg n e) (fun _ => OrdQ) AnyErr := by
  unfold handleStranded
  refine HoareE.getS fun s hs => ?_
  subst hs
  obtain ⟨_, _, hc, hf, hp⟩ := h.stt e he
  refine HoareE.lookupE (fun hn => absurd hn hp) fun p hp' => ?_
  have hpa := h.ps e p hp'
  obtain ⟨a, b⟩ := hF.pen e p hp'
  have hl : p.length ≤ L := Nat.le_trans (nodup_length_le a b) hF.len
  have h1 := h.strand he
  rw [← hpa] at h1
  refine HoareE.bind (((strandedLoop_fifo hL hD e p q (hn.mono (Nat.le_refl _) (by omega))).at ⟨⟨h1, ⟨hF.ids, hF.grn, hF.pen, hF.len, hF.un, hF.ql⟩⟩,
    OrdQ.congr hd rfl hd.wf rfl rfl rfl rfl⟩).conseq (fun _ h => h) (fun _ _ h => h) (fun _ _ h => h.elim)) fun _ => ?_
  refine HoareE.getS fun s₁ h₁ => ?_
  refine HoareE.lookupE (fun _ _ _ => trivial) fun c hc => ?_
  refine HoareE.modS fun s₃ hs₃ => ?_
  subst hs₃
  refine HoareE.lookupE (fun _ _ _ => trivial) fun f hf => ?_
  refine HoareE.modS_last fun s hs => ?_
  subst hs
  exact OrdQ.congr h₁ rfl h₁.wf rfl rfl rfl rfl

/-- Histories of plain tasks: they may run anywhere at once (no targets, no dependencies) and are not tried twice (no retries, no refusals); engines may come, go and die
and tasks may time out at any time. -/
def Plain (evs : List Event) : Prop :=
  (∀ m sub, Event.submit m sub ∈ evs → PlainSub sub) ∧ ∀ e m ok dm, Event.result e m ok dm ∈ evs → dm = true

theorem Plain.independent {evs : List Event} (h : Plain evs) : Independent evs := fun m sub hm => (h.1 m sub hm).2.2

theorem mem_subIds {tr : List Obs} {m : MsgId} : m ∈ subIds tr ↔ ∃ sub, Obs.submitted m sub ∈ tr := by
  unfold subIds
  rw [List.mem_filterMap]
  constructor
  · rintro ⟨o, ho, h⟩
    cases o <;> simp at h
    subst h
    exact ⟨_, ho⟩
  · rintro ⟨sub, h⟩
    exact ⟨_, h, rfl⟩

theorem run_fifo (hP : InRange cfg) (evs : List Event) (hf : Fresh evs) (hpl : Plain evs) (hp : Prompt cfg evs) : OrdQ (run cfg evs) := by
  induction evs using snoc_induction with
  | nil =>
    exact {
      wf := ⟨⟨rfl, List.nodup_nil⟩, fun _ _ h => nomatch h⟩
      plain := fun _ _ h => nomatch h
      ret := fun _ _ h => nomatch h
      gr := fun _ => rfl
      fifo := fun p e m q h => by
        have h : ([] : List Obs) = p ++ .send e m :: q := h
        simp at h
      nd := List.nodup_nil
      sub := List.Sublist.slnil
      opn := fun _ h => nomatch h
      rem := fun _ _ h => nomatch h }
  | snoc evs ev ih =>
    have hpl' : Plain evs := ⟨fun m sub hm => hpl.1 m sub (by simp [hm]), fun e m ok dm hm => hpl.2 e m ok dm (by simp [hm])⟩
    have ho := ih hf.snoc hpl' hp.snoc
    have h := run_loc (D := True) (Or.inl trivial) (fun _ => hP) evs hf.snoc (fun _ => hpl'.independent) hp.snoc
    have hq := run_work (D := True) trivial hP evs hf.snoc hpl'.independent hp.snoc
    have hw := h.wf trivial
    have hb := run_base cfg evs hf.snoc
    have hfr := hf.freshIn hb.1 hb.2
    have hpm : ∀ e m ok dm, ev = .result e m ok dm → m ∈ assigned e (run cfg evs).trace := fun e m ok dm hev => hp evs e m ok dm [] (by rw [hev])
    clear hp ih hf hb
    rw [run_snoc]
    have hok := run_ok (cfg := cfg) evs
    have hL := locAt (cfg := cfg) (D := True) (Or.inl trivial) (fun _ => hP) (fuelFor (run cfg evs))
    have h2 := handle_fuel (cfg := cfg) (n := fuelFor (run cfg evs)) (run cfg evs) ev hok (Nat.le_refl _)
    have hE := enough_fuelFor (run cfg evs) (Nat.le_refl _)
    have hE0 : ∀ q, q ≤ (run cfg evs).queue.length + (run cfg evs).allIds.length → Enough (run cfg evs).allIds.length (run cfg evs).allIds.length q (fuelFor (run cfg evs)) := fun q hq =>
      (hE.mono (by omega) (by omega)).monoL (by omega)
    generalize hn : fuelFor (run cfg evs) = n at *
    have hstep : step cfg (run cfg evs) ev = (handle cfg n ev (run cfg evs)).2 := by unfold step; rw [hn]
    rw [hstep]
    generalize run cfg evs = s at *
    cases ev with
    | submit m sub =>
      have hps := hpl.1 m sub (by simp)
      have hfi := h.fresh hfr
      have hl := (dispatchSubmission_loc hL m sub fun _ => hps.2.2).at ⟨h, hfr⟩
      have hwk := dispatchSubmission_fifo (cfg := cfg) (n := n) m sub hps ho (fun hh => by obtain ⟨sub', h1⟩ := mem_subIds.mp hh; exact hfr sub' h1)
        (fun hh => h.alf m hh (h.unk m hfi.1)) (fun hav x hx hop => by
          obtain ⟨_, j, hj, _⟩ := h.qin x (by simpa [top] using hx)
          obtain ⟨i, hi⟩ := List.exists_mem_of_ne_nil _ hav
          have hlt := available_lt hi
          have hlt' : i < s.loads.length := by rw [hw.1.1]; exact hlt
          have hroom : Room cfg s s.targets[i] := by
            refine ⟨s.loads[i], ?_, ?_⟩
            · refine List.mem_of_getElem? (i := i) ?_
              rw [List.getElem?_zip_eq_some]
              exact ⟨List.getElem?_eq_getElem hlt, List.getElem?_eq_getElem hlt'⟩
            · have := mem_available hi
              simpa [List.getD, List.getElem?_eq_getElem hlt'] using this
          cases hjr : j.removed with
          | true => exact ho.rem x j hj hjr hop
          | false =>
            obtain ⟨p1, p2, _, _⟩ := ho.plain x j hj
            rcases hq x hx j hj hjr _ trivial hroom with h1 | h1
            · rw [p2] at h1; cases h1
            · exact h1.1 p1)
      exact ((hl.and h2).and hwk).final (fun _ _ h => h.2) (fun _ _ h => absurd trivial (h.1.1 h.1.2.1).1) ⟨⟨rfl, rfl⟩, rfl⟩
    | register e =>
      have hl := (registerEngine_loc hL e).at ⟨h, hfr⟩
      have hwk := registerEngine_fifo (cfg := cfg) (n := n) e ho (h.fre e hfr).2.1
      exact ((hl.and h2).and hwk).final (fun _ _ h => h.2) (fun _ _ h => absurd trivial (h.1.1 h.1.2.1).1) ⟨⟨rfl, rfl⟩, rfl⟩
    | unregister e => exact (unregisterEngine_fifo e ho).final (fun _ _ h => h) (fun _ _ h => h) rfl
    | result e m ok dm =>
      have hm : m ∈ assigned e s.trace := hpm e m ok dm rfl
      have hdm := hpl.2 e m ok dm (by simp)
      subst hdm
      have hl : HoareE (fun s' => s' = s) (handle cfg n (.result e m ok true)) (fun _ => Inv cfg True (top True [] [])) (TErr cfg True [] []) := by
        refine HoareE.emit fun s₁ hs₁ => ?_
        subst hs₁
        exact dispatchResult_loc hL h (Or.inl ⟨ok, true, rfl⟩) hm (by simp)
      have hwk : HoareE (fun s' => s' = s) (handle cfg n (.result e m ok true)) (fun _ => OrdQ) AnyErr := by
        refine HoareE.emit fun s₁ hs₁ => ?_
        subst hs₁
        exact dispatchResult_fifo e m ok (ho.dull rfl)
      exact ((hl.and h2).and hwk).final (fun _ _ h => h.2) (fun _ _ h => absurd trivial (h.1.1 h.1.2.1).1) ⟨⟨rfl, rfl⟩, rfl⟩
    | strandTimer e =>
      have hwk : HoareE (fun s' => s' = s) (handle cfg n (.strandTimer e)) (fun _ => OrdQ) (fun _ _ => False) := by
        refine HoareE.getS fun s₁ hs₁ => ?_
        subst hs₁
        refine HoareE.ite (fun he => ?_) fun _ => HoareE.pure fun s hs' => hs' ▸ ho
        refine HoareE.modS fun s₂ hs₂ => ?_
        subst hs₂
        exact ((handleStranded_loc hL e (hE0 _ (Nat.le_refl _)) h he hok).and (handleStranded_fifo hL trivial e (hE0 _ (Nat.le_refl _)) h he hok ho)).conseq
          (fun _ h => ⟨h, h⟩) (fun _ _ h => h.2) (fun _ _ h => h.1.elim)
      exact hwk.final (fun _ _ h => h) (fun _ _ h => h.elim) rfl
    | jobTimer m tid =>
      have hwk : HoareE (fun s' => s' = s) (handle cfg n (.jobTimer m tid)) (fun _ => OrdQ) (fun e s => e ≠ .fuel → OrdQ s) := by
        refine HoareE.getS fun s₁ hs₁ => ?_
        subst hs₁
        refine HoareE.ite (fun _ => ?_) fun _ => HoareE.pure fun s hs' => hs' ▸ ho
        refine HoareE.modS fun s₂ hs₂ => ?_
        subst hs₂
        have ho' : OrdQ { s₂ with jobTimers := s₂.jobTimers.erase (m, tid) } := OrdQ.congr ho rfl ho.wf rfl rfl rfl rfl
        have h' : Inv cfg True (top True [] []) { s₂ with jobTimers := s₂.jobTimers.erase (m, tid) } := { h with }
        generalize ({ s₂ with jobTimers := s₂.jobTimers.erase (m, tid) } : State) = s₃ at *
        unfold jobTimeout
        refine HoareE.getJob (fun s hs _ _ => hs ▸ ho') fun s j hs hj => ?_
        subst hs
        refine HoareE.ite (fun _ => HoareE.pure fun s' hs => hs ▸ ho') fun _ => ?_
        refine HoareE.getS fun s₁ hs₁ => ?_
        subst hs₁
        refine HoareE.ite (fun hm => ?_) fun _ => HoareE.pure fun s' hs => hs ▸ ho'
        refine (((hL.fail' m .timeout rfl).at h').and (failUnreachable_fifo (cfg := cfg) (n := n) m .timeout ho')).conseq (fun _ h => ⟨h, h⟩) (fun _ _ h => h.2)
          (fun _ _ h hne => absurd trivial (h.1 hne).1)
      exact (hwk.and h2).final (fun _ _ h => h.1) (fun _ _ h => h.1 h.2.1) ⟨rfl, rfl⟩

/-- C23 (plain tasks): if `x` was submitted before `m`, then by the time `m` is sent, `x` has been sent, or has been answered (it timed out). -/
theorem fifo_partial (cfg : Config) (evs : List Event) (hf : Fresh evs) (hr : InRange cfg) (hpl : Plain evs) (hp : Prompt cfg evs)
    (a b c d : List Obs) (x m : MsgId) (sx sm : Submission) (e : Engine)
    (h : (run cfg evs).trace = (a ++ .submitted x sx :: b ++ .submitted m sm :: c) ++ .send e m :: d) :
    (∃ e', Obs.send e' x ∈ a ++ .submitted x sx :: b ++ .submitted m sm :: c) ∨ 0 < replies x (a ++ .submitted x sx :: b ++ .submitted m sm :: c) := by
  have ho := run_fifo hr evs hf hpl hp
  have hs : [x, m].Sublist (subIds (a ++ .submitted x sx :: b ++ .submitted m sm :: c)) := by
    unfold subIds
    simp only [List.filterMap_append, List.filterMap_cons, List.append_assoc, List.cons_append]
    refine (List.Sublist.append (List.nil_sublist _) (List.Sublist.cons_cons x ?_) : ([] ++ [x, m]).Sublist _)
    exact (List.Sublist.append (List.nil_sublist _) (List.Sublist.cons_cons m (List.nil_sublist _)) : ([] ++ [m]).Sublist _)
  have hno := ho.fifo _ e m d h x hs
  generalize a ++ .submitted x sx :: b ++ .submitted m sm :: c = p at *
  by_cases h1 : sends x p = 0
  · by_cases h2 : replies x p = 0
    · exact absurd ⟨h1, h2⟩ hno
    · exact Or.inr (by omega)
  · left
    have h1 : 0 < sends x p := by omega
    unfold sends at h1
    rw [List.countP_pos_iff] at h1
    obtain ⟨o, ho, hoo⟩ := h1
    cases o <;> simp at hoo
    subst hoo
    exact ⟨_, ho⟩

/-- A plain history: two engines with one place each, five tasks; task 3 times out, an engine dies. -/
def exPlain : List Event :=
  [.register 7, .submit 1 {}, .submit 2 {}, .submit 3 { hasTimeout := true }, .submit 4 {}, .submit 5 {}, .jobTimer 3 1, .result 7 1 true true, .register 8, .unregister 8,
   .strandTimer 8, .result 7 2 false true, .result 7 5 true true]

example : Fresh exPlain := by unfold Fresh; decide
example : Prompt (Violations.cfg 1) exPlain := prompt_of_check (by decide)
example : Plain exPlain := by
  refine ⟨?_, ?_⟩
  · intro m sub h
    simp only [exPlain, List.mem_cons, reduceCtorEq, Event.submit.injEq, List.not_mem_nil, or_false, false_or] at h
    rcases h with ⟨_, rfl⟩ | ⟨_, rfl⟩ | ⟨_, rfl⟩ | ⟨_, rfl⟩ | ⟨_, rfl⟩ <;> exact ⟨rfl, rfl, by unfold NoDeps; decide⟩
  · intro e m ok dm h
    simp only [exPlain, List.mem_cons, reduceCtorEq, Event.result.injEq, List.not_mem_nil, or_false, false_or] at h
    rcases h with ⟨_, _, _, rfl⟩ | ⟨_, _, _, rfl⟩ | ⟨_, _, _, rfl⟩ <;> rfl

/-- the order in which they are sent; task 3 is answered instead -/
example : Violations.sentIds (run (Violations.cfg 1) exPlain).trace = [1, 2, 4, 5] := by decide

end IPP.Sched
