import Verif.Sched.TraceInv

/-!
# Invariants about the choice of the engine (lemmas)
-/
namespace IPP.Sched

theorem lastSend_snoc (e : Engine) (tr : List Obs) (o : Obs) : lastSend e (tr ++ [o]) =
    (match o with | .send e' _ => if e' = e then tr.length + 1 else lastSend e tr | _ => lastSend e tr) := by
  unfold lastSend
  have hle := List.findIdx_le_length (xs := tr.reverse) (p := fun o => match o with | .send e' _ => decide (e' = e) | _ => false)
  rw [List.length_reverse] at hle
  cases o <;> simp [List.findIdx_cons]
  rename_i e' m
  by_cases h : e' = e <;> simp [h]

theorem lastSend_le (e : Engine) (tr : List Obs) : lastSend e tr ≤ tr.length := by
  unfold lastSend; omega

theorem lastSend_zero {e : Engine} {tr : List Obs} (h : ∀ m, Obs.send e m ∉ tr) : lastSend e tr = 0 := by
  induction tr using snoc_induction with
  | nil => rfl
  | snoc tr o ih =>
    rw [lastSend_snoc]
    have ih := ih fun m hm => h m (by simp [hm])
    cases o <;> simp only [ih]
    rename_i e' m
    rw [if_neg]
    rintro rfl
    exact h m (by simp)

/-- The engine was chosen by the scheme among all candidates, listed in the order they were last used. -/
def PickOk (cfg : Config) (p : List Obs) (e : Engine) (m : MsgId) : Prop :=
  ∃ C : List Engine, C.Pairwise (fun a b => lastSend a p ≤ lastSend b p) ∧ C[cfg.pick p (C.map (loadSpec · p))]? = some e ∧
    ∀ sub, Obs.submitted m sub ∈ p → sub.follow.ids = [] → ∀ e', Registered e' p → (cfg.hwm = 0 ∨ loadSpec e' p < (cfg.hwm : Int)) →
      (∀ c, Obs.retry e' m c ∉ p) → (sub.targets = [] ∨ e' ∈ sub.targets) → e' ∈ C

structure PickInv (cfg : Config) (s : State) : Prop where
  job : ∀ m j sub, s.jobs m = some j → Obs.submitted m sub ∈ s.trace → (∀ e ∈ j.blacklist, ∃ c, Obs.retry e m c ∈ s.trace) ∧
    ∀ t ∈ sub.targets, t ∈ j.targets ∨ t ∈ j.blacklist
  sorted : s.targets.Pairwise (fun a b => lastSend a s.trace ≤ lastSend b s.trace)
  picked : ∀ p e m q, s.trace = p ++ .send e m :: q → PickOk cfg p e m

def pickNeutral : Obs → Prop
  | .submitted .. | .send .. => False
  | _ => True

theorem PickInv.emit {cfg : Config} {s s' : State} {o : Obs} (h : PickInv cfg s) (ho : pickNeutral o) (htr : s'.trace = s.trace ++ [o])
    (hj : s'.jobs = s.jobs) (ht : s'.targets = s.targets) : PickInv cfg s' := by
  refine ⟨?_, ?_, ?_⟩
  · intro m j sub hm hs
    rw [htr] at hs ⊢
    rw [hj] at hm
    have hs' : Obs.submitted m sub ∈ s.trace := by
      rcases List.mem_append.mp hs with hs | hs
      · exact hs
      · simp at hs; subst hs; exact ho.elim
    obtain ⟨a, b⟩ := h.job m j sub hm hs'
    exact ⟨fun e he => (a e he).imp fun c hc => List.mem_append_left _ hc, b⟩
  · rw [ht, htr]
    have : ∀ e, lastSend e (s.trace ++ [o]) = lastSend e s.trace := by
      intro e; rw [lastSend_snoc]; cases o <;> first | rfl | exact ho.elim
    simp only [this]; exact h.sorted
  · intro p e m q hq
    rw [htr] at hq
    rcases snoc_split hq with ⟨_, _, rfl⟩ | ⟨q', _, hq'⟩
    · exact ho.elim
    · exact h.picked p e m q' hq'

theorem PickInv.congr {cfg : Config} {s s' : State} (h : PickInv cfg s) (htr : s'.trace = s.trace)
    (hj : ∀ m, JobLe (s.jobs m) (s'.jobs m)) (ht : s'.targets = s.targets) : PickInv cfg s' := by
  refine ⟨?_, by rw [ht, htr]; exact h.sorted, by rw [htr]; exact h.picked⟩
  intro m j' sub hm hs
  rw [htr] at hs ⊢
  have := hj m
  rw [hm] at this
  cases hjm : s.jobs m with
  | none => rw [hjm] at this; exact this.elim
  | some j =>
    rw [hjm] at this
    obtain ⟨_, _, h3, _, h5⟩ := this
    obtain ⟨a, b⟩ := h.job m j sub hjm hs
    refine ⟨by rw [h3]; exact a, fun t ht => ?_⟩
    rw [h3]
    rcases b t ht with hb | hb
    · exact h5.1 t hb
    · exact Or.inr hb

theorem PickInv.recvBase {cfg : Config} {ev : Event} {s : State} {o : Obs} {e : Engine} {m : MsgId} {ok dm : Bool}
    (h : PickInv cfg s) (ho : IsReply ev s o e m ok dm) : PickInv cfg (recvBase s o e) := by
  refine h.emit (o := o) ?_ (recvBase_trace ..) (recvBase_jobs ..) (recvBase_targets ..)
  rcases ho with ⟨rfl, _⟩ | ⟨rfl, _⟩ <;> trivial

theorem PickInv.takeBack {cfg : Config} {s s' : State} {e : Engine} {m : MsgId} {c : Cause} (h : PickInv cfg s)
    (ht : takeBack s e m c = some s') : PickInv cfg s' := by
  obtain ⟨p, j, hp, hm, hj, rfl⟩ := takeBack_some ht
  have h0 : PickInv cfg { s with trace := s.trace ++ [.retry e m c] } := h.emit (o := .retry e m c) trivial rfl rfl rfl
  refine ⟨?_, h0.sorted, h0.picked⟩
  intro m' j' sub hm' hs
  simp only [upd] at hm'
  by_cases hmm : m' = m
  · subst hmm
    simp only [if_true, Option.some.injEq] at hm'
    subst hm'
    obtain ⟨a, b⟩ := h0.job m' j sub hj hs
    refine ⟨fun e' he' => ?_, fun t ht => ?_⟩
    · rw [mem_insertSet] at he'
      rcases he' with rfl | he'
      · exact ⟨c, by simp⟩
      · exact a e' he'
    · rcases b t ht with hb | hb
      · exact Or.inl hb
      · exact Or.inr (by rw [mem_insertSet]; exact Or.inr hb)
  · rw [if_neg hmm] at hm'
    exact h0.job m' j' sub hm' hs

theorem PickInv.submit {cfg : Config} {s s' : State} (h : PickInv cfg s) (hji : JobInv s) (m : MsgId) (sub : Submission)
    (hfresh : ∀ sub, Obs.submitted m sub ∉ s.trace)
    (hjobs : s'.jobs = s.jobs ∨ ∃ j, s'.jobs = upd s.jobs m (some j) ∧ j.targets = sub.targets ∧ j.blacklist = [])
    (htr : s'.trace = s.trace ++ [.submitted m sub]) (ht : s'.targets = s.targets) : PickInv cfg s' := by
  have hold : ∀ m' j' sub', s.jobs m' = some j' → Obs.submitted m' sub' ∈ s'.trace →
      (∀ e ∈ j'.blacklist, ∃ c, Obs.retry e m' c ∈ s'.trace) ∧ ∀ t ∈ sub'.targets, t ∈ j'.targets ∨ t ∈ j'.blacklist := by
    intro m' j' sub' hm' hs'
    rw [htr] at hs' ⊢
    rcases List.mem_append.mp hs' with hs' | hs'
    · obtain ⟨a, b⟩ := h.job m' j' sub' hm' hs'
      exact ⟨fun e he => (a e he).imp fun c hc => List.mem_append_left _ hc, b⟩
    · simp at hs'
      obtain ⟨rfl, rfl⟩ := hs'
      obtain ⟨sub₂, h2, _⟩ := hji.job m' j' hm'
      exact absurd h2 (hfresh _)
  refine ⟨?_, ?_, ?_⟩
  · intro m' j' sub' hm' hs'
    rcases hjobs with hjobs | ⟨j, hjobs, hj1, hj2⟩
    · rw [hjobs] at hm'; exact hold m' j' sub' hm' hs'
    · rw [hjobs] at hm'
      simp only [upd] at hm'
      by_cases hmm : m' = m
      · subst hmm
        simp only [if_true, Option.some.injEq] at hm'
        subst hm'
        rw [htr] at hs'
        have : sub' = sub := by
          rcases List.mem_append.mp hs' with hs' | hs'
          · exact absurd hs' (hfresh _)
          · simpa using hs'
        subst this
        rw [hj1, hj2]
        exact ⟨by simp, fun t ht => Or.inl ht⟩
      · rw [if_neg hmm] at hm'; exact hold m' j' sub' hm' hs'
  · rw [ht, htr]
    have : ∀ e, lastSend e (s.trace ++ [.submitted m sub]) = lastSend e s.trace := fun e => lastSend_snoc ..
    simp only [this]; exact h.sorted
  · intro p e m' q hq
    rw [htr] at hq
    rcases snoc_split hq with ⟨_, _, h2⟩ | ⟨q', _, hq'⟩
    · cases h2
    · exact h.picked p e m' q' hq'

theorem registered_iff {cfg : Config} {s : State} (h : LoadInv cfg s) (e : Engine) : Registered e s.trace ↔ e ∈ s.targets := by
  have := h.reg e
  rw [← List.count_pos_iff, Registered]
  omega

theorem PickInv.send {cfg : Config} {s : State} (hl : LoadInv cfg s) (hji : JobInv s) (h : PickInv cfg s) (m : MsgId) (j : Job) (idx : Nat)
    (target : Engine) (hj : s.jobs m = some j) (ht : s.targets[idx]? = some target) (hc : Chosen cfg s j idx) :
    PickInv cfg (sentState s m idx target) := by
  have hlen : s.loads.length = s.targets.length := by rw [hl.load, List.length_map]
  have hli : s.loads[idx]? = some (loadSpec target s.trace) := hl.loads_get ht
  have htgs : (sentState s m idx target).targets = s.targets.eraseIdx idx ++ [target] := (sentState_targets (s := s) (m := m) (idx := idx) (e := target) (ht := ht) (hl := hli)).1
  have hjobs : (sentState s m idx target).jobs = s.jobs := sentState_jobs ..
  have htr : (sentState s m idx target).trace = s.trace ++ [.send target m] := sentState_trace ..
  refine ⟨?_, ?_, ?_⟩
  · intro m' j' sub hm hs
    rw [htr] at hs ⊢
    rw [hjobs] at hm
    have hs' : Obs.submitted m' sub ∈ s.trace := by simpa using hs
    obtain ⟨a, b⟩ := h.job m' j' sub hm hs'
    exact ⟨fun e he => (a e he).imp fun c hc => List.mem_append_left _ hc, b⟩
  · rw [htgs, htr]
    have hmem : ∀ a ∈ s.targets.eraseIdx idx, lastSend a (s.trace ++ [.send target m]) = lastSend a s.trace := by
      intro a ha
      rw [lastSend_snoc]
      dsimp only
      rw [if_neg]
      rintro rfl
      exact not_mem_eraseIdx hl.nodup ht ha
    rw [List.pairwise_append]
    refine ⟨?_, List.pairwise_singleton _ _, ?_⟩
    · refine List.Pairwise.imp_of_mem ?_ (h.sorted.sublist (List.eraseIdx_sublist _ _))
      intro a b ha hb hab
      rw [hmem a ha, hmem b hb]; exact hab
    · intro a ha b hb
      simp at hb
      subst hb
      rw [hmem a ha, lastSend_snoc]
      simp only [if_true]
      have := lastSend_le a s.trace
      omega
  · intro p e m' q hq
    rw [htr] at hq
    rcases snoc_split hq with ⟨_, rfl, h2⟩ | ⟨q', _, hq'⟩
    rotate_left
    · exact h.picked p e m' q' hq'
    cases h2
    obtain ⟨cands, ls, hls, hget, hsort, hlt, hcomp⟩ := hc
    -- the engines of the candidate indices
    let g : Nat → Engine := fun i => s.targets.getD i 0
    have hg : ∀ i e', s.targets[i]? = some e' → g i = e' := by
      intro i e' hi; simp [g, List.getD_eq_getElem?_getD, hi]
    have hg' : ∀ i, i < s.targets.length → s.targets[i]? = some (g i) := by
      intro i hi; simp [g, List.getD_eq_getElem?_getD, hi]
    have hload : ∀ i, i < s.targets.length → s.loads[i]? = some (loadSpec (g i) s.trace) := fun i hi => hl.loads_get (hg' i hi)
    have hls' : (cands.map g).map (loadSpec · s.trace) = ls := by
      rcases hls with rfl | ⟨rfl, rfl⟩
      · rw [List.map_map]
        refine List.map_congr_left fun i hi => ?_
        simp [List.getD_eq_getElem?_getD, hload i (hlt i hi)]
      · apply List.ext_getElem?
        intro i
        by_cases hi : i < s.targets.length
        · rw [hload i hi]; simp [hi]
        · rw [List.getElem?_eq_none (by simp; omega), List.getElem?_eq_none (by omega)]
    refine ⟨cands.map g, ?_, ?_, ?_⟩
    · rw [List.pairwise_map]
      refine hsort.imp_of_mem fun {a b} ha hb hab => ?_
      have := List.pairwise_iff_getElem.mp h.sorted a b (hlt a ha) (hlt b hb) hab
      simpa [g, List.getD_eq_getElem?_getD, hlt a ha, hlt b hb] using this
    · rw [hls', List.getElem?_map, hget]
      simp [hg idx _ ht]
    · intro sub hsub hids e' hreg hload' hretry htg
      rw [registered_iff hl] at hreg
      obtain ⟨i, hi, hie⟩ := List.getElem_of_mem hreg
      have hie' : s.targets[i]? = some e' := by rw [List.getElem?_eq_getElem hi, hie]
      rw [List.mem_map]
      refine ⟨i, hcomp i e' hie' ?_ ?_ ?_ ?_, hg i e' hie'⟩
      · rcases hload' with h0 | h0
        · exact Or.inl h0
        · right
          rw [List.getD_eq_getElem?_getD, hl.loads_get hie']
          exact h0
      · intro hb
        obtain ⟨c, hc⟩ := (h.job m j sub hj hsub).1 e' hb
        exact hretry c hc
      · obtain ⟨sub₂, hs2, _, htsub, _⟩ := hji.job m j hj
        cases hji.uniq m sub sub₂ hsub hs2
        rcases htg with h0 | h0
        · left
          rw [List.eq_nil_iff_forall_not_mem]
          intro t ht
          have := htsub t ht
          rw [h0] at this
          cases this
        · rcases (h.job m j sub hj hsub).2 e' h0 with h1 | h1
          · exact Or.inr h1
          · obtain ⟨c, hc⟩ := (h.job m j sub hj hsub).1 e' h1
            exact absurd hc (hretry c)
      · obtain ⟨sub₂, hs2, hfo, _⟩ := hji.job m j hj
        cases hji.uniq m sub sub₂ hsub hs2
        rw [hfo]; exact hids

theorem pickInv_closed (cfg : Config) (ev : Event) : Closed cfg ev (fun s => (LoadInv cfg s ∧ JobInv s) ∧ PickInv cfg s) := by
  intro s s' hm ⟨hlj, h⟩
  refine ⟨jobInv_closed cfg ev s s' hm hlj, ?_⟩
  obtain ⟨hl, hji⟩ := hlj
  cases hm with
  | book hs => exact h.congr hs.trace hs.jobs hs.targets
  | fail s' m why hs hok =>
    have h' : PickInv cfg s' := h.congr hs.trace hs.jobs hs.targets
    exact h'.emit (o := .fail m why) trivial rfl rfl rfl
  | send m j idx target hj ht hlo hb htg hf ha hc => exact h.send hl hji m j idx target hj ht hc
  | register e hev hfresh =>
    have h0 : PickInv cfg { s with trace := s.trace ++ [.registered e] } := h.emit (o := .registered e) trivial rfl rfl rfl
    refine ⟨h0.job, ?_, h0.picked⟩
    refine List.pairwise_cons.mpr ⟨fun b _ => ?_, h0.sorted⟩
    have : lastSend e (s.trace ++ [.registered e]) = 0 := by
      apply lastSend_zero
      intro m hm
      have hm : Obs.send e m ∈ s.trace := by simpa using hm
      obtain ⟨p, q, hpq⟩ := List.append_of_mem hm
      obtain ⟨hr, _⟩ := hji.sent p e m q hpq
      have : Obs.registered e ∈ p := List.count_pos_iff.mp (Nat.lt_of_le_of_lt (Nat.zero_le _) hr)
      exact hfresh (by rw [hpq]; simp [this])
    rw [this]; exact Nat.zero_le _
  | unregister e idx hev hidx =>
    have h0 : PickInv cfg { s with trace := s.trace ++ [.unregistered e] } := h.emit (o := .unregistered e) trivial rfl rfl rfl
    exact ⟨h0.job, h0.sorted.sublist (List.eraseIdx_sublist _ _), h0.picked⟩
  | strand e he => exact h.congr rfl (fun _ => JobLe.refl _) rfl
  | submit m sub hev hfresh => exact h.submit hji m sub hfresh (Or.inl rfl) rfl rfl
  | submitJob m sub j hev hfresh hj => exact h.submit hji m sub hfresh (Or.inr ⟨j, rfl, hj.2.1, hj.2.2.1⟩) rfl rfl
  | recv e m ok dm o ho => exact h.recvBase ho
  | recvDec e m o r ho => exact (h.recvBase ho).congr rfl (fun _ => JobLe.refl _) rfl
  | recvRetry e m o r s' ho hr ht =>
    exact PickInv.takeBack ((h.recvBase ho).congr (s' := { recvBase s o e with retries := upd s.retries m (some r) }) rfl (fun _ => JobLe.refl _) rfl) ht
  | recvUnmet e m ok o s' ho ht => exact PickInv.takeBack (h.recvBase ho) ht
  | recvRelay e m ok o r ho => exact (h.recvBase ho).emit (o := .relay e m ok) trivial rfl rfl rfl
  | popPending => exact h.congr rfl (fun _ => JobLe.refl _) rfl
  | complete => exact h.congr rfl (fun _ => JobLe.refl _) rfl
  | failedBy => exact h.congr rfl (fun _ => JobLe.refl _) rfl

theorem run_pickInv (cfg : Config) (evs : List Event) (hf : Fresh evs) : PickInv cfg (run cfg evs) := by
  refine (run_inv cfg evs hf _ ⟨⟨loadInv_init cfg, jobInv_init⟩, ⟨?_, ?_, ?_⟩⟩ fun ev _ => pickInv_closed cfg ev).2
  · simp
  · exact List.Pairwise.nil
  · intro p e m q h; simp at h

end IPP.Sched
