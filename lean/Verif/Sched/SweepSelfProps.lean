import Verif.Sched.SweepSelf

/-!
# C21, C56: what the scheduler does about the task that an event is about — with dependencies
-/
namespace IPP.Sched

variable {cfg : Config} {s S s' : State} {x m : MsgId} {e : Engine}

/-! ### Lemmas -/

theorem Known.arrived {sub : Submission} (h : Known s) : Known (arrivedIn s m sub) := by
  have htr : (arrivedIn s m sub).trace = s.trace ++ [.submitted m sub] := rfl
  refine ⟨fun i => ?_, fun i => ?_, h.dis, fun e i hi => ?_, fun t => ?_, fun e he => ?_⟩
  · rw [htr]; refine Iff.trans ?_ (h.ok i); rw [okIds_iff, okIds_iff]; simp
  · rw [htr]; refine Iff.trans ?_ (h.bad i); rw [failIds_iff, failIds_iff]; simp
  · rw [htr] at hi; exact h.dst e i (by simpa using hi)
  · rw [htr, registered_append (by simp)]; exact h.tgt t
  · obtain ⟨c, f, h1, h2, h3⟩ := h.com e he
    refine ⟨c, f, h1, h2, fun i hi => h3 i ?_⟩
    rw [htr, okOn_iff] at hi
    exact okOn_iff.mpr (by simpa using hi)

/-- `S` is `s` after the answer was heard and the task taken back. -/
theorem Known.back {o : Obs} {c : Cause} {j : Job} {st : State} (h : Known s) (hst : st = { s with trace := s.trace ++ [o] }) (ho : ∃ ok dm, o = .received e m ok dm)
    (hS : Back e m c st S j) : Known S := by
  obtain ⟨ok, dm, rfl⟩ := ho
  have htr : S.trace = s.trace ++ [.received e m ok dm, .retry e m c] := by rw [hS.trace, hst]; simp
  refine ⟨fun i => ?_, fun i => ?_, ?_, fun e' i hi => ?_, fun t => ?_, fun e' he' => ?_⟩
  · rw [htr, hS.ac, hst]; refine Iff.trans ?_ (h.ok i); rw [okIds_iff, okIds_iff]; simp
  · rw [htr, hS.af, hst]; refine Iff.trans ?_ (h.bad i); rw [failIds_iff, failIds_iff]; simp
  · rw [hS.ac, hS.af, hst]; exact h.dis
  · rw [htr] at hi; rw [hS.dst, hst]; exact h.dst e' i (by simpa using hi)
  · rw [htr, registered_append (by simp), hS.targets, hst]; exact h.tgt t
  · rw [hS.targets, hst] at he'
    obtain ⟨c, f, h1, h2, h3⟩ := h.com e' he'
    refine ⟨c, f, by rw [hS.com, hst]; exact h1, by rw [hS.fai, hst]; exact h2, fun i hi => h3 i ?_⟩
    rw [htr, okOn_iff] at hi
    exact okOn_iff.mpr (by simpa using hi)

theorem JobKnown.back {o : Obs} {c : Cause} {j : Job} {st : State} {sub : Submission} (h : JobKnown s m sub j) (hst : st = { s with trace := s.trace ++ [o] })
    (ho : ∃ ok dm, o = .received e m ok dm) (hS : Back e m c st S j) : JobKnown S m sub { j with blacklist := insertSet e j.blacklist } := by
  obtain ⟨ok, dm, rfl⟩ := ho
  have htr : S.trace = s.trace ++ [.received e m ok dm, .retry e m c] := by rw [hS.trace, hst]; simp
  exact {
    job := hS.job'
    arr := by rw [htr]; exact List.mem_append_left _ h.arr
    uni := fun sub' hs => by rw [htr] at hs; exact h.uni sub' (by simpa using hs)
    con := h.con
    fol := h.fol
    tgt := h.tgt
    tgt' := fun t ht => (h.tgt' t ht).imp id fun hb => by simp [hb]
    tgtne := h.tgtne
    bl := fun t => by
      rw [htr]
      show t ∈ insertSet e j.blacklist ↔ _
      rw [mem_insertSet, h.bl t]
      simp only [List.mem_append, List.mem_cons, reduceCtorEq, Obs.retry.injEq, List.not_mem_nil, or_false, false_or, true_and]
      constructor
      · rintro (a | ⟨c', a⟩)
        · exact ⟨c, Or.inr ⟨a, rfl⟩⟩
        · exact ⟨c', Or.inl a⟩
      · rintro ⟨c', a | a⟩
        · exact Or.inr ⟨c', a⟩
        · exact Or.inl a.1
    aft := h.aft
    sat := by rw [hS.ac, hS.af, hst]; exact h.sat }

theorem hasLoad_other {idx : Nat} {e e' : Engine} {l : Int} (hi : s.targets.idxOf? e = some idx) (hne : e' ≠ e) (hl : HasLoad s e' l) :
    (e', l) ∈ s.targets.zip (s.loads.modify idx (· - 1)) := by
  obtain ⟨k, hk⟩ := List.getElem?_of_mem hl
  rw [List.getElem?_zip_eq_some] at hk
  have hki : idx ≠ k := by
    rintro rfl
    have := idxOf?_get hi
    rw [hk.1] at this
    cases this
    exact hne rfl
  refine List.mem_of_getElem? (i := k) ?_
  rw [List.getElem?_zip_eq_some, List.getElem?_modify]
  exact ⟨hk.1, by simp [hki, hk.2]⟩

theorem room_back {o : Obs} {c : Cause} {j : Job} {st : State} {e' : Engine} (hC : cfg.hwm = 1) (h : LInv cfg [] [] s) (hl : LoadInv cfg s)
    (hst : st = { s with trace := s.trace ++ [o] }) (ho : ∃ ok dm, o = .received e m ok dm) (hm : m ∈ assigned e s.trace)
    (hS : Back e m c st S j) (hi : Idle e' S.trace) : Room cfg S e' := by
  obtain ⟨ok, dm, rfl⟩ := ho
  have htr : S.trace = (s.trace ++ [.received e m ok dm]) ++ [.retry e m c] := by rw [hS.trace, hst]
  obtain ⟨hreg, has⟩ := hi
  have hreg : Registered e' s.trace := by
    rw [htr, List.append_assoc, registered_append (by simp)] at hreg
    exact hreg
  have het := (registered_iff hl e').mp hreg
  have hload := h.hasLoad het
  rw [htr, assigned_snoc, assigned_snoc] at has
  unfold Room HasLoad
  have htg : S.targets = s.targets := by rw [hS.targets, hst]
  have hlo := hS.loads
  rw [hst] at hlo
  dsimp only at hlo
  rw [htg, hlo]
  by_cases hee : e' = e
  · subst hee
    have h1 := h.one hC hl het hm
    obtain ⟨idx, hx, _⟩ := hasLoad_idx h.neat h1
    rw [hx]
    exact ⟨_, hasLoad_finish h.neat hx h1, Or.inr (by omega)⟩
  · dsimp only at has
    rw [if_neg (fun h => hee h.symm)] at has
    rw [has] at hload
    refine ⟨0, ?_, Or.inr (by omega)⟩
    cases hx : s.targets.idxOf? e with
    | none => exact hload
    | some idx => exact hasLoad_other hx hee hload

/-- A task that is on an engine has dependencies that are satisfied. -/
theorem assigned_not_hopeless {tl : List Obs} {sub : Submission} {d : Dep} (hrep : ∀ i, replies i (s.trace ++ tl) ≤ 1) (hj : JobInv s) (hm : m ∈ assigned e s.trace)
    (hs : Obs.submitted m sub ∈ s.trace) (hd : sub.after = some d ∨ sub.follow = d) : ¬ Hopeless d (s.trace ++ tl) := by
  intro hh
  obtain ⟨p, q, hpq⟩ := List.append_of_mem (send_of_assigned hm)
  obtain ⟨_, _, sub', hsub, hfol, haft⟩ := hj.sent _ _ _ _ hpq
  obtain rfl := hj.uniq m sub sub' hs (by rw [hpq]; exact List.mem_append_left _ hsub)
  have hS : s.trace ++ tl = p ++ (.send e m :: q ++ tl) := by rw [hpq]; simp
  rw [hS] at hh hrep
  have hdis : ∀ i, ¬ (i ∈ okIds (p ++ (.send e m :: q ++ tl)) ∧ i ∈ failIds (p ++ (.send e m :: q ++ tl))) := fun i h => ok_not_fail (hrep i) h.1 h.2
  refine hh.not_satisfied (fun _ h => h) (fun _ h => h) hdis ?_
  rcases hd with hd | hd
  · exact (haft d hd).mono okIds_sub failIds_sub
  · subst hd
    exact hfol.mono (fun i hi => okIds_sub i (okIds_iff.mpr ⟨e, okOn_iff.mp hi⟩)) (fun i hi => failIds_sub i (failIds_iff.mpr (Or.inl ⟨e, failOn_iff.mp hi⟩)))

/-- The state in which the scheduler begins to decide about a submission. -/
theorem submit_core {evs : List Event} {sub : Submission} (hC : cfg.hwm = 1) (hr : InRange cfg) (hf : Fresh (evs ++ [.submit m sub])) (hp : Prompt cfg (evs ++ [.submit m sub]))
    (ht : ∀ m' sub', Event.submit m' sub' ∈ evs ++ [.submit m sub] → Tame sub') (hc : CleanArrivals cfg (evs ++ [.submit m sub])) :
    ∃ S j, S = arrivedIn (run cfg evs) m sub ∧ j = arrived (run cfg evs) sub ∧ heard cfg evs (.submit m sub) = S.trace ∧ Known S ∧ JobKnown S m sub j ∧ Env S (run cfg (evs ++ [.submit m sub])) ∧
      LInv cfg [] [] (run cfg (evs ++ [.submit m sub])) ∧
      ((validateDep S m j.after ≠ none ∨ validateDep S m sub.follow ≠ none) → replies m (run cfg (evs ++ [.submit m sub])).trace = 1) ∧
      (j.after.check S.allCompleted (some S.allFailed) = true → SelfDue cfg S m → Act S (run cfg (evs ++ [.submit m sub])) m) ∧
      (∀ e, Idle e S.trace → Room cfg S e) := by
  have hL := run_linv hC hr hf.snoc hp.snoc (fun m' sub' h => ht m' sub' (by simp [h])) (fun p m' sub' q hq => hc p m' sub' (q ++ [.submit m sub]) (by rw [hq]; simp))
  have hb := run_base cfg evs hf.snoc
  have hinv := run_subInv cfg evs hf.snoc
  have hfr : ∀ sub, Obs.submitted m sub ∉ (run cfg evs).trace := hf.freshIn hb.1 hb.2
  have hinv' := subInv_closed cfg (.submit m sub) _ _ (.submitJob (run cfg evs) m sub (arrived (run cfg evs) sub) rfl hfr ⟨rfl, rfl, rfl, rfl⟩ rfl) hinv
  obtain ⟨⟨⟨⟨hl, hji⟩, hpi⟩, hfi⟩, _⟩ := hinv
  obtain ⟨⟨⟨⟨hl', hji'⟩, hpi'⟩, hfi'⟩, _⟩ := hinv'
  have htame : Tame sub := ht m sub (by simp)
  have hn := hL.neat
  have hk := known_of hL hl hji hfi
  have hq : m ∉ (run cfg evs).queueMap := fun hq => by
    obtain ⟨_, j, hj, _⟩ := hL.1.qm m hq
    obtain ⟨sub', h1, _⟩ := hL.1.sub m j hj
    exact hfr sub' h1
  obtain ⟨a1, a2, a3⟩ := arrives hf htame (hc evs m sub [] rfl) hL
  have hfuel := handle_fuel (cfg := cfg) (n := fuelFor (run cfg evs)) (run cfg evs) (.submit m sub) (run_ok evs) (Nat.le_refl _)
  have hself := dispatchSubmission_self (cfg := cfg) (n := fuelFor (run cfg evs)) m sub (run cfg evs) hn hq
  have hlink := dispatchSubmission_link (linkAt hC hr (fuelFor (run cfg evs))) m sub hL hfr a1 a2 a3
  have hall := (hself.and (hlink.and hfuel)).final (I := fun s' => (Env (arrivedIn (run cfg evs) m sub) s' ∧ _ ∧ _) ∧ LInv cfg [] [] s')
      (fun _ _ h => ⟨h.1, h.2.1⟩) (fun _ _ h => absurd h.2.1 h.2.2.1) ⟨rfl, rfl, rfl⟩
  have hrun : run cfg (evs ++ [.submit m sub]) = (dispatchSubmission cfg (fuelFor (run cfg evs)) m sub (run cfg evs)).2 := by
    rw [run_snoc]; rfl
  rw [← hrun] at hall
  obtain ⟨⟨hE, h1, h2⟩, hL'⟩ := hall
  have hsay : (validateDep (arrivedIn (run cfg evs) m sub) m (arrived (run cfg evs) sub).after ≠ none ∨ validateDep (arrivedIn (run cfg evs) m sub) m sub.follow ≠ none) →
      replies m (run cfg (evs ++ [.submit m sub])).trace = 1 := by
    intro hv
    have h3 := ((dispatchSubmission_says (cfg := cfg) (n := fuelFor (run cfg evs)) m sub (run cfg evs) hv).and (hlink.and hfuel)).final (I := fun s' => ∃ why, Obs.fail m why ∈ s'.trace)
      (fun _ _ h => h.1) (fun _ _ h => absurd h.2.1 h.2.2.1) ⟨rfl, rfl, rfl⟩
    rw [← hrun] at h3
    obtain ⟨why, h3⟩ := h3
    have h4 := replies_pos_of (m := m) h3 (by simp [isReply])
    have h5 := hL'.1.rep m
    omega
  refine ⟨arrivedIn (run cfg evs) m sub, arrived (run cfg evs) sub, rfl, rfl, heard_eq (tl := [.submitted m sub]) rfl (by simp [isDecision]) hE, hk.arrived, ?_, hE, hL', hsay, h2, fun e hi => ?_⟩
  · have hjm : (arrivedIn (run cfg evs) m sub).jobs m = some (arrived (run cfg evs) sub) := upd_self _ _ _
    have hsm : Obs.submitted m sub ∈ (arrivedIn (run cfg evs) m sub).trace := by
      show _ ∈ (run cfg evs).trace ++ [.submitted m sub]
      simp
    obtain ⟨sub', g1, g2, g3, g4, g5⟩ := hji'.job m _ hjm
    obtain rfl := hji'.uniq m sub sub' hsm g1
    obtain ⟨p1, p2⟩ := hpi'.job m _ sub hjm hsm
    exact ⟨hjm, hsm, fun sub' h => hji'.uniq m sub' sub h hsm, htame.constructible, rfl, fun _ h => h, fun t h => Or.inl h, fun h => h,
      fun t => ⟨p1 t, fun ⟨c, hc⟩ => g4 t c hc⟩, reduceAfter_rel _ _, g5⟩
  · have hi' : Idle e (run cfg evs).trace := by
      obtain ⟨i1, i2⟩ := hi
      have htr : (arrivedIn (run cfg evs) m sub).trace = (run cfg evs).trace ++ [.submitted m sub] := rfl
      rw [htr] at i1 i2
      rw [assigned_snoc] at i2
      exact ⟨(registered_append (by simp)).mp i1, i2⟩
    have : Room cfg (run cfg evs) e := idle_room hC hL hl hi'
    exact this

/-- The state in which the scheduler begins to decide about a task that an engine has given back. -/
theorem result_core {evs : List Event} {ok dm : Bool} (hC : cfg.hwm = 1) (hr : InRange cfg) (hf : Fresh (evs ++ [.result e m ok dm])) (hp : Prompt cfg (evs ++ [.result e m ok dm]))
    (ht : ∀ m' sub', Event.submit m' sub' ∈ evs → Tame sub') (hc : CleanArrivals cfg evs) :
    LInv cfg [] [] (run cfg (evs ++ [.result e m ok dm])) ∧ (Obs.relay e m ok ∈ (run cfg (evs ++ [.result e m ok dm])).trace ∨
    ∃ S j sub, heard cfg evs (.result e m ok dm) = S.trace ∧ Known S ∧ JobKnown S m sub j ∧ Env S (run cfg (evs ++ [.result e m ok dm])) ∧
      (∀ d, (sub.after = some d ∨ sub.follow = d) → ¬ Hopeless d S.trace) ∧
      (SelfDue cfg S m → Act S (run cfg (evs ++ [.result e m ok dm])) m) ∧
      (∀ e, Idle e S.trace → Room cfg S e)) := by
  have hL := run_linv hC hr hf.snoc hp.snoc ht hc
  have hb := run_base cfg evs hf.snoc
  obtain ⟨⟨⟨⟨hl, hji⟩, hpi⟩, hfi⟩, _⟩ := run_subInv cfg evs hf.snoc
  have hn := hL.neat
  have hk := known_of hL hl hji hfi
  have hm : m ∈ assigned e (run cfg evs).trace := hp evs e m ok dm [] rfl
  obtain ⟨hmq, hmr, j, hj, hjr⟩ := hL.1.asg m e hm
  obtain ⟨sub, hjk⟩ := jobKnown_at hL hji hpi hfi hj hjr (fun sub hs => (ht m sub (hb.2 _ hs)).constructible)
  have hlk := linkAt hC hr (fuelFor (run cfg evs))
  have hfuel := handle_fuel (cfg := cfg) (n := fuelFor (run cfg evs)) (run cfg evs) (.result e m ok dm) (run_ok evs) (Nat.le_refl _)
  obtain ⟨st, hst⟩ : ∃ st : State, st = { run cfg evs with trace := (run cfg evs).trace ++ [.received e m ok dm] } := ⟨_, rfl⟩
  have hself : HoareE (fun s' => s' = run cfg evs) (handle cfg (fuelFor (run cfg evs)) (.result e m ok dm)) (fun _ s' => Obs.relay e m ok ∈ s'.trace ∨
      ∃ c S j, Back e m c st S j ∧ Env S s' ∧ (SelfDue cfg S m → Act S s' m)) AnyErr := by
    unfold handle
    refine HoareE.emit fun s₁ hs₁ => ?_
    subst hs₁
    rw [← hst]
    exact dispatchResult_self e m ok dm st (by rw [hst]; exact ⟨hn.len, hn.nodup, hn.gone⟩) (fun j' hj' => by rw [hst] at hj'; dsimp only at hj'; rw [hj] at hj'; cases hj'; exact hjr)
  have hlink : HoareE (fun s' => s' = run cfg evs) (handle cfg (fuelFor (run cfg evs)) (.result e m ok dm)) (fun _ => LInv cfg [] []) FuelE := by
    unfold handle
    refine HoareE.emit fun s₁ hs₁ => ?_
    subst hs₁
    exact dispatchResult_link hlk hL (Or.inl ⟨ok, dm, rfl⟩) hm (by simp)
  have hall := (hself.and (hlink.and hfuel)).final (I := fun s' => (Obs.relay e m ok ∈ s'.trace ∨
      ∃ c S j, Back e m c st S j ∧ Env S s' ∧ (SelfDue cfg S m → Act S s' m)) ∧ LInv cfg [] [] s')
    (fun _ _ h => ⟨h.1, h.2.1⟩) (fun _ _ h => absurd h.2.1 h.2.2.1) ⟨rfl, rfl, rfl⟩
  have hrun : run cfg (evs ++ [.result e m ok dm]) = (handle cfg (fuelFor (run cfg evs)) (.result e m ok dm) (run cfg evs)).2 := by
    rw [run_snoc]; rfl
  rw [← hrun] at hall
  obtain ⟨h, hL'⟩ := hall
  refine ⟨hL', h.imp id ?_⟩
  rintro ⟨c, S, j', hB, hE, hA⟩
  have : j' = j := by
    have := hB.job
    rw [hst] at this
    dsimp only at this
    rw [hj] at this
    cases this; rfl
  subst this
  have htr : S.trace = (run cfg evs).trace ++ [.received e m ok dm, .retry e m c] := by rw [hB.trace, hst]; simp
  refine ⟨S, _, sub, heard_eq htr (by simp [isDecision]) hE, hk.back hst ⟨ok, dm, rfl⟩ hB, hjk.back hst ⟨ok, dm, rfl⟩ hB, hE, fun d hd => ?_, hA,
    fun e' hi => room_back hC hL hl hst ⟨ok, dm, rfl⟩ hm hB hi⟩
  rw [htr]
  refine assigned_not_hopeless (fun i => ?_) hji hm hjk.arr hd
  have := hL.1.rep i
  rw [replies_eq] at this ⊢
  rw [List.countP_append]
  simpa [isReply] using this

theorem act_done (hE : Env S s') (hL : LInv cfg [] [] s') (h : Act S s' m) : replies m s'.trace = 1 ∨ ∃ e', m ∈ assigned e' s'.trace := by
  obtain ⟨tl, htl, h⟩ := h
  obtain ⟨tl', htl', hdec⟩ := hE.ext
  have : tl' = tl := List.append_cancel_left (htl'.symm.trans htl)
  subst this
  rcases h with ⟨e', h⟩ | ⟨why, h⟩
  · obtain ⟨q, r, rfl⟩ := List.append_of_mem h
    refine Or.inr ⟨e', ?_⟩
    have : s'.trace = ((S.trace ++ q) ++ [.send e' m]) ++ r := by rw [htl]; simp
    rw [this]
    refine assigned_decisions (fun o ho => hdec o (by simp [ho])) ?_
    rw [assigned_snoc]
    simp
  · have h1 : replies m s'.trace ≠ 0 := replies_pos_of (a := .fail m why) (by rw [htl]; exact List.mem_append_right _ h) (by simp [isReply])
    have h2 := hL.1.rep m
    exact Or.inl (by omega)

theorem act_answered (hE : Env S s') (hL : LInv cfg [] [] s') (hji : JobInv s') (hd : Doomed S.trace m) (h : Act S s' m) : replies m s'.trace = 1 := by
  obtain ⟨tl, htl, h⟩ := h
  obtain ⟨tl', htl', hdec⟩ := hE.ext
  have : tl' = tl := List.append_cancel_left (htl'.symm.trans htl)
  subst this
  rcases h with ⟨e', h⟩ | ⟨why, h⟩
  · exact absurd h (doomed_not_sent hL.1.rep hji htl hdec hL.1.sent hd)
  · have h1 : replies m s'.trace ≠ 0 := replies_pos_of (a := .fail m why) (by rw [htl]; exact List.mem_append_right _ h) (by simp [isReply])
    have h2 := hL.1.rep m
    omega

/-! ### The theorems -/

/-- The event is about task `m`: it is submitted, or an engine that has it reports on it. -/
def About (ev : Event) (m : MsgId) : Prop := (∃ sub, ev = .submit m sub) ∨ ∃ e ok dm, ev = .result e m ok dm

/-- C21: a task that arrives with a dependency that cannot be satisfied any more is answered at once — whatever engines there are. -/
theorem hopeless_arrival_answered_partial (cfg : Config) (evs : List Event) (m : MsgId) (sub : Submission) (hC : cfg.hwm = 1) (hr : InRange cfg)
    (hf : Fresh (evs ++ [.submit m sub])) (hp : Prompt cfg (evs ++ [.submit m sub])) (ht : ∀ m' sub', Event.submit m' sub' ∈ evs ++ [.submit m sub] → Tame sub')
    (hc : CleanArrivals cfg (evs ++ [.submit m sub])) (d : Dep) (hd : sub.after = some d ∨ sub.follow = d) (hh : Hopeless d (run cfg evs).trace) :
    replies m (run cfg (evs ++ [.submit m sub])).trace = 1 := by
  obtain ⟨S, j, hSe, hje, _, hk, hj, _, _, hval, _, _⟩ := submit_core hC hr hf hp ht hc
  have htr : S.trace = (run cfg evs).trace ++ [.submitted m sub] := by rw [hSe]; rfl
  have hh' : Hopeless d S.trace := by
    rw [htr]
    have hw : ∀ i, Wrong d (run cfg evs).trace i → Wrong d ((run cfg evs).trace ++ [.submitted m sub]) i := fun i h => h.imp (And.imp id (okIds_sub i)) (And.imp id (failIds_sub i))
    exact hh.imp (fun ⟨a, i, hi, h⟩ => ⟨a, i, hi, hw i h⟩) (fun ⟨a, b, h⟩ => ⟨a, b, fun i hi => hw i (h i hi)⟩)
  refine hval ?_
  have hun : ∀ d, d.unreachable S.allCompleted (some S.allFailed) = true → validateDep S m d ≠ none := fun d h => by
    have hne := ((unreachable_iff d _ _).mp h).1
    unfold validateDep
    rw [if_neg hne]
    split
    · simp
    · simp
  rcases hd with hd | hd
  · refine Or.inl (hun _ ?_)
    exact after_unreachable hk hj hd hh'
  · refine Or.inr (hun _ ?_)
    rw [hd]
    exact follow_unreachable hk hh'

/-- C21: a task that arrives with a dependency on itself or on a task nobody has submitted is answered at once (`after`: unless it is satisfied already). -/
theorem invalid_arrival_answered_partial (cfg : Config) (evs : List Event) (m : MsgId) (sub : Submission) (hC : cfg.hwm = 1) (hr : InRange cfg)
    (hf : Fresh (evs ++ [.submit m sub])) (hp : Prompt cfg (evs ++ [.submit m sub])) (ht : ∀ m' sub', Event.submit m' sub' ∈ evs ++ [.submit m sub] → Tame sub')
    (hc : CleanArrivals cfg (evs ++ [.submit m sub])) (d : Dep) (i : MsgId) (hi : i ∈ d.ids)
    (hd : (sub.after = some d ∧ ¬ Satisfied d (okIds (run cfg evs).trace) (failIds (run cfg evs).trace)) ∨ sub.follow = d)
    (hbad : i = m ∨ ∀ sub', Event.submit i sub' ∉ evs) :
    replies m (run cfg (evs ++ [.submit m sub])).trace = 1 := by
  obtain ⟨S, j, hSe, hje, _, hk, hj, _, _, hval, _, _⟩ := submit_core hC hr hf hp ht hc
  have hb := run_base cfg evs hf.snoc
  have hfr : ∀ sub, Obs.submitted m sub ∉ (run cfg evs).trace := hf.freshIn hb.1 hb.2
  obtain ⟨_, hs⟩ := run_subInv cfg evs hf.snoc
  have hnot : ∀ sub', Obs.submitted i sub' ∉ (run cfg evs).trace := by
    rcases hbad with rfl | hbad
    · exact hfr
    · exact fun sub' h => hbad sub' (hb.2 _ h)
  have hall : i = m ∨ i ∉ S.allIds := by
    by_cases him : i = m
    · exact Or.inl him
    · right
      rw [hSe]
      show i ∉ insertSet m (run cfg evs).allIds
      rw [mem_insertSet]
      rintro (h | h)
      · exact him h
      · obtain ⟨sub', h'⟩ := hs.all i h
        exact hnot sub' h'
  refine hval ?_
  rcases hd with ⟨ha, hns⟩ | hfo
  · left
    have hin : i ∈ j.after.ids := by
      rw [hje]
      show i ∈ (reduceAfter (run cfg evs) sub.after).ids
      rw [ha]
      exact reduceAfter_keeps hf.snoc hi hnot hns
    rw [validateDep_invalid hin hall]
    simp
  · right
    rw [hfo, validateDep_invalid hi hall]
    simp

/-- C21: a task that arrives, or that an engine gives back, does not wait if — as far as is known — it can never run and some engine has nothing to do: it is answered, once. -/
theorem doomed_subject_answered_partial (cfg : Config) (evs : List Event) (ev : Event) (hC : cfg.hwm = 1) (hr : InRange cfg) (hf : Fresh (evs ++ [ev]))
    (hp : Prompt cfg (evs ++ [ev])) (ht : ∀ m sub, Event.submit m sub ∈ evs ++ [ev] → Tame sub) (hc : CleanArrivals cfg (evs ++ [ev])) (m : MsgId) (ha : About ev m)
    (e : Engine) (hi : Idle e (heard cfg evs ev)) (hd : Doomed (heard cfg evs ev) m) :
    replies m (run cfg (evs ++ [ev])).trace = 1 := by
  obtain ⟨⟨⟨⟨hl, hji⟩, _⟩, _⟩, _⟩ := run_subInv cfg (evs ++ [ev]) hf
  rcases ha with ⟨sub, rfl⟩ | ⟨e', ok, dm, rfl⟩
  · obtain ⟨S, j, hSe, hje, hh, hk, hj, hE, hL, hval, hdue, hroom⟩ := submit_core hC hr hf hp ht hc
    rw [hh] at hi hd
    have hun : ∀ d, d.unreachable S.allCompleted (some S.allFailed) = true → validateDep S m d ≠ none := fun d h => by
      have hne := ((unreachable_iff d _ _).mp h).1
      unfold validateDep
      rw [if_neg hne]
      split
      · simp
      · simp
    obtain ⟨j', hj', h⟩ := dead_of_doomed hk hj hd
    rw [hj.job] at hj'; cases hj'
    rcases h with h | h | ⟨h, h'⟩
    · exact hval (Or.inl (hun _ h))
    · exact hval (Or.inr (hun _ (by rw [← hj.fol]; exact h)))
    · exact act_answered hE hL hji hd (hdue h ⟨j, hj.job, Or.inr ⟨h', e, hroom e hi⟩⟩)
  · obtain ⟨hL, h | ⟨S, j, sub, hh, hk, hj, hE, hno, hdue, hroom⟩⟩ := result_core hC hr hf hp (fun m' sub' h => ht m' sub' (by simp [h]))
      (fun p m' sub' q hq => hc p m' sub' (q ++ [.result e' m ok dm]) (by rw [hq]; simp))
    · have h1 := replies_pos_of (m := m) h (by simp [isReply])
      have h2 := hL.1.rep m
      omega
    · rw [hh] at hi hd
      refine act_answered hE hL hji hd (hdue ⟨j, hj.job, Or.inr ⟨?_, e, hroom e hi⟩⟩)
      obtain ⟨sub', hs, hd⟩ := hd
      obtain rfl := hj.uni sub' hs
      rcases hd with ⟨d, hd, hh⟩ | ⟨_, hd⟩
      · exact absurd hh (hno d hd)
      · rcases deadJ_of_doomed hk hj hd with h | h
        · exfalso
          rw [hj.fol] at h
          exact hno _ (Or.inr rfl) (hopeless_of_unreachable (fun i hi => (hk.ok i).mpr hi) (fun i hi => (hk.bad i).mpr hi) h).2
        · exact h

/-- C56: a task that arrives, or that an engine gives back, does not wait if — as far as is known — it can run on an engine with nothing to do. -/
theorem runnable_subject_sent_partial (cfg : Config) (evs : List Event) (ev : Event) (hC : cfg.hwm = 1) (hr : InRange cfg) (hf : Fresh (evs ++ [ev]))
    (hp : Prompt cfg (evs ++ [ev])) (ht : ∀ m sub, Event.submit m sub ∈ evs ++ [ev] → Tame sub) (hc : CleanArrivals cfg (evs ++ [ev])) (m : MsgId) (ha : About ev m)
    (e : Engine) (hi : Idle e (heard cfg evs ev)) (hd : Runnable (heard cfg evs ev) m e) :
    replies m (run cfg (evs ++ [ev])).trace = 1 ∨ ∃ e', m ∈ assigned e' (run cfg (evs ++ [ev])).trace := by
  rcases ha with ⟨sub, rfl⟩ | ⟨e', ok, dm, rfl⟩
  · obtain ⟨S, j, hSe, hje, hh, hk, hj, hE, hL, hval, hdue, hroom⟩ := submit_core hC hr hf hp ht hc
    rw [hh] at hi hd
    obtain ⟨j', hj', h, h'⟩ := able_of_runnable hk hj hd
    rw [hj.job] at hj'; cases hj'
    exact act_done hE hL (hdue h ⟨j, hj.job, Or.inl ⟨e, hroom e hi, h'⟩⟩)
  · obtain ⟨hL, h | ⟨S, j, sub, hh, hk, hj, hE, hno, hdue, hroom⟩⟩ := result_core hC hr hf hp (fun m' sub' h => ht m' sub' (by simp [h]))
      (fun p m' sub' q hq => hc p m' sub' (q ++ [.result e' m ok dm]) (by rw [hq]; simp))
    · have h1 := replies_pos_of (m := m) h (by simp [isReply])
      have h2 := hL.1.rep m
      exact Or.inl (by omega)
    · rw [hh] at hi hd
      obtain ⟨j', hj', h, h'⟩ := able_of_runnable hk hj hd
      rw [hj.job] at hj'; cases hj'
      exact act_done hE hL (hdue ⟨j, hj.job, Or.inl ⟨e, hroom e hi, h'⟩⟩)

/-! ### Examples that meet the hypotheses -/

/-- Three engines, hwm = 1.  Task 1 has failed on engine 9; task 2 has succeeded on engine 8, task 3 on engine 7.  Task 4 is on engine 8, its only target; task 5 is on 7. -/
def exSelf : List Event :=
  [.register 7, .register 8, .register 9, .submit 1 {}, .result 9 1 false true, .submit 2 {}, .submit 3 {}, .result 8 2 true true, .result 7 3 true true,
   .submit 4 { targets := [8], retries := 1 }, .submit 5 { retries := 1 }]

/-- What may happen next. -/
def exNext : List Event :=
  [.submit 6 { after := some { ids := [1] } }, .submit 6 { after := some { ids := [1, 99] } }, .submit 6 { follow := { ids := [2, 3] } }, .submit 6 { follow := { ids := [3] } },
   .result 8 4 false true, .result 9 5 false true]

theorem exSelf_hyps (ev : Event) (h : ev ∈ exNext) : InRange (Violations.cfg 1) ∧ Fresh (exSelf ++ [ev]) ∧ Prompt (Violations.cfg 1) (exSelf ++ [ev]) ∧
    (∀ m sub, Event.submit m sub ∈ exSelf ++ [ev] → Tame sub) ∧ CleanArrivals (Violations.cfg 1) (exSelf ++ [ev]) := by
  have htame : ∀ sub : Submission, ((∀ a, sub.after = some a → a.all = true ∧ a.success = true ∧ a.ids.Nodup) ∧ sub.follow.all = true ∧ sub.follow.success = true ∧
      sub.follow.failure = false ∧ sub.follow.ids.Nodup) → Tame sub := by
    rintro sub ⟨h1, h2, h3, h4, h5⟩
    exact ⟨⟨fun a ha => by simp [(h1 a ha).2.1], by simp [h3]⟩, ⟨fun a ha => (h1 a ha).2.2, h5⟩, Or.inl ⟨fun a ha => Or.inl (h1 a ha).1, Or.inl h2⟩, Or.inl h4⟩
  have hold : ∀ m sub, Event.submit m sub ∈ exSelf → Tame sub := fun m sub h => by
    simp only [exSelf, List.mem_cons, Event.submit.injEq, reduceCtorEq, false_or, or_false, List.not_mem_nil] at h
    rcases h with ⟨rfl, rfl⟩ | ⟨rfl, rfl⟩ | ⟨rfl, rfl⟩ | ⟨rfl, rfl⟩ | ⟨rfl, rfl⟩
    all_goals exact htame _ (by simp)
  have hnew : ∀ m sub, Event.submit m sub = ev → Tame sub := fun m sub hs => by
    simp only [exNext, List.mem_cons, List.not_mem_nil, or_false] at h
    rcases h with rfl | rfl | rfl | rfl | rfl | rfl <;> cases hs
    all_goals exact htame _ (by simp)
  refine ⟨fun _ l h => (schemes_valid l h 0 0).1, ?_, ?_, fun m sub hs => ?_, ?_⟩
  · simp only [exNext, List.mem_cons, List.not_mem_nil, or_false] at h
    rcases h with rfl | rfl | rfl | rfl | rfl | rfl <;> (unfold Fresh; decide)
  · refine prompt_of_check ?_
    simp only [exNext, List.mem_cons, List.not_mem_nil, or_false] at h
    rcases h with rfl | rfl | rfl | rfl | rfl | rfl <;> decide +kernel
  · rcases List.mem_append.mp hs with hs | hs
    · exact hold m sub hs
    · exact hnew m sub (List.mem_singleton.mp hs)
  · refine clean_of_check ?_
    simp only [exNext, List.mem_cons, List.not_mem_nil, or_false] at h
    rcases h with rfl | rfl | rfl | rfl | rfl | rfl <;> decide +kernel

/-- The new task needs the success of task 1, which has failed: it is answered. -/
example : Hopeless { ids := [1] } (run (Violations.cfg 1) exSelf).trace ∧
    replies 6 (run (Violations.cfg 1) (exSelf ++ [.submit 6 { after := some { ids := [1] } }])).trace = 1 := by
  have h : Hopeless { ids := [1] } (run (Violations.cfg 1) exSelf).trace := Or.inl ⟨rfl, 1, by simp, Or.inr ⟨rfl, by decide +kernel⟩⟩
  obtain ⟨h1, h2, h3, h4, h5⟩ := exSelf_hyps (.submit 6 { after := some { ids := [1] } }) (by simp [exNext])
  exact ⟨h, hopeless_arrival_answered_partial _ _ _ _ rfl h1 h2 h3 h4 h5 _ (Or.inl rfl) h⟩

/-- The new task needs task 99, which nobody has submitted: it is answered. -/
example : replies 6 (run (Violations.cfg 1) (exSelf ++ [.submit 6 { after := some { ids := [1, 99] } }])).trace = 1 := by
  obtain ⟨h1, h2, h3, h4, h5⟩ := exSelf_hyps (.submit 6 { after := some { ids := [1, 99] } }) (by simp [exNext])
  refine invalid_arrival_answered_partial _ _ _ _ rfl h1 h2 h3 h4 h5 { ids := [1, 99] } 99 (by simp) (Or.inl ⟨rfl, ?_⟩) (Or.inr fun sub' h => by simp [exSelf] at h)
  rintro (h | ⟨_, h⟩ | ⟨h, _⟩)
  · cases h
  · rcases h 99 (by simp) with ⟨_, h⟩ | ⟨h, _⟩
    · exact absurd h (by decide +kernel)
    · cases h
  · cases h

/-- The new task must follow tasks 2 and 3, which have ended in two places; engine 7 idles: the task is answered. -/
example : Idle 7 (heard (Violations.cfg 1) exSelf (.submit 6 { follow := { ids := [2, 3] } })) ∧
    Doomed (heard (Violations.cfg 1) exSelf (.submit 6 { follow := { ids := [2, 3] } })) 6 :=
  ⟨⟨by unfold Registered; decide +kernel, by decide +kernel⟩, _, mem_arrivals.mp (by decide +kernel : (6, { follow := { ids := [2, 3] } }) ∈ _),
    Or.inr ⟨fun a h => (by cases h), Or.inl ⟨rfl, 2, 3, 8, 7, by simp, by simp, by decide +kernel, by decide +kernel, by decide⟩⟩⟩

/-- Task 4 fails on engine 8, its only target; engine 7 idles: the task is answered. -/
example : Idle 7 (heard (Violations.cfg 1) exSelf (.result 8 4 false true)) ∧ Doomed (heard (Violations.cfg 1) exSelf (.result 8 4 false true)) 4 ∧
    replies 4 (run (Violations.cfg 1) (exSelf ++ [.result 8 4 false true])).trace = 1 := by
  have hi : Idle 7 (heard (Violations.cfg 1) exSelf (.result 8 4 false true)) := ⟨by unfold Registered; decide +kernel, by decide +kernel⟩
  have hd : Doomed (heard (Violations.cfg 1) exSelf (.result 8 4 false true)) 4 :=
    ⟨_, mem_arrivals.mp (by decide +kernel : (4, { targets := [8], retries := 1 }) ∈ _),
      Or.inr ⟨fun a h => (by cases h), Or.inr ⟨by simp, fun t ht => Or.inl ⟨.failure, by rw [List.mem_singleton.mp ht]; decide +kernel⟩⟩⟩⟩
  obtain ⟨h1, h2, h3, h4, h5⟩ := exSelf_hyps (.result 8 4 false true) (by simp [exNext])
  exact ⟨hi, hd, doomed_subject_answered_partial _ _ _ rfl h1 h2 h3 h4 h5 4 (Or.inr ⟨_, _, _, rfl⟩) 7 hi hd⟩

/-- Task 5 fails on engine 9 but can run on engine 7, which idles: it goes there.  And the task that must follow task 3 goes to engine 7 as well. -/
example : (Idle 7 (heard (Violations.cfg 1) exSelf (.result 9 5 false true)) ∧ Runnable (heard (Violations.cfg 1) exSelf (.result 9 5 false true)) 5 7 ∧
      assigned 7 (run (Violations.cfg 1) (exSelf ++ [.result 9 5 false true])).trace = [5]) ∧
    Idle 7 (heard (Violations.cfg 1) exSelf (.submit 6 { follow := { ids := [3] } })) ∧ Runnable (heard (Violations.cfg 1) exSelf (.submit 6 { follow := { ids := [3] } })) 6 7 ∧
      assigned 7 (run (Violations.cfg 1) (exSelf ++ [.submit 6 { follow := { ids := [3] } }])).trace = [6] := by
  refine ⟨⟨⟨by unfold Registered; decide +kernel, by decide +kernel⟩, ⟨_, mem_arrivals.mp (by decide +kernel : (5, { retries := 1 }) ∈ _), fun a h => (by cases h),
      by unfold Registered; decide +kernel, fun c => ?_, Or.inl rfl, Or.inl rfl⟩, by decide +kernel⟩,
    ⟨by unfold Registered; decide +kernel, by decide +kernel⟩, ⟨_, mem_arrivals.mp (by decide +kernel : (6, { follow := { ids := [3] } }) ∈ _), fun a h => (by cases h),
      by unfold Registered; decide +kernel, fun c => ?_, Or.inl rfl, Or.inr (Or.inl ⟨rfl, fun i hi => Or.inl ⟨rfl, ?_⟩⟩)⟩, by decide +kernel⟩
  · cases c <;> decide +kernel
  · cases c <;> decide +kernel
  · rw [List.mem_singleton.mp hi]; decide +kernel

end IPP.Sched
