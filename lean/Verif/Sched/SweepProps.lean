import Verif.Sched.SweepKnow
import Verif.Sched.WorkProps

/-!
# C21, C56: the scheduler acts upon every waiting task it can act upon — with dependencies
-/
namespace IPP.Sched

variable {cfg : Config} {s S s' : State} {x m : MsgId} {e : Engine}

/-! ### Lemmas -/

theorem LInv.neat (h : LInv cfg [] [] s) : Neat s where
  len := by rw [h.1.load]; simp
  nodup := h.1.tnd
  gone := fun x j hj hr hq => by
    obtain ⟨_, j', hj', hr'⟩ := h.1.qm x hq
    rw [hj] at hj'; cases hj'
    rw [hr] at hr'; cases hr'

theorem LInv.hasLoad (h : LInv cfg [] [] s) (he : e ∈ s.targets) : HasLoad s e ((assigned e s.trace).length : Int) := by
  unfold HasLoad
  obtain ⟨i, hi⟩ := List.getElem?_of_mem he
  refine List.mem_of_getElem? (i := i) ?_
  rw [List.getElem?_zip_eq_some]
  refine ⟨hi, ?_⟩
  rw [h.1.load, List.getElem?_map, hi]
  rfl

theorem LInv.one (hC : cfg.hwm = 1) (h : LInv cfg [] [] s) (hl : LoadInv cfg s) (he : e ∈ s.targets) (hm : m ∈ assigned e s.trace) :
    HasLoad s e (cfg.hwm : Int) := by
  have h1 := h.hasLoad he
  have h2 : ((assigned e s.trace).length : Int) = loadSpec e s.trace := by
    have := h.1.load.symm.trans hl.load
    exact List.map_inj_left.mp this e he
  have h3 := hl.hwm (by omega) e
  have h4 := List.length_pos_of_mem hm
  have : ((assigned e s.trace).length : Int) = (cfg.hwm : Int) := by omega
  rw [← this]; exact h1

theorem takeWhile_decision (a b : List Obs) (ha : ∀ o ∈ a, isDecision o = false) (hb : ∀ o ∈ b, isDecision o = true) :
    (a ++ b).takeWhile (fun o => !isDecision o) = a := by
  induction a with
  | nil =>
    cases b with
    | nil => rfl
    | cons o b => simp [hb o (by simp)]
  | cons o a ih =>
    rw [List.cons_append, List.takeWhile_cons, ha o (by simp)]
    simp only [Bool.not_false, if_true]
    rw [ih fun o ho => ha o (by simp [ho])]

theorem heard_eq {evs : List Event} {ev : Event} {tl : List Obs} (h : S.trace = (run cfg evs).trace ++ tl) (ht : ∀ o ∈ tl, isDecision o = false)
    (he : Env S (run cfg (evs ++ [ev]))) : heard cfg evs ev = S.trace := by
  obtain ⟨b, h1, h2⟩ := he.ext
  unfold heard
  rw [h1, h, List.append_assoc, List.drop_left, takeWhile_decision tl b ht h2]

/-- The state in which the scheduler begins to decide. -/
theorem sweep_core {evs : List Event} {ev : Event} (hC : cfg.hwm = 1) (hr : InRange cfg) (hf : Fresh (evs ++ [ev])) (hp : Prompt cfg (evs ++ [ev]))
    (ht : ∀ m sub, Event.submit m sub ∈ evs → Tame sub) (hc : CleanArrivals cfg evs) (hw : Wakes cfg evs ev) :
    ∃ S, heard cfg evs ev = S.trace ∧ Known S ∧ Env S (run cfg (evs ++ [ev])) ∧ LInv cfg [] [] (run cfg (evs ++ [ev])) ∧
      ∀ x, Waits x (run cfg evs).trace → (∃ sub j, JobKnown S x sub j) ∧ (Due cfg S (run cfg (evs ++ [ev])) x → Act S (run cfg (evs ++ [ev])) x) := by
  have hL := run_linv hC hr hf.snoc hp.snoc ht hc
  have hb := run_base cfg evs hf.snoc
  obtain ⟨⟨⟨⟨hl, hji⟩, hpi⟩, hfi⟩, _⟩ := run_subInv cfg evs hf.snoc
  have hn := hL.neat
  have hk := known_of hL hl hji hfi
  have hcon : ∀ x sub, Obs.submitted x sub ∈ (run cfg evs).trace → sub.Constructible := fun x sub hs => (ht x sub (hb.2 _ hs)).constructible
  have hwait : ∀ x, Waits x (run cfg evs).trace → InQ (run cfg evs) x := by
    rintro x ⟨⟨sub, hs⟩, h0, hna⟩
    have hev := hb.2 _ hs
    have hj := job_exists cfg evs hf.snoc x sub (ht x sub hev).constructible.wellFormed hev
    cases hj' : (run cfg evs).jobs x with
    | none => exact absurd hj' hj
    | some j =>
      rcases hL.1.lost trivial x j hj' h0 with a | ⟨e', a⟩ | a
      · exact ⟨by simpa [ltop] using hL.1.wait trivial x a, a⟩
      · exact absurd a (hna e')
      · cases a
  have hfr := hf.freshIn hb.1 hb.2
  have hfuel := handle_fuel (cfg := cfg) (n := fuelFor (run cfg evs)) (run cfg evs) ev (run_ok evs) (Nat.le_refl _)
  have hlk := linkAt hC hr (fuelFor (run cfg evs))
  rw [run_snoc] at *
  unfold step at *
  rcases hw with ⟨e, rfl⟩ | ⟨e, m, ok, dm, rfl, hreg⟩
  · have hfr : Obs.registered e ∉ (run cfg evs).trace := hfr
    have hnu : Obs.unregistered e ∉ (run cfg evs).trace := fun hh => by
      have h1 := hl.reg e
      have h2 := List.count_pos_iff.mpr hh
      rw [List.count_eq_zero.mpr hfr] at h1
      omega
    have hnt : e ∉ (run cfg evs).targets := (hL.1.fre e hfr).2.1
    have hsw := registerEngine_sweep (cfg := cfg) (n := fuelFor (run cfg evs)) e (run cfg evs) hn hnt
    have hlink := (registerEngine_link hlk e).at (P := fun s => LInv cfg [] [] s ∧ Obs.registered e ∉ s.trace) ⟨hL, hfr⟩
    have hall := (hsw.and (hlink.and hfuel)).final (I := fun s' => (∃ s₁, s₁ = { run cfg evs with
        trace := (run cfg evs).trace ++ [.registered e]
        targets := e :: (run cfg evs).targets
        loads := 0 :: (run cfg evs).loads
        completed := upd (run cfg evs).completed e (some [])
        failed := upd (run cfg evs).failed e (some [])
        pending := upd (run cfg evs).pending e (some []) } ∧ Env s₁ s' ∧ ∀ x, InQ (run cfg evs) x → Due cfg s₁ s' x → Act s₁ s' x) ∧ LInv cfg [] [] s')
      (fun _ _ h => ⟨h.1, h.2.1⟩) (fun _ _ h => absurd h.2.1 h.2.2.1) ⟨rfl, rfl, rfl⟩
    obtain ⟨⟨S, hS, hE, hA⟩, hL'⟩ := hall
    have htr : S.trace = (run cfg evs).trace ++ [.registered e] := by rw [hS]
    refine ⟨S, heard_eq htr (by simp [isDecision]) (by rw [run_snoc]; exact hE), hk.register hL hfr hnu hS, hE, hL', fun x hx => ⟨?_, hA x (hwait x hx)⟩⟩
    obtain ⟨sub, j, h⟩ := jobKnown_of hL hji hpi hfi (hwait x hx).2 (hcon x)
    exact ⟨sub, j, h.later (by rw [hS]) htr (by simp) (by rw [hS]; exact fun _ h => h) (by rw [hS]; exact fun _ h => h)⟩
  · have hm : m ∈ assigned e (run cfg evs).trace := hp evs e m ok dm [] rfl
    have het := (registered_iff hl e).mp hreg
    obtain ⟨hmq, hmr, j, hj, hjr⟩ := hL.1.asg m e hm
    have hsw := result_sweep (cfg := cfg) (n := fuelFor (run cfg evs)) (by omega) e m ok dm (run cfg evs) hn (hL.one hC hl het hm)
      (fun j' hj' => by rw [hj] at hj'; cases hj'; exact hjr)
    have hlink : HoareE (fun s' => s' = run cfg evs) (handle cfg (fuelFor (run cfg evs)) (.result e m ok dm)) (fun _ => LInv cfg [] []) FuelE := by
      unfold handle
      refine HoareE.emit fun s₁ hs₁ => ?_
      subst hs₁
      exact dispatchResult_link hlk hL (Or.inl ⟨ok, dm, rfl⟩) hm (by simp)
    have hall := (hsw.and (hlink.and hfuel)).final (I := fun s' => (∃ S, Hears e m ok dm (run cfg evs) S ∧ Env S s' ∧
      ∀ x, x ≠ m → InQ (run cfg evs) x → Due cfg S s' x → Act S s' x) ∧ LInv cfg [] [] s')
      (fun _ _ h => ⟨h.1, h.2.1⟩) (fun _ _ h => absurd h.2.1 h.2.2.1) ⟨rfl, rfl, rfl⟩
    obtain ⟨⟨S, hS, hE, hA⟩, hL'⟩ := hall
    have htr : ∃ o, S.trace = (run cfg evs).trace ++ [.received e m ok dm, o] ∧ (o = .relay e m ok ∨ ∃ c, o = .retry e m c) := by
      cases hS with
      | relay c hc htr => exact ⟨_, htr, Or.inl rfl⟩
      | retry c htr => exact ⟨_, htr, Or.inr ⟨c, rfl⟩⟩
    obtain ⟨o, htr, ho⟩ := htr
    have hnd : isDecision o = false := by rcases ho with rfl | ⟨c, rfl⟩ <;> rfl
    refine ⟨S, heard_eq htr (by simpa [isDecision] using hnd) (by rw [run_snoc]; exact hE), hk.hears hmr hS, hE, hL', fun x hx => ?_⟩
    have hxm : x ≠ m := fun hh => hx.2.2 e (hh ▸ hm)
    refine ⟨?_, hA x hxm (hwait x hx)⟩
    obtain ⟨sub, j, h⟩ := jobKnown_of hL hji hpi hfi (hwait x hx).2 (hcon x)
    refine ⟨sub, j, h.later ?_ htr ?_ ?_ ?_⟩
    · cases hS with
      | relay _ _ _ _ hj => rw [hj]
      | retry _ _ _ hj => exact hj x hxm
    · intro o' ho'
      simp only [List.mem_cons, List.not_mem_nil, or_false] at ho'
      rcases ho' with rfl | rfl
      · simp
      · rcases ho with rfl | ⟨c, rfl⟩
        · simp
        · simp only [ne_eq, reduceCtorEq, not_false_eq_true, implies_true, Obs.retry.injEq, true_and]
          exact fun _ _ h => hxm h.2.1.symm
    · cases hS with
      | relay _ _ _ _ _ _ _ hac => intro i hi; rw [hac]; split <;> simp [hi]
      | retry _ _ _ _ _ _ hac => rw [hac]; exact fun _ h => h
    · cases hS with
      | relay _ _ _ _ _ _ _ _ haf => intro i hi; rw [haf]; split <;> simp [hi]
      | retry _ _ _ _ _ _ _ haf => rw [haf]; exact fun _ h => h

theorem idle_room (hC : cfg.hwm = 1) (h : LInv cfg [] [] s) (hl : LoadInv cfg s) (hi : Idle e s.trace) : Room cfg s e := by
  refine ⟨_, h.hasLoad ((registered_iff hl e).mp hi.1), Or.inr ?_⟩
  rw [hi.2, hC]
  simp

theorem okIds_sub {p q : List Obs} : ∀ i ∈ okIds p, i ∈ okIds (p ++ q) := fun i hi => by
  rw [okIds_iff] at *
  exact hi.imp fun e he => List.mem_append_left _ he

theorem failIds_sub {p q : List Obs} : ∀ i ∈ failIds p, i ∈ failIds (p ++ q) := fun i hi => by
  rw [failIds_iff] at *
  exact hi.imp (fun h => h.imp fun e he => List.mem_append_left _ he) (fun h => h.imp fun e he => List.mem_append_left _ he)

theorem replies_prefix {p q : List Obs} {i : MsgId} (h : replies i (p ++ q) ≤ 1) : replies i p ≤ 1 := by
  rw [replies_eq, List.countP_append] at h
  rw [replies_eq]; omega

/-- What can never run is not sent. -/
theorem doomed_not_sent {t tl : List Obs} (hrep : ∀ i, replies i s.trace ≤ 1) (hj : JobInv s) (hs : s.trace = t ++ tl) (ht : ∀ o ∈ tl, isDecision o = true)
    (hsent : ∀ p e m q, s.trace = p ++ .send e m :: q → ∀ sub, Obs.submitted m sub ∈ p → sub.targets = [] ∨ e ∈ sub.targets)
    (hd : Doomed t x) : Obs.send e x ∉ tl := by
  intro hmem
  obtain ⟨q, r, rfl⟩ := List.append_of_mem hmem
  have hs' : s.trace = (t ++ q) ++ .send e x :: r := by rw [hs]; simp
  obtain ⟨hreg, hnr, sub, hsub, hfol, haft⟩ := hj.sent _ _ _ _ hs'
  obtain ⟨sub', hsub', hdd⟩ := hd
  have hin : ∀ o, o ∈ t → o ∈ s.trace := fun o ho => by rw [hs]; exact List.mem_append_left _ ho
  have hin' : ∀ o, o ∈ t ++ q → o ∈ s.trace := fun o ho => by rw [hs']; exact List.mem_append_left _ ho
  obtain rfl := hj.uniq x sub' sub (hin _ hsub') (hin' _ hsub)
  have hrep' : ∀ i, replies i (t ++ q) ≤ 1 := fun i => replies_prefix (q := .send e x :: r) (by rw [← hs']; exact hrep i)
  have hdis : ∀ i, ¬ (i ∈ okIds (t ++ q) ∧ i ∈ failIds (t ++ q)) := fun i h => ok_not_fail (hrep' i) h.1 h.2
  have hfol' : Satisfied sub'.follow (okIds (t ++ q)) (failIds (t ++ q)) :=
    hfol.mono (fun i hi => okIds_iff.mpr ⟨e, okOn_iff.mp hi⟩) (fun i hi => failIds_iff.mpr (Or.inl ⟨e, failOn_iff.mp hi⟩))
  rcases hdd with ⟨d, hda | hdf, hh⟩ | ⟨_, ⟨hall, a, b, ea, eb, ha, hb, hra, hrb, hne⟩ | ⟨htn, htt⟩⟩
  · exact hh.not_satisfied okIds_sub failIds_sub hdis (haft d hda)
  · exact hh.not_satisfied okIds_sub failIds_sub hdis (hdf ▸ hfol')
  · have key : ∀ i ei, i ∈ sub'.follow.ids → Obs.relay ei i true ∈ t → ei = e := by
      intro i ei hi hr
      have hacc : Acceptable sub'.follow (okOn e (t ++ q)) (failOn e (t ++ q)) i := by
        rcases hfol with h | ⟨_, h⟩ | ⟨h, _⟩
        · rw [h] at hi; cases hi
        · exact h i hi
        · rw [hall] at h; cases h
      have hr' : Obs.relay ei i true ∈ t ++ q := List.mem_append_left _ hr
      rcases hacc with ⟨_, h⟩ | ⟨_, h⟩
      · have := one_reply (hrep' i) hr' (okOn_iff.mp h) (by simp [isReply]) (by simp [isReply])
        simpa using this
      · have := one_reply (hrep' i) hr' (failOn_iff.mp h) (by simp [isReply]) (by simp [isReply])
        simp at this
    exact hne ((key a ea ha hra).trans (key b eb hb hrb).symm)
  · rcases hsent _ _ _ _ hs' sub' (List.mem_append_left _ hsub') with h | h
    · exact htn h
    · rcases htt e h with ⟨c, hc⟩ | h
      · exact hnr c (List.mem_append_left _ hc)
      · refine h ((registered_append fun o ho => ?_).mp hreg)
        have := ht o (by simp [ho])
        constructor <;> · rintro rfl; simp [isDecision] at this

theorem assigned_decisions {p q : List Obs} (hq : ∀ o ∈ q, isDecision o = true) (h : x ∈ assigned e p) : x ∈ assigned e (p ++ q) := by
  induction q using snoc_induction with
  | nil => simpa using h
  | snoc q o ih =>
    have := ih fun o ho => hq o (by simp [ho])
    rw [← List.append_assoc, assigned_snoc]
    have ho := hq o (by simp)
    cases o <;> simp [isDecision] at ho
    · dsimp only
      split
      · simp [this]
      · exact this
    · exact this

/-! ### The theorems -/

/-- C21: a task that can never run does not wait for ever.  When an engine registers, or a registered engine answers, and some engine has nothing to do
afterwards, then every waiting task that — as far as is known — can never run is answered, once. -/
theorem doomed_task_answered_partial (cfg : Config) (evs : List Event) (ev : Event) (hC : cfg.hwm = 1) (hr : InRange cfg) (hf : Fresh (evs ++ [ev]))
    (hp : Prompt cfg (evs ++ [ev])) (ht : ∀ m sub, Event.submit m sub ∈ evs → Tame sub) (hc : CleanArrivals cfg evs) (hw : Wakes cfg evs ev)
    (e : Engine) (hi : Idle e (run cfg (evs ++ [ev])).trace) (m : MsgId) (hm : Waits m (run cfg evs).trace) (hd : Doomed (heard cfg evs ev) m) :
    replies m (run cfg (evs ++ [ev])).trace = 1 := by
  obtain ⟨S, hS, hk, hE, hL, hx⟩ := sweep_core hC hr hf hp ht hc hw
  obtain ⟨⟨sub, j, hj⟩, hact⟩ := hx m hm
  obtain ⟨⟨⟨⟨hl, hji⟩, _⟩, _⟩, _⟩ := run_subInv cfg (evs ++ [ev]) hf
  rw [hS] at hd
  obtain ⟨tl, htl, h⟩ := hact (Or.inr ⟨dead_of_doomed hk hj hd, e, idle_room hC hL hl hi⟩)
  obtain ⟨tl', htl', hdec⟩ := hE.ext
  have : tl' = tl := List.append_cancel_left (htl'.symm.trans htl)
  subst this
  rcases h with ⟨e', h⟩ | ⟨why, h⟩
  · exact absurd h (doomed_not_sent hL.1.rep hji htl hdec hL.1.sent hd)
  · have h1 : replies m (run cfg (evs ++ [ev])).trace ≠ 0 := replies_pos_of (a := .fail m why) (by rw [htl]; exact List.mem_append_right _ h) (by simp [isReply])
    have h2 := hL.1.rep m
    omega

/-- C56: no engine idles while a task could run on it.  When an engine registers, or a registered engine answers, no task waits afterwards that — as far as is
known — can run on an engine with nothing to do. -/
theorem runnable_task_sent_partial (cfg : Config) (evs : List Event) (ev : Event) (hC : cfg.hwm = 1) (hr : InRange cfg) (hf : Fresh (evs ++ [ev]))
    (hp : Prompt cfg (evs ++ [ev])) (ht : ∀ m sub, Event.submit m sub ∈ evs → Tame sub) (hc : CleanArrivals cfg evs) (hw : Wakes cfg evs ev)
    (e : Engine) (hi : Idle e (run cfg (evs ++ [ev])).trace) (m : MsgId) (hm : Waits m (run cfg evs).trace) (hd : Runnable (heard cfg evs ev) m e) :
    replies m (run cfg (evs ++ [ev])).trace = 1 ∨ ∃ e', m ∈ assigned e' (run cfg (evs ++ [ev])).trace := by
  obtain ⟨S, hS, hk, hE, hL, hx⟩ := sweep_core hC hr hf hp ht hc hw
  obtain ⟨⟨sub, j, hj⟩, hact⟩ := hx m hm
  obtain ⟨⟨⟨⟨hl, hji⟩, _⟩, _⟩, _⟩ := run_subInv cfg (evs ++ [ev]) hf
  rw [hS] at hd
  obtain ⟨tl, htl, h⟩ := hact (Or.inl ⟨e, idle_room hC hL hl hi, able_of_runnable hk hj hd⟩)
  obtain ⟨tl', htl', hdec⟩ := hE.ext
  have : tl' = tl := List.append_cancel_left (htl'.symm.trans htl)
  subst this
  rcases h with ⟨e', h⟩ | ⟨why, h⟩
  · obtain ⟨q, r, rfl⟩ := List.append_of_mem h
    refine Or.inr ⟨e', ?_⟩
    have : (run cfg (evs ++ [ev])).trace = ((S.trace ++ q) ++ [.send e' m]) ++ r := by rw [htl]; simp
    rw [this]
    refine assigned_decisions (fun o ho => hdec o (by simp [ho])) ?_
    rw [assigned_snoc]
    simp
  · have h1 : replies m (run cfg (evs ++ [ev])).trace ≠ 0 := replies_pos_of (a := .fail m why) (by rw [htl]; exact List.mem_append_right _ h) (by simp [isReply])
    have h2 := hL.1.rep m
    exact Or.inl (by omega)

/-! ### Examples that meet the hypotheses -/

/-- Two engines, hwm = 1.  Task 1 runs on engine 8; tasks 2 and 3 need its success, tasks 4 and 5 its end or its failure. -/
def exSweep : List Event :=
  [.register 7, .register 8, .register 9, .submit 1 {}, .submit 2 { after := some { ids := [1] } }, .submit 3 { follow := { ids := [1] } },
   .submit 4 { after := some { ids := [1], failure := true }, targets := [8] }, .submit 5 { after := some { ids := [1], success := false, failure := true } }]

theorem exSweep_hyps (ok : Bool) : InRange (Violations.cfg 1) ∧ Fresh (exSweep ++ [.result 9 1 ok true]) ∧ Prompt (Violations.cfg 1) (exSweep ++ [.result 9 1 ok true]) ∧
    (∀ m sub, Event.submit m sub ∈ exSweep → Tame sub) ∧ CleanArrivals (Violations.cfg 1) exSweep ∧ Wakes (Violations.cfg 1) exSweep (.result 9 1 ok true) := by
  refine ⟨fun _ l h => (schemes_valid l h 0 0).1, ?_, prompt_of_check (by cases ok <;> decide), fun m sub h => ?_, clean_of_check (by decide), Or.inr ⟨9, 1, ok, true, rfl, ?_⟩⟩
  · unfold Fresh; cases ok <;> decide
  · simp only [exSweep, List.mem_cons, Event.submit.injEq, reduceCtorEq, false_or, or_false, List.not_mem_nil] at h
    rcases h with ⟨rfl, rfl⟩ | ⟨rfl, rfl⟩ | ⟨rfl, rfl⟩ | ⟨rfl, rfl⟩ | ⟨rfl, rfl⟩
    all_goals exact ⟨by simp [Submission.Constructible], by simp, Or.inl (by simp), Or.inl rfl⟩
  · unfold Registered; decide

theorem send_of_assigned {tr : List Obs} (h : m ∈ assigned e tr) : Obs.send e m ∈ tr := by
  induction tr using snoc_induction with
  | nil => cases h
  | snoc tr o ih =>
    rw [assigned_snoc] at h
    cases o with
    | send e' x =>
      dsimp only at h
      split at h
      · rename_i hee
        rcases List.mem_append.mp h with h | h
        · exact List.mem_append_left _ (ih h)
        · rw [List.mem_singleton] at h
          subst h hee
          simp
      · exact List.mem_append_left _ (ih h)
    | received e' x ok dm =>
      dsimp only at h
      split at h
      · exact List.mem_append_left _ (ih (List.mem_of_mem_erase h))
      · exact List.mem_append_left _ (ih h)
    | stranded e' x =>
      dsimp only at h
      split at h
      · exact List.mem_append_left _ (ih (List.mem_of_mem_erase h))
      · exact List.mem_append_left _ (ih h)
    | _ => exact List.mem_append_left _ (ih h)

theorem waits_of_check {tr : List Obs} (h1 : (arrivals tr).any (fun p => p.1 == m) = true) (h2 : replies m tr = 0) (h3 : sends m tr = 0) : Waits m tr := by
  obtain ⟨⟨m', sub⟩, h, hm⟩ := List.any_eq_true.mp h1
  have : m' = m := by simpa using hm
  subst this
  refine ⟨⟨sub, mem_arrivals.mp h⟩, h2, fun e he => ?_⟩
  have : 0 < sends m' tr := List.countP_pos_iff.mpr ⟨_, send_of_assigned he, by simp⟩
  omega

/-- All four wait before. -/
theorem exSweep_waits (m : MsgId) (h : m ∈ [2, 3, 4, 5]) : Waits m (run (Violations.cfg 1) exSweep).trace := by
  have key : ∀ m ∈ [2, 3, 4, 5], (arrivals (run (Violations.cfg 1) exSweep).trace).any (fun p => p.1 == m) = true ∧
      replies m (run (Violations.cfg 1) exSweep).trace = 0 ∧ sends m (run (Violations.cfg 1) exSweep).trace = 0 := by decide
  obtain ⟨h1, h2, h3⟩ := key m h
  exact waits_of_check h1 h2 h3

/-- When task 1 fails, tasks 2 and 3 can never run: they are answered.  Engine 9 idles afterwards: 4 and 5 go to 8 and 7. -/
example : Idle 9 (run (Violations.cfg 1) (exSweep ++ [.result 9 1 false true])).trace ∧ Doomed (heard (Violations.cfg 1) exSweep (.result 9 1 false true)) 2 ∧
    Doomed (heard (Violations.cfg 1) exSweep (.result 9 1 false true)) 3 ∧
    ([2, 3, 4, 5].map fun m => replies m (run (Violations.cfg 1) (exSweep ++ [.result 9 1 false true])).trace) = [1, 1, 0, 0] := by
  refine ⟨⟨by unfold Registered; decide, by decide⟩,
    ⟨{ after := some { ids := [1] } }, mem_arrivals.mp (by decide), Or.inl ⟨{ ids := [1] }, Or.inl rfl, Or.inl ⟨rfl, 1, by simp, Or.inr ⟨rfl, by decide⟩⟩⟩⟩,
    ⟨{ follow := { ids := [1] } }, mem_arrivals.mp (by decide), Or.inl ⟨{ ids := [1] }, Or.inr rfl, Or.inl ⟨rfl, 1, by simp, Or.inr ⟨rfl, by decide⟩⟩⟩⟩, by decide⟩

/-- When task 1 succeeds, task 2 can run on engine 7, which idles afterwards: 2 is on engine 8, 3 on 9, where 1 was; 4 waits for 8. -/
example : Idle 7 (run (Violations.cfg 1) (exSweep ++ [.result 9 1 true true])).trace ∧ Runnable (heard (Violations.cfg 1) exSweep (.result 9 1 true true)) 2 7 ∧
    ([7, 8, 9].map fun e => assigned e (run (Violations.cfg 1) (exSweep ++ [.result 9 1 true true])).trace) = [[], [2], [3]] := by
  have hh : heard (Violations.cfg 1) exSweep (.result 9 1 true true) = [.registered 7, .registered 8, .registered 9, .submitted 1 {}, .send 9 1,
      .submitted 2 { after := some { ids := [1] } }, .submitted 3 { follow := { ids := [1] } },
      .submitted 4 { after := some { ids := [1], failure := true }, targets := [8] },
      .submitted 5 { after := some { ids := [1], success := false, failure := true } }, .received 9 1 true true, .relay 9 1 true] := by decide
  refine ⟨⟨by unfold Registered; decide, by decide⟩, ?_, by decide⟩
  rw [hh]
  refine ⟨{ after := some { ids := [1] } }, by simp, ?_, by unfold Registered; decide, by simp, Or.inl rfl, Or.inl rfl⟩
  intro a ha
  cases ha
  exact Or.inr (Or.inl ⟨rfl, fun i hi => Or.inl ⟨rfl, by rw [List.mem_singleton.mp hi]; decide⟩⟩)

/-- What the scheduler itself decides while it goes through the queue may come too late: task 2 waits for task 1, which waits for engine 7, the only other engine
it may run on.  Engine 7 dies; when engine 10 registers, task 1 is answered, but task 2, which comes before it in the queue, is not — it waits although three engines idle. -/
theorem Violations.doomed_by_decision_waits :
    let s := run (Violations.cfg 1) [.register 7, .register 9, .submit 1 { targets := [7, 9], retries := 1 }, .submit 2 { after := some { ids := [1] } }, .submit 3 {},
      .result 9 1 false true, .register 11, .unregister 7, .register 10]
    1 ∈ failIds s.trace ∧ replies 2 s.trace = 0 ∧ 2 ∈ s.queue ∧ assigned 9 s.trace = [] ∧ assigned 10 s.trace = [] ∧ assigned 11 s.trace = [] := by decide +kernel

end IPP.Sched
