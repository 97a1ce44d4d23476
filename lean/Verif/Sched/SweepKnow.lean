import Verif.Sched.Sweep3
import Verif.Sched.LinkProps

/-!
# What the scheduler knows when it decides (lemmas)
-/
namespace IPP.Sched

variable {cfg : Config} {s S : State} {x m : MsgId} {e : Engine}

/-- a final reply to `m` -/
def isReply (m : MsgId) : Obs → Bool
  | .relay _ m' _ => m' = m
  | .fail m' _ => m' = m
  | _ => false

theorem replies_eq (m : MsgId) (tr : List Obs) : replies m tr = tr.countP (isReply m) := rfl

theorem one_reply {tr : List Obs} {a b : Obs} (h : replies m tr ≤ 1) (ha : a ∈ tr) (hb : b ∈ tr) (hra : isReply m a = true) (hrb : isReply m b = true) : a = b := by
  rw [replies_eq] at h
  induction tr with
  | nil => cases ha
  | cons o tr ih =>
    rw [List.countP_cons] at h
    have hpos : ∀ o ∈ tr, isReply m o = true → 0 < tr.countP (isReply m) := fun o ho hr => List.countP_pos_iff.mpr ⟨o, ho, hr⟩
    rcases List.mem_cons.mp ha with rfl | ha' <;> rcases List.mem_cons.mp hb with rfl | hb'
    · rfl
    · have := hpos b hb' hrb
      rw [if_pos hra] at h
      omega
    · have := hpos a ha' hra
      rw [if_pos hrb] at h
      omega
    · exact ih (by omega) ha' hb'

theorem replies_pos_of {tr : List Obs} {a : Obs} (ha : a ∈ tr) (hr : isReply m a = true) : replies m tr ≠ 0 := by
  rw [replies_eq]
  exact Nat.ne_of_gt (List.countP_pos_iff.mpr ⟨a, ha, hr⟩)

theorem okIds_iff {tr : List Obs} {i : MsgId} : i ∈ okIds tr ↔ ∃ e, Obs.relay e i true ∈ tr := by
  unfold okIds
  rw [List.mem_filterMap]
  constructor
  · rintro ⟨o, ho, h⟩
    split at h
    · cases h; exact ⟨_, ho⟩
    · cases h
  · rintro ⟨e, h⟩; exact ⟨_, h, rfl⟩

theorem failIds_iff {tr : List Obs} {i : MsgId} : i ∈ failIds tr ↔ (∃ e, Obs.relay e i false ∈ tr) ∨ ∃ w, Obs.fail i w ∈ tr := by
  unfold failIds
  rw [List.mem_filterMap]
  constructor
  · rintro ⟨o, ho, h⟩
    split at h
    · cases h; exact Or.inl ⟨_, ho⟩
    · cases h; exact Or.inr ⟨_, ho⟩
    · cases h
  · rintro (⟨e, h⟩ | ⟨w, h⟩)
    · exact ⟨_, h, rfl⟩
    · exact ⟨_, h, rfl⟩

theorem okOn_iff {tr : List Obs} {i : MsgId} : i ∈ okOn e tr ↔ Obs.relay e i true ∈ tr := by
  unfold okOn
  rw [List.mem_filterMap]
  constructor
  · rintro ⟨o, ho, h⟩
    split at h
    · split at h
      · rename_i he; cases h; subst he; exact ho
      · cases h
    · cases h
  · intro h; exact ⟨_, h, by simp⟩

theorem failOn_iff {tr : List Obs} {i : MsgId} : i ∈ failOn e tr ↔ Obs.relay e i false ∈ tr := by
  unfold failOn
  rw [List.mem_filterMap]
  constructor
  · rintro ⟨o, ho, h⟩
    split at h
    · split at h
      · rename_i he; cases h; subst he; exact ho
      · cases h
    · cases h
  · intro h; exact ⟨_, h, by simp⟩

theorem ok_not_fail {tr : List Obs} {i : MsgId} (h : replies i tr ≤ 1) (ha : i ∈ okIds tr) (hb : i ∈ failIds tr) : False := by
  obtain ⟨e, ha⟩ := okIds_iff.mp ha
  rcases failIds_iff.mp hb with ⟨e', hb⟩ | ⟨w, hb⟩
  · have := one_reply h ha hb (by simp [isReply]) (by simp [isReply]); simp at this
  · have := one_reply h ha hb (by simp [isReply]) (by simp [isReply]); simp at this

/-- The scheduler's tables are exactly what the trace says. -/
structure Known (s : State) : Prop where
  ok : ∀ i, i ∈ okIds s.trace ↔ i ∈ s.allCompleted
  bad : ∀ i, i ∈ failIds s.trace ↔ i ∈ s.allFailed
  dis : ∀ i, ¬ (i ∈ s.allCompleted ∧ i ∈ s.allFailed)
  dst : ∀ e i, Obs.relay e i true ∈ s.trace → s.destinations i = some e
  tgt : ∀ t, t ∈ s.targets ↔ Registered t s.trace
  com : ∀ e ∈ s.targets, ∃ c f, s.completed e = some c ∧ s.failed e = some f ∧ ∀ i ∈ okOn e s.trace, i ∈ c

theorem known_of (h : LInv cfg [] [] s) (hl : LoadInv cfg s) (hj : JobInv s) (hf : FailInv s) : Known s := by
  have hans : ∀ i a, a ∈ s.trace → isReply i a = true → i ∈ s.allCompleted ∨ i ∈ s.allFailed := fun i a ha hr => h.2.dcf i (h.2.ans i (replies_pos_of ha hr))
  have hok : ∀ i, i ∈ okIds s.trace ↔ i ∈ s.allCompleted := fun i => by
    refine ⟨fun hi => ?_, hj.ok i⟩
    obtain ⟨e, he⟩ := okIds_iff.mp hi
    rcases hans i _ he (by simp [isReply]) with a | a
    · exact a
    · exact (ok_not_fail (h.1.rep i) hi (hj.bad i a)).elim
  have hdst : ∀ e i, Obs.relay e i true ∈ s.trace → s.destinations i = some e := fun e i hi => by
    have hc := (hok i).mp (okIds_iff.mpr ⟨e, hi⟩)
    cases hd : s.destinations i with
    | none => exact absurd hd (h.2.cd i hc).2
    | some e' =>
      obtain ⟨ok, hr⟩ := hf.dest i e' hd
      have := one_reply (h.1.rep i) hi hr (by simp [isReply]) (by simp [isReply])
      simp only [Obs.relay.injEq] at this
      rw [this.1]
  refine ⟨hok, fun i => ?_, fun i hi => ok_not_fail (h.1.rep i) (hj.ok i hi.1) (hj.bad i hi.2), hdst, fun t => (registered_iff hl t).symm, fun e he => ?_⟩
  · refine ⟨fun hi => ?_, hj.bad i⟩
    have : ∃ a ∈ s.trace, isReply i a = true := by
      rcases failIds_iff.mp hi with ⟨e, he⟩ | ⟨w, he⟩
      · exact ⟨_, he, by simp [isReply]⟩
      · exact ⟨_, he, by simp [isReply]⟩
    obtain ⟨a, ha, hr⟩ := this
    rcases hans i a ha hr with a | a
    · exact (ok_not_fail (h.1.rep i) (hj.ok i a) hi).elim
    · exact a
  · obtain ⟨_, h2, h3⟩ := h.1.reg e he
    cases hc : s.completed e with
    | none => exact absurd hc h2
    | some c =>
      cases hfe : s.failed e with
      | none => exact absurd hfe h3
      | some f =>
        refine ⟨c, f, rfl, rfl, fun i hi => ?_⟩
        have hi := okOn_iff.mp hi
        exact h.2.oke i e c (hdst e i hi) hc ((hok i).mp (okIds_iff.mpr ⟨e, hi⟩))

theorem registered_append {tr tl : List Obs} {t : Engine} (h : ∀ o ∈ tl, o ≠ .registered t ∧ o ≠ .unregistered t) : Registered t (tr ++ tl) ↔ Registered t tr := by
  unfold Registered
  rw [List.count_append, List.count_append, List.count_eq_zero.mpr (fun hh => (h _ hh).1 rfl), List.count_eq_zero.mpr (fun hh => (h _ hh).2 rfl)]
  simp

theorem Known.register (h : Known s) (hL : LInv cfg [] [] s) (hfr : Obs.registered e ∉ s.trace) (hu : Obs.unregistered e ∉ s.trace) (hS : S = { s with
        trace := s.trace ++ [.registered e]
        targets := e :: s.targets
        loads := 0 :: s.loads
        completed := upd s.completed e (some [])
        failed := upd s.failed e (some [])
        pending := upd s.pending e (some []) }) : Known S := by
  subst hS
  have hno : ∀ i b, Obs.relay e i b ∉ s.trace ∨ b = false := by
    intro i b
    cases b with
    | false => exact Or.inr rfl
    | true => exact Or.inl fun hh => hfr (hL.2.dreg i e (h.dst e i hh))
  refine ⟨fun i => ?_, fun i => ?_, h.dis, fun e' i hi => ?_, fun t => ?_, fun e' he' => ?_⟩
  · dsimp only; rw [← h.ok i, okIds_iff, okIds_iff]; simp
  · dsimp only; rw [← h.bad i, failIds_iff, failIds_iff]; simp
  · exact h.dst e' i (by simpa using hi)
  · dsimp only
    rw [List.mem_cons, h.tgt t]
    by_cases ht : t = e
    · subst ht
      have : Registered t (s.trace ++ [.registered t]) := by
        unfold Registered
        rw [List.count_append, List.count_append, List.count_eq_zero.mpr hu]
        simp
      simp [this]
    · rw [registered_append (by simp; exact fun h => ht h.symm)]
      simp [ht]
  · dsimp only
    by_cases ht : e' = e
    · subst ht
      refine ⟨[], [], upd_self _ _ _, upd_self _ _ _, fun i hi => ?_⟩
      have hi : Obs.relay e' i true ∈ s.trace := by simpa using okOn_iff.mp hi
      rcases hno i true with a | a
      · exact absurd hi a
      · cases a
    · rw [upd_ne _ _ ht, upd_ne _ _ ht]
      obtain ⟨c, f, h1, h2, h3⟩ := h.com e' ((List.mem_cons.mp he').resolve_left ht)
      exact ⟨c, f, h1, h2, fun i hi => h3 i (okOn_iff.mpr (by simpa using okOn_iff.mp hi))⟩

theorem Known.hears {ok dm : Bool} (h : Known s) (h0 : replies m s.trace = 0) (hS : Hears e m ok dm s S) : Known S := by
  have hnr : ∀ a ∈ s.trace, isReply m a ≠ true := fun a ha hr => replies_pos_of ha hr h0
  have hnc : m ∉ s.allCompleted := fun hh => by
    obtain ⟨e', he'⟩ := okIds_iff.mp ((h.ok m).mpr hh)
    exact hnr _ he' (by simp [isReply])
  have hnf : m ∉ s.allFailed := fun hh => by
    rcases failIds_iff.mp ((h.bad m).mpr hh) with ⟨e', he'⟩ | ⟨w, he'⟩
    · exact hnr _ he' (by simp [isReply])
    · exact hnr _ he' (by simp [isReply])
  cases hS with
  | retry c htr ht hj hco hfa hac haf hd =>
    refine ⟨fun i => ?_, fun i => ?_, ?_, fun e' i hi => ?_, fun t => ?_, fun e' he' => ?_⟩
    · rw [hac, ← h.ok i, okIds_iff, okIds_iff, htr]; simp
    · rw [haf, ← h.bad i, failIds_iff, failIds_iff, htr]; simp
    · rw [hac, haf]; exact h.dis
    · rw [hd]; rw [htr] at hi; exact h.dst e' i (by simpa using hi)
    · rw [ht, htr, registered_append (by simp)]; exact h.tgt t
    · rw [ht] at he'
      rw [hco, hfa, htr]
      obtain ⟨c, f, h1, h2, h3⟩ := h.com e' he'
      exact ⟨c, f, h1, h2, fun i hi => h3 i (okOn_iff.mpr (by simpa using okOn_iff.mp hi))⟩
  | relay c hc htr ht hj hco hfa hac haf hd =>
    refine ⟨fun i => ?_, fun i => ?_, fun i => ?_, fun e' i hi => ?_, fun t => ?_, fun e' he' => ?_⟩
    · rw [okIds_iff, htr, hac]
      cases ok with
      | true =>
        rw [if_pos rfl, mem_insertSet, ← h.ok i, okIds_iff]
        simp only [List.mem_append, List.mem_cons, reduceCtorEq, Obs.relay.injEq, and_true, List.not_mem_nil, or_false, false_or, exists_or]
        constructor
        · rintro (a | ⟨_, _, a⟩)
          · exact Or.inr a
          · exact Or.inl a
        · rintro (a | a)
          · exact Or.inr ⟨e, rfl, a⟩
          · exact Or.inl a
      | false =>
        rw [if_neg (by simp), ← h.ok i, okIds_iff]
        simp
    · rw [failIds_iff, htr, haf]
      cases ok with
      | true =>
        rw [if_pos rfl, ← h.bad i, failIds_iff]
        simp
      | false =>
        rw [if_neg (by simp), mem_insertSet, ← h.bad i, failIds_iff]
        simp only [List.mem_append, List.mem_cons, reduceCtorEq, Obs.relay.injEq, and_true, List.not_mem_nil, or_false, false_or, exists_or]
        constructor
        · rintro ((a | ⟨_, _, a⟩) | a)
          · exact Or.inr (Or.inl a)
          · exact Or.inl a
          · exact Or.inr (Or.inr a)
        · rintro (a | a | a)
          · exact Or.inl (Or.inr ⟨e, rfl, a⟩)
          · exact Or.inl (Or.inl a)
          · exact Or.inr a
    · rw [hac, haf]
      cases ok with
      | true =>
        rw [if_pos rfl, if_pos rfl, mem_insertSet]
        rintro ⟨a | a, b⟩
        · subst a; exact hnf b
        · exact h.dis i ⟨a, b⟩
      | false =>
        rw [if_neg (by simp), if_neg (by simp), mem_insertSet]
        rintro ⟨a, b | b⟩
        · subst b; exact hnc a
        · exact h.dis i ⟨a, b⟩
    · rw [hd]
      rw [htr] at hi
      simp only [List.mem_append, List.mem_cons, reduceCtorEq, Obs.relay.injEq, List.not_mem_nil, or_false, false_or] at hi
      rcases hi with hi | ⟨rfl, rfl, _⟩
      · rw [upd_ne]
        · exact h.dst e' i hi
        · intro hh; subst hh; exact hnr _ hi (by simp [isReply])
      · exact upd_self _ _ _
    · rw [ht, htr, registered_append (by simp)]; exact h.tgt t
    · rw [ht] at he'
      rw [htr]
      obtain ⟨c', f, h1, h2, h3⟩ := h.com e' he'
      have hokOn : ∀ i, i ∈ okOn e' (s.trace ++ [.received e m ok dm, .relay e m ok]) → i ∈ c' ∨ (e' = e ∧ i = m ∧ ok = true) := by
        intro i hi
        have hi := okOn_iff.mp hi
        simp only [List.mem_append, List.mem_cons, reduceCtorEq, Obs.relay.injEq, List.not_mem_nil, or_false, false_or] at hi
        rcases hi with hi | ⟨a, b, c⟩
        · exact Or.inl (h3 i (okOn_iff.mpr hi))
        · exact Or.inr ⟨a, b, c.symm⟩
      cases ok with
      | true =>
        rw [if_pos rfl] at hco hfa hc
        rw [hco, hfa]
        by_cases hee : e' = e
        · subst hee
          rw [hc] at h1; cases h1
          refine ⟨_, f, upd_self _ _ _, h2, fun i hi => ?_⟩
          rw [mem_insertSet]
          rcases hokOn i hi with a | a
          · exact Or.inr a
          · exact Or.inl a.2.1
        · refine ⟨c', f, by rw [upd_ne _ _ hee]; exact h1, h2, fun i hi => ?_⟩
          rcases hokOn i hi with a | a
          · exact a
          · exact absurd a.1 hee
      | false =>
        rw [if_neg (by simp)] at hco hfa hc
        rw [hco, hfa]
        have hi' : ∀ i, i ∈ okOn e' (s.trace ++ [.received e m false dm, .relay e m false]) → i ∈ c' := fun i hi => by
          rcases hokOn i hi with a | a
          · exact a
          · cases a.2.2
        by_cases hee : e' = e
        · subst hee
          exact ⟨c', _, h1, upd_self _ _ _, hi'⟩
        · exact ⟨c', f, h1, by rw [upd_ne _ _ hee]; exact h2, hi'⟩

/-- What the scheduler remembers of a task that waits is what the trace says. -/
structure JobKnown (s : State) (x : MsgId) (sub : Submission) (j : Job) : Prop where
  job : s.jobs x = some j
  arr : Obs.submitted x sub ∈ s.trace
  uni : ∀ sub', Obs.submitted x sub' ∈ s.trace → sub' = sub
  con : sub.Constructible
  fol : j.follow = sub.follow
  tgt : ∀ t ∈ j.targets, t ∈ sub.targets
  tgt' : ∀ t ∈ sub.targets, t ∈ j.targets ∨ t ∈ j.blacklist
  tgtne : sub.targets ≠ [] → j.targets ≠ []
  bl : ∀ t, t ∈ j.blacklist ↔ ∃ c, Obs.retry t x c ∈ s.trace
  aft : AfterRel j.after sub.after
  sat : ∀ C F, (∀ i ∈ s.allCompleted, i ∈ C) → (∀ i ∈ s.allFailed, i ∈ F) → Satisfied j.after C F → ∀ a, sub.after = some a → Satisfied a C F

theorem JobKnown.later {sub : Submission} {j : Job} {tl : List Obs} (h : JobKnown s x sub j) (hj : S.jobs x = s.jobs x) (htr : S.trace = s.trace ++ tl)
    (ht : ∀ o ∈ tl, (∀ sub', o ≠ .submitted x sub') ∧ ∀ t c, o ≠ .retry t x c)
    (hac : ∀ i ∈ s.allCompleted, i ∈ S.allCompleted) (haf : ∀ i ∈ s.allFailed, i ∈ S.allFailed) : JobKnown S x sub j where
  job := hj.trans h.job
  arr := by rw [htr]; exact List.mem_append_left _ h.arr
  uni := fun sub' hs => by
    rw [htr] at hs
    rcases List.mem_append.mp hs with hs | hs
    · exact h.uni sub' hs
    · exact absurd rfl ((ht _ hs).1 sub')
  con := h.con
  fol := h.fol
  tgt := h.tgt
  tgt' := h.tgt'
  tgtne := h.tgtne
  bl := fun t => by
    rw [h.bl t, htr]
    refine ⟨fun ⟨c, hc⟩ => ⟨c, List.mem_append_left _ hc⟩, fun ⟨c, hc⟩ => ⟨c, ?_⟩⟩
    rcases List.mem_append.mp hc with hc | hc
    · exact hc
    · exact absurd rfl ((ht _ hc).2 t c)
  aft := h.aft
  sat := fun C F hC hF => h.sat C F (fun i hi => hC i (hac i hi)) (fun i hi => hF i (haf i hi))

theorem jobKnown_at {j : Job} (h : LInv cfg [] [] s) (hji : JobInv s) (hp : PickInv cfg s) (hf : FailInv s) (hj : s.jobs x = some j) (hr : j.removed = false)
    (hc : ∀ sub, Obs.submitted x sub ∈ s.trace → sub.Constructible) : ∃ sub, JobKnown s x sub j := by
  obtain ⟨sub, h1, h2, h3, h4⟩ := h.1.sub x j hj
  obtain ⟨sub', g1, g2, g3, g4, g5⟩ := hji.job x j hj
  obtain rfl := h2 sub' g1
  obtain ⟨p1, p2⟩ := hp.job x j sub' hj h1
  exact ⟨sub', hj, h1, h2, hc sub' h1, g2, h3, p2, h4 hr (by simp [ltop]), fun t => ⟨p1 t, fun ⟨c, hc⟩ => g4 t c hc⟩, (hf.job x j sub' hj h1).1, g5⟩

theorem jobKnown_of (h : LInv cfg [] [] s) (hji : JobInv s) (hp : PickInv cfg s) (hf : FailInv s) (hx : x ∈ s.queueMap)
    (hc : ∀ sub, Obs.submitted x sub ∈ s.trace → sub.Constructible) : ∃ sub j, JobKnown s x sub j := by
  obtain ⟨_, j, hj, hr⟩ := h.1.qm x hx
  obtain ⟨sub, h⟩ := jobKnown_at h hji hp hf hj hr hc
  exact ⟨sub, j, h⟩

theorem AfterRel.check {d : Dep} {o : Option Dep} {C F : List MsgId} (h : AfterRel d o) (ho : ∀ a, o = some a → Satisfied a C F) : Satisfied d C F := by
  rcases h with h | ⟨a, ha, h1, h2, h3, h4, h5⟩
  · exact Or.inl h
  · have hacc : ∀ i, Acceptable a C F i → Acceptable d C F i := fun i => by unfold Acceptable; rw [h2, h3]; exact id
    rcases ho a ha with b | ⟨b, c⟩ | ⟨b, i, hi, c⟩
    · exact Or.inl (List.eq_nil_iff_forall_not_mem.mpr fun i hi => by have := h4 i hi; rw [b] at this; cases this)
    · exact Or.inr (Or.inl ⟨h1.trans b, fun i hi => hacc i (c i (h4 i hi))⟩)
    · exact Or.inr (Or.inr ⟨h1.trans b, i, by rw [h5 b]; exact hi, hacc i c⟩)

theorem Wrong.not_acceptable {d : Dep} {p : List Obs} {C F : List MsgId} {i : MsgId} (h : Wrong d p i) (hC : ∀ i ∈ okIds p, i ∈ C) (hF : ∀ i ∈ failIds p, i ∈ F)
    (hd : ∀ i, ¬ (i ∈ C ∧ i ∈ F)) : ¬ Acceptable d C F i := by
  rintro (⟨a, b⟩ | ⟨a, b⟩) <;> rcases h with ⟨c, g⟩ | ⟨c, g⟩
  · rw [a] at c; cases c
  · exact hd i ⟨b, hF i g⟩
  · exact hd i ⟨hC i g, b⟩
  · rw [a] at c; cases c

theorem Hopeless.not_satisfied {d : Dep} {p : List Obs} {C F : List MsgId} (h : Hopeless d p) (hC : ∀ i ∈ okIds p, i ∈ C) (hF : ∀ i ∈ failIds p, i ∈ F)
    (hd : ∀ i, ¬ (i ∈ C ∧ i ∈ F)) : ¬ Satisfied d C F := by
  rcases h with ⟨ha, i, hi, hw⟩ | ⟨ha, hne, hw⟩
  · rintro (b | ⟨_, b⟩ | ⟨b, _⟩)
    · rw [b] at hi; cases hi
    · exact hw.not_acceptable hC hF hd (b i hi)
    · rw [ha] at b; cases b
  · rintro (b | ⟨b, _⟩ | ⟨_, i, hi, b⟩)
    · exact hne b
    · rw [ha] at b; cases b
    · exact (hw i hi).not_acceptable hC hF hd b

theorem after_unreachable {sub : Submission} {j : Job} {d : Dep} (hk : Known S) (hj : JobKnown S x sub j) (hda : sub.after = some d) (hh : Hopeless d S.trace) :
    j.after.unreachable S.allCompleted (some S.allFailed) = true := by
  cases hu : j.after.unreachable S.allCompleted (some S.allFailed) with
  | true => rfl
  | false =>
    exfalso
    have hex : ∃ C F, Extends S.allCompleted S.allFailed C F ∧ Satisfied j.after C F := by
      by_cases hsf : j.after.success = true ∨ j.after.failure = true
      · have := (not_congr (unreachable_exact j.after hsf S.allCompleted S.allFailed hk.dis)).mp (by rw [hu]; simp)
        simp only [Classical.not_forall, Classical.not_not] at this
        obtain ⟨C, F, h1, h2⟩ := this
        exact ⟨C, F, h1, h2⟩
      · refine ⟨_, _, ⟨fun _ h => h, fun _ h => h, hk.dis⟩, Or.inl ?_⟩
        rcases hj.aft with h | ⟨a, ha, _, h2, h3, _⟩
        · exact h
        · rw [h2, h3] at hsf
          exact absurd (by simpa using hj.con.1 a ha) hsf
    obtain ⟨C, F, ⟨h1, h2, h3⟩, h4⟩ := hex
    exact hh.not_satisfied (fun i hi => h1 i ((hk.ok i).mp hi)) (fun i hi => h2 i ((hk.bad i).mp hi)) h3 (hj.sat C F h1 h2 h4 d hda)

theorem follow_unreachable {d : Dep} (hk : Known S) (hh : Hopeless d S.trace) : d.unreachable S.allCompleted (some S.allFailed) = true := by
  rw [unreachable_iff]
  have hw : ∀ i, Wrong d S.trace i → (d.success = false ∧ i ∈ S.allCompleted) ∨ (d.failure = false ∧ i ∈ S.allFailed) := fun i h =>
    h.imp (fun h => ⟨h.1, (hk.ok i).mp h.2⟩) (fun h => ⟨h.1, (hk.bad i).mp h.2⟩)
  rcases hh with ⟨ha, i, hi, h⟩ | ⟨ha, hne, h⟩
  · exact ⟨(fun hn => by rw [hn] at hi; cases hi), Or.inl ⟨ha, i, hi, hw i h⟩⟩
  · exact ⟨hne, Or.inr ⟨ha, fun i hi => hw i (h i hi)⟩⟩

theorem deadJ_of_doomed {sub : Submission} {j : Job} (hk : Known S) (hj : JobKnown S x sub j)
    (h : (sub.follow.all = true ∧ ∃ a b ea eb, a ∈ sub.follow.ids ∧ b ∈ sub.follow.ids ∧ Obs.relay ea a true ∈ S.trace ∧ Obs.relay eb b true ∈ S.trace ∧ ea ≠ eb) ∨
      (sub.targets ≠ [] ∧ ∀ t ∈ sub.targets, (∃ c, Obs.retry t x c ∈ S.trace) ∨ ¬ Registered t S.trace)) :
    j.follow.unreachable S.allCompleted (some S.allFailed) = true ∨ DeadJ S j := by
  rcases h with ⟨hall, a, b, ea, eb, ha, hb, hra, hrb, hne⟩ | ⟨htn, ht⟩
  · by_cases hsu : sub.follow.success = true
    · refine Or.inr (Or.inl ⟨by rw [hj.fol]; exact hall, a, b, ea, eb, ?_, ?_, hk.dst ea a hra, hk.dst eb b hrb, hne⟩)
      · exact ⟨by rw [hj.fol]; exact ha, Or.inl ⟨by rw [hj.fol]; exact hsu, (hk.ok a).mp (okIds_iff.mpr ⟨ea, hra⟩)⟩⟩
      · exact ⟨by rw [hj.fol]; exact hb, Or.inl ⟨by rw [hj.fol]; exact hsu, (hk.ok b).mp (okIds_iff.mpr ⟨eb, hrb⟩)⟩⟩
    · left
      rw [hj.fol, unreachable_iff]
      exact ⟨(fun hn => by rw [hn] at ha; cases ha), Or.inl ⟨hall, a, ha, Or.inl ⟨by simpa using hsu, (hk.ok a).mp (okIds_iff.mpr ⟨ea, hra⟩)⟩⟩⟩
  · refine Or.inr (Or.inr ⟨hj.tgtne htn, fun t htt => ?_⟩)
    exact (ht t (hj.tgt t htt)).imp (hj.bl t).mpr fun h hh => h ((hk.tgt t).mp hh)

theorem after_check {sub : Submission} {j : Job} (hk : Known S) (hj : JobKnown S x sub j) (hm : AfterMet sub S.trace) :
    j.after.check S.allCompleted (some S.allFailed) = true := by
  rw [check_iff]
  exact (hj.aft.check hm).mono (fun i hi => (hk.ok i).mp hi) (fun i hi => (hk.bad i).mp hi)

/-- What can never run the scheduler knows can never run. -/
theorem dead_of_doomed {sub : Submission} {j : Job} (hk : Known S) (hj : JobKnown S x sub j) (h : Doomed S.trace x) : Dead S x := by
  obtain ⟨sub', hs, hd⟩ := h
  obtain rfl := hj.uni sub' hs
  refine ⟨j, hj.job, ?_⟩
  rcases hd with ⟨d, hda | hdf, hh⟩ | ⟨hm, hd⟩
  · exact Or.inl (after_unreachable hk hj hda hh)
  · refine Or.inr (Or.inl ?_)
    rw [hj.fol, hdf]
    exact follow_unreachable hk hh
  · rcases deadJ_of_doomed hk hj hd with h | h
    · exact Or.inr (Or.inl h)
    · exact Or.inr (Or.inr ⟨after_check hk hj hm, h⟩)

theorem able_of_runnable {sub : Submission} {j : Job} (hk : Known S) (hj : JobKnown S x sub j) (h : Runnable S.trace x e) : Able S x e := by
  obtain ⟨sub', hs, hm, hreg, hret, htg, hfol⟩ := h
  obtain rfl := hj.uni sub' hs
  have hnb : e ∉ j.blacklist := fun hb => by
    obtain ⟨c, hc⟩ := (hj.bl e).mp hb
    exact hret c hc
  refine ⟨j, hj.job, ?_, hnb, ?_, ?_⟩
  · rw [check_iff]
    exact (hj.aft.check hm).mono (fun i hi => (hk.ok i).mp hi) (fun i hi => (hk.bad i).mp hi)
  · rcases htg with h | h
    · left
      exact List.eq_nil_iff_forall_not_mem.mpr fun t ht => by have := hj.tgt t ht; rw [h] at this; cases this
    · exact Or.inr ((hj.tgt' e h).resolve_right hnb)
  · obtain ⟨c, f, h1, h2, h3⟩ := hk.com e ((hk.tgt e).mpr hreg)
    refine ⟨c, f, h1, h2, ?_⟩
    rw [check_iff, hj.fol]
    exact hfol.mono h3 (by simp)

end IPP.Sched
