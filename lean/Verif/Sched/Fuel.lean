import Verif.Sched.HoareE

/-!
# The recursion always ends: the fuel given to a handler suffices

`fail_unreachable`, `update_graph` and `maybe_run` call each other recursively (task_scheduler.py:455-763).  Each round marks a job as removed, so
the depth is bounded; the model's fuel never runs out, in any history.
-/
namespace IPP.Sched

theorem nodup_length_le {l t : List Nat} (hn : l.Nodup) (hs : ∀ x ∈ l, x ∈ t) : l.length ≤ t.length := by
  induction l generalizing t with
  | nil => simp
  | cons a l ih =>
    obtain ⟨h1, h2⟩ := List.nodup_cons.mp hn
    have ha : a ∈ t := hs a (by simp)
    have := ih (t := t.erase a) h2 (fun x hx => by
      have hne : x ≠ a := fun h => h1 (h ▸ hx)
      exact (List.mem_erase_of_ne hne).mpr (hs x (by simp [hx])))
    rw [List.length_erase_of_mem ha] at this
    have := List.length_pos_of_mem ha
    simp only [List.length_cons]
    omega

theorem insertSet_nodup {x : MsgId} {l : List MsgId} (h : l.Nodup) : (insertSet x l).Nodup := by
  unfold insertSet
  split
  · exact h
  · rename_i hx
    exact List.nodup_append.mpr ⟨h, by simp, fun a ha b hb hab => hx (by simp at hb; rw [← hb, ← hab]; exact ha)⟩

theorem mem_insertSet' (x y : MsgId) (l : List MsgId) : x ∈ insertSet y l ↔ x = y ∨ x ∈ l := by
  unfold insertSet
  split
  · constructor
    · exact Or.inr
    · rintro (rfl | h)
      · assumption
      · exact h
  · simp [or_comm]

theorem insertSet_length (x : MsgId) (l : List MsgId) : (insertSet x l).length ≤ l.length + 1 := by
  unfold insertSet
  split <;> simp

theorem upd_self {α β : Type _} [DecidableEq α] (f : α → β) (a : α) (b : β) : upd f a b a = b := by simp [upd]
theorem upd_ne {α β : Type _} [DecidableEq α] (f : α → β) {a x : α} (b : β) (h : x ≠ a) : upd f a b x = f x := by simp [upd, h]

/-- Jobs that are not marked as removed. -/
def live (s : State) (m : MsgId) : Bool := match s.jobs m with
  | some j => !j.removed
  | none => false

/-- The bookkeeping that bounds the recursion: at most `u` live jobs, `q` queued ones, `L` submissions. -/
structure FInv (L u q : Nat) (s : State) : Prop where
  ids : ∀ m j, s.jobs m = some j → m ∈ s.allIds
  grn : ∀ d l, s.graph d = some l → l.Nodup ∧ ∀ m ∈ l, m ∈ s.allIds
  pen : ∀ e l, s.pending e = some l → l.Nodup ∧ ∀ m ∈ l, m ∈ s.allIds
  len : s.allIds.length ≤ L
  un : s.allIds.countP (live s) ≤ u
  ql : s.queue.length ≤ q

variable {cfg : Config} {L u q K : Nat}

theorem FInv.mono {s : State} {u' q' : Nat} (h : FInv L u q s) (hu : u ≤ u') (hq : q ≤ q') : FInv L u' q' s :=
  ⟨h.ids, h.grn, h.pen, h.len, Nat.le_trans h.un hu, Nat.le_trans h.ql hq⟩

/-- Changing a `Job` object without reviving it. -/
theorem FInv.setJob {s : State} {m : MsgId} {j j' : Job} (h : FInv L u q s) (hj : s.jobs m = some j) (hr : j.removed = true → j'.removed = true) :
    FInv L u q { s with jobs := upd s.jobs m (some j') } where
  ids := fun x jx hx => by
    by_cases hxm : x = m
    · subst hxm; exact h.ids x j hj
    · simp only [upd, hxm, if_false] at hx; exact h.ids x jx hx
  grn := h.grn
  pen := h.pen
  len := h.len
  un := by
    refine Nat.le_trans (List.countP_mono_left fun x _ => ?_) h.un
    simp only [live, upd]
    by_cases hxm : x = m
    · subst hxm; simp only [if_true, hj]
      cases hjr : j.removed
      · simp
      · simp [hr hjr]
    · simp only [hxm, if_false]; exact id
  ql := h.ql

theorem countP_lt {α : Type _} {p p' : α → Bool} {l : List α} {a : α} (ha : a ∈ l) (h1 : p a = true) (h2 : p' a = false) (h : ∀ x, p' x = true → p x = true) :
    l.countP p' < l.countP p := by
  induction l with
  | nil => cases ha
  | cons b l ih =>
    have hm : l.countP p' ≤ l.countP p := List.countP_mono_left fun x _ => h x
    simp only [List.countP_cons]
    rcases List.mem_cons.mp ha with rfl | ha
    · rw [h1, h2]; simp; omega
    · have := ih ha
      have hb := h b
      cases hpb : p' b
      · simp; omega
      · rw [hb hpb]; simp; omega

/-- Marking a live job as removed. -/
theorem FInv.kill {s : State} {m : MsgId} {j : Job} (h : FInv L u q s) (hj : s.jobs m = some j) (hr : j.removed = false) :
    0 < u ∧ FInv L (u - 1) q { s with jobs := upd s.jobs m (some { j with removed := true }) } := by
  have h' := h.setJob (j' := { j with removed := true }) hj (by simp)
  have hlt := countP_lt (p := live s) (p' := live { s with jobs := upd s.jobs m (some { j with removed := true }) }) (h.ids m j hj)
    (by simp [live, hj, hr]) (by simp [live, upd]) (by
      intro x hx
      simp only [live, upd] at hx ⊢
      by_cases hxm : x = m
      · subst hxm; simp at hx
      · simpa only [hxm, if_false] using hx)
  have hu := h.un
  refine ⟨by omega, ⟨h'.ids, h'.grn, h'.pen, h'.len, ?_, h'.ql⟩⟩
  show s.allIds.countP (live { s with jobs := upd s.jobs m (some { j with removed := true }) }) ≤ u - 1
  omega

theorem FInv.filterGraph {s : State} {d m : MsgId} {l : List MsgId} (h : FInv L u q s) (hl : s.graph d = some l) :
    FInv L u q { s with graph := upd s.graph d (some (l.filter (· ≠ m))) } where
  ids := h.ids
  grn := fun x l' hx => by
    by_cases hxd : x = d
    · subst hxd
      simp only [upd, if_true, Option.some.injEq] at hx
      subst hx
      obtain ⟨a, b⟩ := h.grn x l hl
      exact ⟨a.filter _, fun y hy => b y (List.mem_filter.mp hy).1⟩
    · simp only [upd, hxd, if_false] at hx; exact h.grn x l' hx
  pen := h.pen
  len := h.len
  un := h.un
  ql := h.ql

theorem FInv.delGraph {s : State} {d : MsgId} (h : FInv L u q s) : FInv L u q { s with graph := upd s.graph d none } where
  ids := h.ids
  grn := fun x l' hx => by
    by_cases hxd : x = d
    · subst hxd; simp [upd] at hx
    · simp only [upd, hxd, if_false] at hx; exact h.grn x l' hx
  pen := h.pen
  len := h.len
  un := h.un
  ql := h.ql

/-- What is left after an exception other than running out of fuel. -/
def FErr (L u q : Nat) (e : Err) (s : State) : Prop := e ≠ .fuel ∧ FInv L u q s

theorem FErr.mono {e : Err} {s : State} {u' q' : Nat} (h : FErr L u q e s) (hu : u ≤ u') (hq : q ≤ q') : FErr L u' q' e s := ⟨h.1, h.2.mono hu hq⟩

theorem removeFromGraph_fuel (m : MsgId) (ms : List MsgId) : HoareE (FInv L u q) (removeFromGraph m ms) (fun _ => FInv L u q) (FErr L u q) := by
  induction ms with
  | nil => exact HoareE.pure fun _ h => h
  | cons d ms ih =>
    unfold removeFromGraph
    refine HoareE.getS fun s h => ?_
    cases hg : s.graph d with
    | none => exact ih.at h
    | some l =>
      refine HoareE.ite (fun _ => ?_) fun _ => ?_
      · exact HoareE.modS fun s' h' => ih.at (h' ▸ h.filterGraph hg)
      · exact HoareE.bind (R := fun _ _ => False) (HoareE.throwE fun s' h' => ⟨by simp, h' ▸ h⟩) fun _ _ h => h.elim

/-- Computations that only read. -/
def Reads (x : M α) : Prop := ∀ s₀, HoareE (fun s => s = s₀) x (fun _ s => s = s₀) (fun e s => e ≠ .fuel ∧ s = s₀)

theorem Reads.pure {a : α} : Reads (Pure.pure a : M α) := fun _ => HoareE.pure fun _ h => h

theorem canRun_reads (j : Job) (i : Nat) : Reads (canRun cfg j i) := by
  intro s₀
  unfold canRun
  refine HoareE.getS fun s hs => ?_
  subst hs
  refine HoareE.ite (fun _ => HoareE.pure fun _ h => h) fun _ => ?_
  cases s.targets[i]? with
  | none => exact HoareE.throwE fun _ h => ⟨by simp, h⟩
  | some t =>
    refine HoareE.ite (fun _ => HoareE.pure fun _ h => h) fun _ => ?_
    refine HoareE.ite (fun _ => HoareE.pure fun _ h => h) fun _ => ?_
    refine HoareE.lookupE (fun _ _ h => ⟨by simp, h⟩) fun _ _ => ?_
    refine HoareE.lookupE (fun _ _ h => ⟨by simp, h⟩) fun _ _ => ?_
    exact HoareE.pure fun _ h => h

theorem filterCanRun_reads (j : Job) (is : List Nat) : Reads (filterCanRun cfg j is) := by
  intro s₀
  induction is with
  | nil => exact HoareE.pure fun _ h => h
  | cons i is ih =>
    unfold filterCanRun
    refine HoareE.bind (canRun_reads j i s₀) fun b => ?_
    refine HoareE.bind ih fun r => ?_
    exact HoareE.pure fun _ h => h

theorem destsOf_reads (ms : List MsgId) : Reads (destsOf ms) := by
  intro s₀
  induction ms with
  | nil => exact HoareE.pure fun _ h => h
  | cons m ms ih =>
    unfold destsOf
    refine HoareE.getS fun s hs => ?_
    subst hs
    refine HoareE.lookupE (fun _ _ h => ⟨by simp, h⟩) fun _ _ => ?_
    refine HoareE.bind ih fun r => ?_
    exact HoareE.pure fun _ h => h

theorem followImpossible_reads (j : Job) : Reads (followImpossible j) := by
  intro s₀
  unfold followImpossible
  refine HoareE.getS fun s hs => ?_
  subst hs
  refine HoareE.ite (fun _ => ?_) fun _ => HoareE.pure fun _ h => h
  exact HoareE.bind (destsOf_reads _ s) fun _ => HoareE.pure fun _ h => h

theorem targetsImpossible_fuel (m : MsgId) (s₀ : State) (j : Job) (hj : s₀.jobs m = some j) (h : FInv L u q s₀) :
    HoareE (fun s => s = s₀) (targetsImpossible m j) (fun _ s => FInv L u q s ∧ ∃ j', s.jobs m = some j' ∧ j'.removed = j.removed) (FErr L u q) := by
  unfold targetsImpossible
  refine HoareE.ite (fun _ => ?_) fun _ => HoareE.pure fun s hs => by subst hs; exact ⟨h, j, hj, rfl⟩
  refine HoareE.setJob fun s hs => ?_
  subst hs
  refine HoareE.getS fun s' hs => ?_
  subst hs
  refine HoareE.pure fun s' hs => ?_
  subst hs
  exact ⟨h.setJob hj (by simp), _, upd_self _ _ _, rfl⟩

theorem addJob_fields (i : Nat) (s : State) :
    (addJob i s).jobs = s.jobs ∧ (addJob i s).allIds = s.allIds ∧ (addJob i s).graph = s.graph ∧ (addJob i s).queue = s.queue ∧ (addJob i s).pending = s.pending := by
  unfold addJob; split <;> simp

theorem submitTask_fuel (m : MsgId) (is : List Nat) : HoareE (fun s => FInv L u q s ∧ ∃ j, s.jobs m = some j) (submitTask cfg m is) (fun _ => FInv L u q) (FErr L u q) := by
  unfold submitTask
  refine HoareE.getS fun s₀ h => ?_
  obtain ⟨h, j, hj⟩ := h
  dsimp only
  split
  · exact HoareE.throwE fun s hs => ⟨by simp, hs ▸ h⟩
  split
  · exact HoareE.throwE fun s hs => ⟨by simp, hs ▸ h⟩
  rename_i idx _ _ t _
  refine HoareE.emit fun s hs => ?_
  subst hs
  refine HoareE.modS fun s' hs => ?_
  subst hs
  obtain ⟨a1, a2, a3, a4, a5⟩ := addJob_fields idx { s with trace := s.trace ++ [Obs.send t m] }
  have h1 : FInv L u q (addJob idx { s with trace := s.trace ++ [Obs.send t m] }) :=
    ⟨by rw [a1, a2]; exact h.ids, by rw [a2, a3]; exact h.grn, by rw [a2, a5]; exact h.pen, by rw [a2]; exact h.len, by
      have : live (addJob idx { s with trace := s.trace ++ [Obs.send t m] }) = live s := by funext x; simp only [live, a1]
      rw [a2, this]; exact h.un, by rw [a4]; exact h.ql⟩
  refine HoareE.lookupE (fun _ s' hs => ⟨by simp, hs ▸ h1⟩) fun p hp => ?_
  refine HoareE.modS_last fun s' hs => ?_
  subst hs
  refine ⟨h1.ids, h1.grn, ?_, h1.len, h1.un, h1.ql⟩
  intro e l hl
  by_cases het : e = t
  · subst het
    simp only [upd, if_true, Option.some.injEq] at hl
    subst hl
    obtain ⟨b1, b2⟩ := h.pen e p hp
    refine ⟨insertSet_nodup b1, fun x hx => ?_⟩
    rw [a2]
    rcases (mem_insertSet' _ _ _).mp hx with rfl | hx
    · exact h.ids x j hj
    · exact b2 x hx
  · simp only [upd, het, if_false] at hl
    exact h1.pen e l hl

theorem insertByTime_perm (t : MsgId → Nat) (x : MsgId) (l : List MsgId) : (insertByTime t x l).Perm (x :: l) := by
  induction l with
  | nil => exact List.Perm.refl _
  | cons y l ih =>
    unfold insertByTime
    split
    · exact List.Perm.refl _
    · exact (List.Perm.cons y ih).trans (List.Perm.swap x y l)

theorem insertByTime_sorted (t : MsgId → Nat) (x : MsgId) : ∀ l : List MsgId, l.Pairwise (fun a b => t a ≤ t b) → (insertByTime t x l).Pairwise (fun a b => t a ≤ t b)
  | [], _ => by simp [insertByTime]
  | y :: l, h => by
    unfold insertByTime
    rw [List.pairwise_cons] at h
    split
    · rename_i hxy
      refine List.pairwise_cons.2 ⟨fun z hz => ?_, List.pairwise_cons.2 h⟩
      rcases List.mem_cons.1 hz with rfl | hz
      · exact hxy
      · exact Nat.le_trans hxy (h.1 z hz)
    · rename_i hxy
      refine List.pairwise_cons.2 ⟨fun z hz => ?_, insertByTime_sorted t x l h.2⟩
      rcases List.mem_cons.1 ((insertByTime_perm t x l).mem_iff.1 hz) with rfl | hz
      · omega
      · exact h.1 z hz

/-- The waiting tasks that a finished task concerns are taken up in the order of their submission (`sorted(…)` with `Job.__lt__`). -/
theorem sortByTime_sorted (t : MsgId → Nat) : ∀ l : List MsgId, (sortByTime t l).Pairwise (fun a b => t a ≤ t b)
  | [] => .nil
  | x :: l => insertByTime_sorted t x _ (sortByTime_sorted t l)

theorem sortByTime_perm (t : MsgId → Nat) (l : List MsgId) : (sortByTime t l).Perm l := by
  induction l with
  | nil => exact List.Perm.refl _
  | cons x l ih => exact (insertByTime_perm t x _).trans (List.Perm.cons x ih)

/-- The fuel bounds of the mutually recursive functions. -/
structure FuelAt (cfg : Config) (L K n : Nat) : Prop where
  fail : ∀ u q m why, q + L + 8 ≤ K → 2 + u * K ≤ n →
    HoareE (fun s => FInv L u q s ∧ ∃ j, s.jobs m = some j ∧ j.removed = false) (failUnreachable cfg n m why) (fun _ => FInv L u q) (FErr L u q)
  fail' : ∀ u q m why, q + L + 8 ≤ K → 2 + (u + 1) * K ≤ n →
    HoareE (FInv L u q) (failUnreachable cfg n m why) (fun _ => FInv L u q) (FErr L u q)
  may : ∀ u q m, q + L + 8 ≤ K → 3 + u * K ≤ n →
    HoareE (fun s => FInv L u q s ∧ ∃ j, s.jobs m = some j ∧ j.removed = false) (maybeRun cfg n m) (fun _ => FInv L u q) (FErr L u q)
  may' : ∀ u q m, q + L + 8 ≤ K → 3 + (u + 1) * K ≤ n →
    HoareE (FInv L u q) (maybeRun cfg n m) (fun _ => FInv L u q) (FErr L u q)
  job : ∀ u q m, q + L + 8 ≤ K → 4 + u * K ≤ n →
    HoareE (FInv L u q) (processJob cfg n m) (fun _ => FInv L u q) (FErr L u q)
  lq : ∀ u q l, q + l.length + L + 8 ≤ K → q + 5 + u * K ≤ n →
    HoareE (FInv L u q) (loopQueue cfg n l) (fun _ => FInv L u (q + l.length)) (FErr L u q)
  lj : ∀ u q ms, q + L + 8 ≤ K → ms.length + 5 + u * K ≤ n →
    HoareE (FInv L u q) (loopJobs cfg n ms) (fun _ => FInv L u q) (FErr L u q)
  upd : ∀ u q d, q + L + 8 ≤ K → (u + 1) * K ≤ n →
    HoareE (FInv L u q) (updateGraph cfg n d) (fun _ => FInv L u q) (FErr L u q)

theorem fuelAt (L K n : Nat) : FuelAt cfg L K n := by
  induction n with
  | zero =>
    refine ⟨?_, ?_, ?_, ?_, ?_, ?_, ?_, ?_⟩
    all_goals intros
    · omega
    · omega
    · omega
    · omega
    · omega
    · omega
    · omega
    · rename_i u q d h1 h2
      rw [Nat.add_mul] at h2
      omega
  | succ n ih =>
    have killed : ∀ u q m why, q + L + 8 ≤ K → u * K ≤ n → ∀ s j, FInv L u q s → s.jobs m = some j → j.removed = false → m ∈ s.queueMap →
        HoareE (fun s' => s' = s) (failUnreachable cfg (n + 1) m why) (fun _ => FInv L u q) (FErr L u q) := by
      intro u q m why hK hn s j hs hj hr hm
      unfold failUnreachable
      refine HoareE.getS fun s' hs' => ?_
      subst hs'
      refine HoareE.ite (fun h => absurd hm h) fun _ => ?_
      refine HoareE.modS fun s' hs' => ?_
      subst hs'
      refine HoareE.getJob (fun s hs h => by subst hs; rw [hj] at h; cases h) fun s₁ j' hs₁ hj' => ?_
      subst hs₁
      rw [show ({ s' with queueMap := s'.queueMap.filter (· ≠ m) } : State).jobs m = s'.jobs m from rfl, hj] at hj'
      cases hj'
      refine HoareE.setJob fun s₂ hs₂ => ?_
      subst hs₂
      obtain ⟨hu, hk⟩ := hs.kill hj hr
      have hk' : FInv L (u - 1) q { s' with queueMap := s'.queueMap.filter (· ≠ m), jobs := upd s'.jobs m (some { j with removed := true }) } :=
        ⟨hk.ids, hk.grn, hk.pen, hk.len, hk.un, hk.ql⟩
      have hmono : ∀ s, FInv L (u - 1) q s → FInv L u q s := fun s h => h.mono (by omega) (Nat.le_refl _)
      refine HoareE.bind (R := fun _ => FInv L (u - 1) q)
        (((removeFromGraph_fuel m _).conseq (fun _ h => h) (fun _ _ h => h) (fun e s h => FErr.mono h (by omega) (Nat.le_refl _))).at hk') fun _ => ?_
      unfold failReply
      refine HoareE.bind (R := fun _ => FInv L (u - 1) q) ?_ fun _ => ?_
      · refine HoareE.modS fun s h => ?_
        exact HoareE.modS_last fun s' hs' => by subst hs'; exact ⟨h.ids, h.grn, h.pen, h.len, h.un, h.ql⟩
      · refine (ih.upd (u - 1) q (some m) hK ?_).conseq (fun _ h => h) (fun _ s h => hmono s h) (fun e s h => FErr.mono h (by omega) (Nat.le_refl _))
        rw [Nat.sub_add_cancel hu]; exact hn
    refine ⟨?_, ?_, ?_, ?_, ?_, ?_, ?_, ?_⟩
    · -- fail
      intro u q m why hK hn s hs
      obtain ⟨hs, j, hj, hr⟩ := hs
      by_cases hm : m ∈ s.queueMap
      · exact killed u q m why hK (by omega) s j hs hj hr hm s rfl
      · unfold failUnreachable
        refine HoareE.getS (P := fun s' => s' = s) (fun s' hs' => ?_) s rfl
        subst hs'
        refine HoareE.ite (fun _ => ?_) fun h => absurd hm h
        exact HoareE.pure fun s hs' => hs' ▸ hs
    · -- fail'
      intro u q m why hK hn
      rw [Nat.add_mul] at hn
      unfold failUnreachable
      refine HoareE.getS fun s hs => ?_
      refine HoareE.ite (fun _ => HoareE.pure fun s hs' => hs' ▸ hs) fun _ => ?_
      refine HoareE.modS fun s' hs' => ?_
      subst hs'
      refine HoareE.getJob (fun s h _ => ⟨by simp, by subst h; exact ⟨hs.ids, hs.grn, hs.pen, hs.len, hs.un, hs.ql⟩⟩) fun s₁ j hs₁ hj => ?_
      subst hs₁
      refine HoareE.setJob fun s₂ hs₂ => ?_
      subst hs₂
      have hk := hs.setJob (j' := { j with removed := true }) hj (by simp)
      have hk' : FInv L u q { s' with queueMap := s'.queueMap.filter (· ≠ m), jobs := upd s'.jobs m (some { j with removed := true }) } :=
        ⟨hk.ids, hk.grn, hk.pen, hk.len, hk.un, hk.ql⟩
      refine HoareE.bind (R := fun _ => FInv L u q) ((removeFromGraph_fuel m _).at hk') fun _ => ?_
      unfold failReply
      refine HoareE.bind (R := fun _ => FInv L u q) ?_ fun _ => ?_
      · refine HoareE.modS fun s h => ?_
        exact HoareE.modS_last fun s' hs' => by subst hs'; exact ⟨h.ids, h.grn, h.pen, h.len, h.un, h.ql⟩
      · exact ih.upd u q (some m) hK (by rw [Nat.add_mul]; omega)
    · -- may
      intro u q m hK hn
      unfold maybeRun
      refine HoareE.getS fun s hs => ?_
      obtain ⟨hs, j, hj, hr⟩ := hs
      refine HoareE.getJob (fun s' h hn => by subst h; rw [hj] at hn; cases hn) fun s₁ j' hs₁ hj' => ?_
      subst hs₁
      rw [hj] at hj'
      cases hj'
      refine HoareE.ite (fun _ => HoareE.pure fun s h => h ▸ hs) fun _ => ?_
      refine HoareE.ite (fun _ => ?_) fun _ => ?_
      · refine HoareE.bind ((filterCanRun_reads j _ s₁).conseq (fun _ h => h) (fun _ _ h => h) (fun e s h => ⟨h.1, h.2 ▸ hs⟩)) fun is => ?_
        refine HoareE.ite (fun _ => ?_) fun _ => ?_
        · refine HoareE.bind ((followImpossible_reads j s₁).conseq (fun _ h => h) (fun _ _ h => h) (fun e s h => ⟨h.1, h.2 ▸ hs⟩)) fun b => ?_
          refine HoareE.ite (fun _ => ?_) fun _ => ?_
          · refine HoareE.addQueueMap fun s₂ hs₂ => ?_
            subst hs₂
            refine HoareE.bind ((ih.fail u q m .impossible hK (by omega)).at ⟨⟨hs.ids, hs.grn, hs.pen, hs.len, hs.un, hs.ql⟩, j, hj, hr⟩) fun _ => ?_
            exact HoareE.pure fun _ h => h
          · refine HoareE.bind (targetsImpossible_fuel m s₁ j hj hs) fun b => ?_
            refine HoareE.ite (fun _ => ?_) fun _ => HoareE.pure fun _ h => h.1
            refine HoareE.addQueueMap fun s₂ hs₂ => ?_
            obtain ⟨hs₂, j₂, hj₂, hr₂⟩ := hs₂
            refine HoareE.bind ((ih.fail u q m .impossible hK (by omega)).at ⟨⟨hs₂.ids, hs₂.grn, hs₂.pen, hs₂.len, hs₂.un, hs₂.ql⟩, j₂, hj₂, hr₂.trans hr⟩) fun _ => ?_
            exact HoareE.pure fun _ h => h
        · refine HoareE.bind ((submitTask_fuel m is).at ⟨hs, j, hj⟩) fun _ => ?_
          exact HoareE.pure fun _ h => h
      · refine HoareE.bind ((submitTask_fuel m []).at ⟨hs, j, hj⟩) fun _ => ?_
        exact HoareE.pure fun _ h => h
    · -- may'
      intro u q m hK hn
      unfold maybeRun
      refine HoareE.getS fun s hs => ?_
      refine HoareE.getJob (fun s' h _ => ⟨by simp, h ▸ hs⟩) fun s₁ j hs₁ hj => ?_
      subst hs₁
      refine HoareE.ite (fun _ => HoareE.pure fun s h => h ▸ hs) fun _ => ?_
      refine HoareE.ite (fun _ => ?_) fun _ => ?_
      · refine HoareE.bind ((filterCanRun_reads j _ s₁).conseq (fun _ h => h) (fun _ _ h => h) (fun e s h => ⟨h.1, h.2 ▸ hs⟩)) fun is => ?_
        refine HoareE.ite (fun _ => ?_) fun _ => ?_
        · refine HoareE.bind ((followImpossible_reads j s₁).conseq (fun _ h => h) (fun _ _ h => h) (fun e s h => ⟨h.1, h.2 ▸ hs⟩)) fun b => ?_
          refine HoareE.ite (fun _ => ?_) fun _ => ?_
          · refine HoareE.addQueueMap fun s₂ hs₂ => ?_
            subst hs₂
            refine HoareE.bind ((ih.fail' u q m .impossible hK (by omega)).at ⟨hs.ids, hs.grn, hs.pen, hs.len, hs.un, hs.ql⟩) fun _ => ?_
            exact HoareE.pure fun _ h => h
          · refine HoareE.bind (targetsImpossible_fuel m s₁ j hj hs) fun b => ?_
            refine HoareE.ite (fun _ => ?_) fun _ => HoareE.pure fun _ h => h.1
            refine HoareE.addQueueMap fun s₂ hs₂ => ?_
            obtain ⟨hs₂, -⟩ := hs₂
            refine HoareE.bind ((ih.fail' u q m .impossible hK (by omega)).at ⟨hs₂.ids, hs₂.grn, hs₂.pen, hs₂.len, hs₂.un, hs₂.ql⟩) fun _ => ?_
            exact HoareE.pure fun _ h => h
        · refine HoareE.bind ((submitTask_fuel m is).at ⟨hs, j, hj⟩) fun _ => ?_
          exact HoareE.pure fun _ h => h
      · refine HoareE.bind ((submitTask_fuel m []).at ⟨hs, j, hj⟩) fun _ => ?_
        exact HoareE.pure fun _ h => h
    · -- job
      intro u q m hK hn
      unfold processJob
      refine HoareE.getS fun s hs => ?_
      refine HoareE.getJob (fun s' h _ => ⟨by simp, h ▸ hs⟩) fun s₁ j hs₁ hj => ?_
      subst hs₁
      refine HoareE.ite (fun _ => HoareE.pure fun s h => h ▸ hs) fun hr => ?_
      have hr : j.removed = false := by simpa using hr
      refine HoareE.ite (fun _ => ?_) fun _ => ?_
      · refine HoareE.bind ((ih.fail u q m .impossible hK (by omega)).at ⟨hs, j, hj, hr⟩) fun _ => ?_
        exact HoareE.pure fun _ h => h
      · refine HoareE.ite (fun _ => ?_) fun _ => HoareE.pure fun s h => h ▸ hs
        refine HoareE.bind ((ih.may u q m hK (by omega)).at ⟨hs, j, hj, hr⟩) fun b => ?_
        refine HoareE.ite (fun _ => ?_) fun _ => HoareE.pure fun _ h => h
        refine HoareE.getS fun s₂ hs₂ => ?_
        refine HoareE.ite (fun _ => HoareE.throwE fun s h => ⟨by simp, h ▸ hs₂⟩) fun _ => ?_
        refine HoareE.modS fun s₃ hs₃ => ?_
        subst hs₃
        refine HoareE.getJob (fun s' h _ => ⟨by simp, by subst h; exact ⟨hs₂.ids, hs₂.grn, hs₂.pen, hs₂.len, hs₂.un, hs₂.ql⟩⟩) fun s₄ j' hs₄ hj' => ?_
        subst hs₄
        refine HoareE.bind (R := fun _ => FInv L u q) ((removeFromGraph_fuel m _).at ⟨hs₂.ids, hs₂.grn, hs₂.pen, hs₂.len, hs₂.un, hs₂.ql⟩) fun _ => ?_
        refine HoareE.getS fun s₅ hs₅ => ?_
        exact HoareE.ite (fun _ => HoareE.pure fun s h => h ▸ hs₅) fun _ => HoareE.pure fun s h => h ▸ hs₅
    · -- lq
      intro u q l hK hn
      unfold loopQueue
      refine HoareE.getS fun s hs => ?_
      have done : ∀ (s' : State) (q' : Nat), FInv L u q' s' → q' + l.length ≤ q + l.length →
          FInv L u (q + l.length) { s' with queue := l.reverse ++ s'.queue } := fun s' q' h hle =>
        ⟨h.ids, h.grn, h.pen, h.len, h.un, by simp; have := h.ql; omega⟩
      cases hq : s.queue with
      | nil =>
        refine HoareE.modS_last fun s' h => ?_
        subst h
        exact done _ q hs (Nat.le_refl _)
      | cons m qs =>
        refine HoareE.modS fun s' hs' => ?_
        subst hs'
        have hl := hs.ql
        rw [hq] at hl
        simp only [List.length_cons] at hl
        have h1 : FInv L u (q - 1) { s' with queue := qs } := ⟨hs.ids, hs.grn, hs.pen, hs.len, hs.un, by show qs.length ≤ q - 1; omega⟩
        refine HoareE.bind (((ih.job u (q - 1) m (by omega) (by omega)).at h1).conseq (fun _ h => h) (fun _ _ h => h)
          (fun e s h => FErr.mono h (Nat.le_refl _) (by omega))) fun o => ?_
        cases o with
        | gone =>
          exact (ih.lq u (q - 1) l (by omega) (by omega)).conseq (fun _ h => h) (fun _ _ h => h.mono (Nat.le_refl _) (by omega))
            (fun e s h => FErr.mono h (Nat.le_refl _) (by omega))
        | keep =>
          exact (ih.lq u (q - 1) (l ++ [m]) (by simp; omega) (by omega)).conseq (fun _ h => h) (fun _ _ h => h.mono (Nat.le_refl _) (by simp; omega))
            (fun e s h => FErr.mono h (Nat.le_refl _) (by omega))
        | stop =>
          refine HoareE.modS_last fun s'' h => ?_
          exact done s'' (q - 1) h (by omega)
    · -- lj
      intro u q ms hK hn
      unfold loopJobs
      cases ms with
      | nil => exact HoareE.pure fun _ h => h
      | cons m ms =>
        simp only [List.length_cons] at hn
        refine HoareE.bind (ih.job u q m hK (by omega)) fun o => ?_
        cases o with
        | gone => exact ih.lj u q ms hK (by omega)
        | keep => exact ih.lj u q ms hK (by omega)
        | stop => exact HoareE.pure fun _ h => h
    · -- upd
      intro u q d hK hn
      rw [Nat.add_mul] at hn
      unfold updateGraph
      refine HoareE.getS fun s hs => ?_
      have rest : ∀ s' ms, FInv L u q s' → ms.length ≤ L →
          HoareE (fun s => s = s') (if d = none ∨ cfg.hwm ≠ 0 ∧ (s.loads.any fun l => decide (l = (cfg.hwm : Int) - 1)) = true then loopQueue cfg n []
            else do
              if (ms.any fun m => decide (m ∉ s.queueMap)) = true then throwE .keyError
              loopJobs cfg n (sortByTime (fun m => ((s.jobs m).map Job.timestamp).getD 0) ms)) (fun _ => FInv L u q) (FErr L u q) := by
        intro s' ms h hl
        refine HoareE.ite (fun _ => ?_) fun _ => ?_
        · exact ((ih.lq u q [] (by simpa using hK) (by omega)).conseq (fun _ h => h) (fun _ _ h => h) (fun _ _ h => h)).at h
        · refine HoareE.ite (fun _ => ?_) fun _ => ?_
          · exact HoareE.bind (R := fun _ _ => False) (HoareE.throwE fun s' h' => ⟨by simp, h' ▸ h⟩) fun _ _ h => h.elim
          · refine (ih.lj u q _ hK ?_).at h
            rw [(sortByTime_perm _ _).length_eq]
            omega
      cases d with
      | none => exact rest s [] hs (by simp)
      | some d =>
        refine HoareE.modS fun s' h => ?_
        subst h
        refine rest _ _ hs.delGraph ?_
        cases hg : s'.graph d with
        | none => simp [hg]
        | some l =>
          obtain ⟨a, b⟩ := hs.grn d l hg
          simp only [hg, Option.getD_some]
          exact Nat.le_trans (nodup_length_le a b) hs.len

/-! ## The handlers -/

theorem addToGraph_fuel (m : MsgId) (ds : List MsgId) :
    HoareE (fun s => FInv L u q s ∧ m ∈ s.allIds) (addToGraph m ds) (fun _ => FInv L u q) (FErr L u q) := by
  induction ds with
  | nil => exact HoareE.pure fun _ h => h.1
  | cons d ds ih =>
    unfold addToGraph
    refine HoareE.modS fun s h => ?_
    obtain ⟨h, hm⟩ := h
    refine ih.at ⟨⟨h.ids, fun x l hx => ?_, h.pen, h.len, h.un, h.ql⟩, hm⟩
    by_cases hxd : x = d
    · subst hxd
      simp only [upd, if_true, Option.some.injEq] at hx
      subst hx
      have hg : ((s.graph x).getD []).Nodup ∧ ∀ y ∈ (s.graph x).getD [], y ∈ s.allIds := by
        cases hh : s.graph x with
        | none => simp
        | some l => exact h.grn x l hh
      refine ⟨insertSet_nodup hg.1, fun y hy => ?_⟩
      rcases (mem_insertSet' _ _ _).mp hy with rfl | hy
      · exact hm
      · exact hg.2 y hy
    · simp only [upd, hxd, if_false] at hx; exact h.grn x l hx

theorem addToGraphE_jobs (m : MsgId) (ds : List MsgId) (J : MsgId → Option Job) (E : Err → State → Prop) :
    HoareE (fun s => s.jobs = J) (addToGraph m ds) (fun _ s => s.jobs = J) E := by
  induction ds with
  | nil => exact HoareE.pure fun _ h => h
  | cons d ds ih =>
    unfold addToGraph
    exact HoareE.modS fun s h => ih.at h

theorem saveUnmet_fuel (m : MsgId) : HoareE (FInv L u q) (saveUnmet m) (fun _ => FInv L u (q + 1)) (FErr L u (q + 1)) := by
  unfold saveUnmet
  refine HoareE.getJob (fun s h _ => ⟨by simp, h.mono (Nat.le_refl _) (by omega)⟩) fun s j h hj => ?_
  refine HoareE.addQueueMap fun s₁ hs₁ => ?_
  subst hs₁
  refine HoareE.modS fun s₂ hs₂ => ?_
  subst hs₂
  refine HoareE.getS fun s₃ hs₃ => ?_
  have h3 : FInv L u (q + 1) s₃ := by
    subst hs₃
    exact ⟨h.ids, h.grn, h.pen, h.len, h.un, by have := h.ql; simp; omega⟩
  have hm : m ∈ s₃.allIds := by subst hs₃; exact h.ids m j hj
  have hj3 : s₃.jobs = s₁.jobs := by subst hs₃; rfl
  refine HoareE.bind (R := fun _ s => FInv L u (q + 1) s ∧ s.jobs = s₁.jobs) ?_ fun _ => ?_
  · refine ((addToGraph_fuel m _).and (addToGraphE_jobs m _ s₁.jobs (fun _ _ => True))).conseq (fun s hs => ?_) (fun _ _ h => h) (fun _ _ h => h.1)
    subst hs
    exact ⟨⟨h3, hm⟩, hj3⟩
  · refine HoareE.ite (fun _ => ?_) fun _ => HoareE.pure fun _ h => h.1
    refine HoareE.setJob fun s h => ?_
    refine HoareE.modS_last fun s' hs' => ?_
    subst hs'
    have := h.1.setJob (m := m) (j := j) (j' := { j with timeoutId := j.timeoutId + 1 }) (by rw [h.2]; exact hj) id
    exact ⟨this.ids, this.grn, this.pen, this.len, this.un, this.ql⟩

/-- fuel enough for one use of the mutually recursive functions -/
def Enough (L u q n : Nat) : Prop := 3 + (u + 1) * (q + L + 8) ≤ n

theorem Enough.upd {n : Nat} (h : Enough L u q n) (d : Option MsgId) : HoareE (FInv L u q) (updateGraph cfg n d) (fun _ => FInv L u q) (FErr L u q) :=
  (fuelAt L (q + L + 8) n).upd u q d (Nat.le_refl _) (by unfold Enough at h; omega)

theorem Enough.may {n : Nat} (h : Enough L u q n) (m : MsgId) : HoareE (FInv L u q) (maybeRun cfg n m) (fun _ => FInv L u q) (FErr L u q) :=
  (fuelAt L (q + L + 8) n).may' u q m (Nat.le_refl _) (by unfold Enough at h; omega)

theorem Enough.fail {n : Nat} (h : Enough L u q n) (m : MsgId) (why : Why) :
    HoareE (FInv L u q) (failUnreachable cfg n m why) (fun _ => FInv L u q) (FErr L u q) :=
  (fuelAt L (q + L + 8) n).fail' u q m why (Nat.le_refl _) (by unfold Enough at h; omega)

theorem Enough.mono {n u' q' : Nat} (h : Enough L u q n) (hu : u' ≤ u) (hq : q' ≤ q) : Enough L u' q' n := by
  unfold Enough at *
  refine Nat.le_trans ?_ h
  exact Nat.add_le_add_left (Nat.mul_le_mul (by omega) (by omega)) 3

variable {n : Nat}

theorem FInv.up {s : State} (h : FInv L u q s) : FInv L u (q + 1) s := h.mono (Nat.le_refl _) (by omega)
theorem FErr.up {e : Err} {s : State} (h : FErr L u q e s) : FErr L u (q + 1) e s := FErr.mono h (Nat.le_refl _) (by omega)

theorem FInv.pendingSub {s : State} {e : Engine} {p p' : List MsgId} (h : FInv L u q s) (hp : s.pending e = some p) (hs : p'.Sublist p) :
    FInv L u q { s with pending := upd s.pending e (some p') } :=
  ⟨h.ids, h.grn, fun x l hx => by
    by_cases hxe : x = e
    · subst hxe
      simp only [Sched.upd, if_true, Option.some.injEq] at hx
      subst hx
      obtain ⟨a, b⟩ := h.pen x p hp
      exact ⟨hs.nodup a, fun y hy => b y (hs.mem hy)⟩
    · simp only [Sched.upd, hxe, if_false] at hx; exact h.pen x l hx, h.len, h.un, h.ql⟩

theorem handleResult_fuel (hn : Enough L u q n) (e : Engine) (m : MsgId) (ok : Bool) :
    HoareE (FInv L u q) (handleResult cfg n e m ok) (fun _ => FInv L u q) (FErr L u q) := by
  unfold handleResult
  refine HoareE.emit fun s h => ?_
  refine HoareE.getS fun s₁ hs₁ => ?_
  subst hs₁
  have h1 : FInv L u q { s with trace := s.trace ++ [.relay e m ok] } := ⟨h.ids, h.grn, h.pen, h.len, h.un, h.ql⟩
  refine HoareE.lookupE (fun _ s hs => ⟨by simp, hs ▸ h1⟩) fun p hp => ?_
  refine HoareE.ite (fun _ => ?_) fun _ => ?_
  · exact HoareE.bind (R := fun _ _ => False) (HoareE.throwE fun s' h' => ⟨by simp, h' ▸ h1⟩) fun _ _ h => h.elim
  refine HoareE.modS fun s₂ hs₂ => ?_
  subst hs₂
  have h2 := h1.pendingSub (p' := p.filter (· ≠ m)) hp List.filter_sublist
  refine HoareE.ite (fun _ => ?_) fun _ => ?_
  all_goals
    refine HoareE.lookupE (fun _ s hs => ⟨by simp, hs ▸ h2⟩) fun c hc => ?_
    refine HoareE.modS fun s₃ hs₃ => ?_
    subst hs₃
    refine HoareE.modS fun s₄ hs₄ => ?_
    subst hs₄
    exact (hn.upd _).at ⟨h2.ids, h2.grn, h2.pen, h2.len, h2.un, h2.ql⟩

theorem handleUnmet_fuel (hn : Enough L u (q + 1) n) (e : Engine) (m : MsgId) (c : Cause) :
    HoareE (FInv L u q) (handleUnmet cfg n e m c) (fun _ => FInv L u (q + 1)) (FErr L u (q + 1)) := by
  have hn' := hn.mono (Nat.le_refl u) (Nat.le_succ q)
  unfold handleUnmet
  refine HoareE.getS fun s h => ?_
  refine HoareE.lookupE (fun _ s hs => ⟨by simp, hs ▸ h.up⟩) fun p hp => ?_
  refine HoareE.ite (fun _ => ?_) fun _ => ?_
  · exact HoareE.bind (R := fun _ _ => False) (HoareE.throwE fun s' h' => ⟨by simp, h' ▸ h.up⟩) fun _ _ h => h.elim
  refine HoareE.modS fun s₂ hs₂ => ?_
  subst hs₂
  have h2 := h.pendingSub (p' := p.filter (· ≠ m)) hp List.filter_sublist
  refine HoareE.getJob (fun s hs _ => ⟨by simp, hs ▸ h2.up⟩) fun s₃ j hs₃ hj => ?_
  subst hs₃
  refine HoareE.emit fun s₄ hs₄ => ?_
  subst hs₄
  refine HoareE.setJob fun s₅ hs₅ => ?_
  subst hs₅
  have h3 : FInv L u q { s₂ with
      pending := upd s₂.pending e (some (p.filter (· ≠ m)))
      trace := s₂.trace ++ [.retry e m c] } := ⟨h2.ids, h2.grn, h2.pen, h2.len, h2.un, h2.ql⟩
  have h4 := h3.setJob (j' := { j with blacklist := insertSet e j.blacklist }) hj id
  have tail : HoareE (FInv L u (q + 1)) (do
      if cfg.hwm ≠ 0 then
        let s ← getS
        match s.targets.idxOf? e with
        | none => pure ()
        | some idx =>
          if s.loads.getD idx 0 = (cfg.hwm : Int) - 1 then updateGraph cfg n none) (fun _ => FInv L u (q + 1)) (FErr L u (q + 1)) := by
    refine HoareE.ite (fun _ => ?_) fun _ => HoareE.pure fun _ h => h
    refine HoareE.getS fun s hs => ?_
    cases s.targets.idxOf? e with
    | none => exact HoareE.pure fun s' h => h ▸ hs
    | some idx => exact HoareE.ite (fun _ => (hn.upd none).at hs) fun _ => HoareE.pure fun s' h => h ▸ hs
  refine HoareE.ite (fun _ => ?_) fun _ => ?_
  · refine HoareE.addQueueMap fun s₆ hs₆ => ?_
    subst hs₆
    refine HoareE.bind (((hn'.fail m .impossible).conseq (fun _ h => h) (fun _ _ h => h) (fun _ _ h => h.up)).at ⟨h4.ids, h4.grn, h4.pen, h4.len, h4.un, h4.ql⟩) fun _ => ?_
    exact tail.pre fun _ h => h.up
  · refine HoareE.bind (((hn'.may m).conseq (fun _ h => h) (fun _ _ h => h) (fun _ _ h => h.up)).at h4) fun b => ?_
    refine HoareE.ite (fun _ => ?_) fun _ => ?_
    · exact tail.pre fun _ h => h.up
    · refine HoareE.getS fun s₆ hs₆ => ?_
      refine HoareE.ite (fun _ => ?_) fun _ => ?_
      · exact HoareE.bind ((saveUnmet_fuel m).at hs₆) fun _ => tail
      · exact tail.pre fun s h => h ▸ hs₆.up

theorem dispatchResult_fuel (hn : Enough L u (q + 1) n) (e : Engine) (m : MsgId) (ok dm : Bool) :
    HoareE (FInv L u q) (dispatchResult cfg n e m ok dm) (fun _ => FInv L u (q + 1)) (FErr L u (q + 1)) := by
  have hn' := hn.mono (Nat.le_refl u) (Nat.le_succ q)
  unfold dispatchResult
  refine HoareE.getS fun s h => ?_
  have rest : ∀ s', FInv L u q s' → HoareE (fun s => s = s') (if dm = true then do
      let r ← lookupE (s.retries m)
      if !ok ∧ r > 0 then
        modS fun s => { s with retries := upd s.retries m (some (r - 1)) }
        handleUnmet cfg n e m .failure
      else
        modS fun s => { s with retries := upd s.retries m none }
        handleResult cfg n e m ok
    else handleUnmet cfg n e m .unmet) (fun _ => FInv L u (q + 1)) (FErr L u (q + 1)) := by
    intro s' h'
    refine HoareE.ite (fun _ => ?_) fun _ => (handleUnmet_fuel hn e m _).at h'
    refine HoareE.lookupE (fun _ s hs => ⟨by simp, hs ▸ h'.up⟩) fun r _ => ?_
    refine HoareE.ite (fun _ => ?_) fun _ => ?_
    · exact HoareE.modS fun s hs => (handleUnmet_fuel hn e m _).at (by subst hs; exact ⟨h'.ids, h'.grn, h'.pen, h'.len, h'.un, h'.ql⟩)
    · exact HoareE.modS fun s hs => ((handleResult_fuel hn' e m ok).at (by subst hs; exact ⟨h'.ids, h'.grn, h'.pen, h'.len, h'.un, h'.ql⟩)).conseq
        (fun _ h => h) (fun _ _ h => h.up) (fun _ _ h => h.up)
  cases s.targets.idxOf? e with
  | none => exact rest s h
  | some idx => exact HoareE.modS fun s' hs => rest _ (by subst hs; exact ⟨h.ids, h.grn, h.pen, h.len, h.un, h.ql⟩)

theorem jobTimeout_fuel (hn : Enough L u q n) (m : MsgId) (tid : Nat) : HoareE (FInv L u q) (jobTimeout cfg n m tid) (fun _ => FInv L u q) (FErr L u q) := by
  unfold jobTimeout
  refine HoareE.getJob (fun s h _ => ⟨by simp, h⟩) fun s j h hj => ?_
  refine HoareE.ite (fun _ => HoareE.pure fun s' hs => hs ▸ h) fun _ => ?_
  refine HoareE.getS fun s₁ hs₁ => ?_
  subst hs₁
  exact HoareE.ite (fun _ => (hn.fail m _).at h) fun _ => HoareE.pure fun s' hs => hs ▸ h

theorem dispatchSubmission_fuel (hn : Enough (L + 1) (L + 1) (q + 1) n) (m : MsgId) (sub : Submission) :
    HoareE (FInv L u q) (dispatchSubmission cfg n m sub) (fun _ => FInv (L + 1) (L + 1) (q + 1)) (FErr (L + 1) (L + 1) (q + 1)) := by
  have hn' : Enough (L + 1) (L + 1) q n := hn.mono (Nat.le_refl _) (Nat.le_succ q)
  unfold dispatchSubmission
  refine HoareE.emit fun s h => ?_
  refine HoareE.modS fun s₁ hs₁ => ?_
  subst hs₁
  have hmem : ∀ x ∈ s.allIds, x ∈ insertSet m s.allIds := fun x hx => (mem_insertSet' _ _ _).mpr (Or.inr hx)
  have hlen : (insertSet m s.allIds).length ≤ L + 1 := Nat.le_trans (insertSet_length _ _) (Nat.succ_le_succ h.len)
  have h1 : FInv (L + 1) (L + 1) q { s with
      trace := s.trace ++ [.submitted m sub]
      allIds := insertSet m s.allIds
      retries := upd s.retries m (some sub.retries) } :=
    ⟨fun x j hx => hmem x (h.ids x j hx), fun d l hl => ⟨(h.grn d l hl).1, fun x hx => hmem x ((h.grn d l hl).2 x hx)⟩,
      fun d l hl => ⟨(h.pen d l hl).1, fun x hx => hmem x ((h.pen d l hl).2 x hx)⟩, hlen,
      Nat.le_trans List.countP_le_length hlen, h.ql⟩
  refine HoareE.ite (fun _ => ?_) fun _ => ?_
  · exact HoareE.bind (R := fun _ _ => False) (HoareE.throwE fun s' h' => ⟨by simp, h' ▸ h1.up⟩) fun _ _ h => h.elim
  refine HoareE.getS fun s₂ hs₂ => ?_
  subst hs₂
  refine HoareE.ite (fun _ => ?_) fun _ => ?_
  · exact HoareE.bind (R := fun _ _ => False) (HoareE.throwE fun s' h' => ⟨by simp, h' ▸ h1.up⟩) fun _ _ h => h.elim
  refine HoareE.setJob fun s₃ hs₃ => ?_
  subst hs₃
  have h2 : ∀ j, FInv (L + 1) (L + 1) q { s with
      trace := s.trace ++ [.submitted m sub]
      allIds := insertSet m s.allIds
      retries := upd s.retries m (some sub.retries)
      jobs := upd s.jobs m (some j) } := fun j => by
    refine ⟨fun x jx hx => ?_, h1.grn, h1.pen, hlen, ?_, h1.ql⟩
    · by_cases hxm : x = m
      · exact (mem_insertSet' _ _ _).mpr (Or.inl hxm)
      · simp only [upd, hxm, if_false] at hx
        exact hmem x (h.ids x jx hx)
    · exact Nat.le_trans List.countP_le_length hlen
  generalize hj : Job.mk sub.targets _ sub.follow sub.hasTimeout sub.timestamp _ _ _ = j
  have h3 := h2 j
  split
  · refine HoareE.addQueueMap fun s₄ hs₄ => ?_
    subst hs₄
    exact ((hn'.fail m _).conseq (fun _ h => h) (fun _ _ h => h.up) (fun _ _ h => h.up)).at ⟨h3.ids, h3.grn, h3.pen, h3.len, h3.un, h3.ql⟩
  · refine HoareE.ite (fun _ => ?_) fun _ => (saveUnmet_fuel m).at h3
    refine HoareE.bind (((hn'.may m).conseq (fun _ h => h) (fun _ _ h => h) (fun _ _ h => h.up)).at h3) fun b => ?_
    refine HoareE.ite (fun _ => HoareE.pure fun _ h => h.up) fun _ => ?_
    refine HoareE.getS fun s₅ hs₅ => ?_
    exact HoareE.ite (fun _ => (saveUnmet_fuel m).at hs₅) fun _ => HoareE.pure fun s h => h ▸ hs₅.up

theorem registerEngine_fuel (hn : Enough L u q n) (e : Engine) : HoareE (FInv L u q) (registerEngine cfg n e) (fun _ => FInv L u q) (FErr L u q) := by
  unfold registerEngine
  refine HoareE.emit fun s h => ?_
  refine HoareE.modS fun s₁ hs₁ => ?_
  subst hs₁
  refine (hn.upd none).at ⟨h.ids, h.grn, fun x l hx => ?_, h.len, h.un, h.ql⟩
  by_cases hxe : x = e
  · subst hxe
    simp only [upd, if_true, Option.some.injEq] at hx
    subst hx
    simp
  · simp only [upd, hxe, if_false] at hx; exact h.pen x l hx

theorem unregisterEngine_fuel (e : Engine) : HoareE (FInv L u q) (unregisterEngine e) (fun _ => FInv L u q) (FErr L u q) := by
  unfold unregisterEngine
  refine HoareE.getS fun s h => ?_
  cases s.targets.idxOf? e with
  | none => exact HoareE.throwE fun s' hs => ⟨by simp, hs ▸ h⟩
  | some idx =>
    refine HoareE.emit fun s₁ hs₁ => ?_
    subst hs₁
    refine HoareE.modS fun s₂ hs₂ => ?_
    subst hs₂
    refine HoareE.lookupE (fun _ s hs => ⟨by simp, by subst hs; exact ⟨h.ids, h.grn, h.pen, h.len, h.un, h.ql⟩⟩) fun p hp => ?_
    refine HoareE.ite (fun _ => ?_) fun _ => ?_
    · exact HoareE.modS_last fun s hs => by subst hs; exact ⟨h.ids, h.grn, h.pen, h.len, h.un, h.ql⟩
    · refine HoareE.lookupE (fun _ s hs => ⟨by simp, by subst hs; exact ⟨h.ids, h.grn, h.pen, h.len, h.un, h.ql⟩⟩) fun c hc => ?_
      refine HoareE.modS fun s₃ hs₃ => ?_
      subst hs₃
      refine HoareE.lookupE (fun _ s hs => ⟨by simp, by subst hs; exact ⟨h.ids, h.grn, h.pen, h.len, h.un, h.ql⟩⟩) fun f hf => ?_
      exact HoareE.modS_last fun s hs => by subst hs; exact ⟨h.ids, h.grn, h.pen, h.len, h.un, h.ql⟩

theorem logErrorsE_pres {P I : State → Prop} {x : M Unit} {E' : Err → State → Prop}
    (h : HoareE P x (fun _ => I) fun _ => I) : HoareE P (logErrors x) (fun _ => I) E' := by
  intro s hs
  exact h.final (fun _ _ h => h) (fun _ _ h => h) hs

theorem strandedLoop_fuel (e : Engine) (ms : List MsgId) : ∀ q, Enough L u (q + ms.length) n →
    HoareE (FInv L u q) (strandedLoop cfg n e ms) (fun _ => FInv L u (q + ms.length)) (FErr L u (q + ms.length)) := by
  induction ms with
  | nil => intro q _; exact HoareE.pure fun _ h => h
  | cons m ms ih =>
    intro q hn
    simp only [List.length_cons] at hn ⊢
    have ih' := ih (q + 1) (by rw [Nat.add_right_comm, Nat.add_assoc]; exact hn)
    have hq : q + 1 + ms.length = q + (ms.length + 1) := by omega
    rw [hq] at ih'
    unfold strandedLoop
    refine HoareE.getS fun s h => ?_
    refine HoareE.lookupE (fun _ s hs => ⟨by simp, by subst hs; exact h.mono (Nat.le_refl _) (by omega)⟩) fun p hp => ?_
    refine HoareE.ite (fun _ => ?_) fun _ => ?_
    · refine HoareE.emit fun s₁ hs₁ => ?_
      subst hs₁
      refine HoareE.bind (R := fun _ => FInv L u (q + 1)) ?_ fun _ => ih'
      refine logErrorsE_pres (((dispatchResult_fuel (hn.mono (Nat.le_refl _) (by omega)) e m false true).conseq (fun _ h => h) (fun _ _ h => h) (fun _ _ h => h.2)).at ?_)
      exact ⟨h.ids, h.grn, h.pen, h.len, h.un, h.ql⟩
    · exact ih'.at h.up

theorem handleStranded_fuel (e : Engine) (hn : Enough L u (q + L) n) :
    HoareE (FInv L u q) (handleStranded cfg n e) (fun _ => FInv L u (q + L)) (FErr L u (q + L)) := by
  unfold handleStranded
  refine HoareE.getS fun s h => ?_
  have hup : FInv L u (q + L) s := h.mono (Nat.le_refl _) (by omega)
  refine HoareE.lookupE (fun _ s hs => ⟨by simp, by subst hs; exact hup⟩) fun p hp => ?_
  obtain ⟨a, b⟩ := h.pen e p hp
  have hl : p.length ≤ L := Nat.le_trans (nodup_length_le a b) h.len
  refine HoareE.bind (R := fun _ => FInv L u (q + L)) (((strandedLoop_fuel e p q (hn.mono (Nat.le_refl _) (by omega))).conseq (fun _ h => h)
    (fun _ _ h => h.mono (Nat.le_refl _) (by omega)) (fun _ _ h => FErr.mono h (Nat.le_refl _) (by omega))).at h) fun _ => ?_
  refine HoareE.getS fun s₁ h₁ => ?_
  refine HoareE.lookupE (fun _ s hs => ⟨by simp, by subst hs; exact h₁⟩) fun c hc => ?_
  refine HoareE.modS fun s₃ hs₃ => ?_
  subst hs₃
  refine HoareE.lookupE (fun _ s hs => ⟨by simp, by subst hs; exact ⟨h₁.ids, h₁.grn, h₁.pen, h₁.len, h₁.un, h₁.ql⟩⟩) fun f hf => ?_
  exact HoareE.modS_last fun s hs => by subst hs; exact ⟨h₁.ids, h₁.grn, h₁.pen, h₁.len, h₁.un, h₁.ql⟩

/-- The bookkeeping without bounds. -/
def FOk (s : State) : Prop := FInv s.allIds.length s.allIds.length s.queue.length s

theorem FInv.ok {s : State} (h : FInv L u q s) : FOk s := ⟨h.ids, h.grn, h.pen, Nat.le_refl _, List.countP_le_length, Nat.le_refl _⟩

theorem enough_fuelFor (s : State) (hn : fuelFor s ≤ n) :
    Enough (s.allIds.length + 1) (s.allIds.length + 1) (s.queue.length + s.allIds.length + 1) n := by
  unfold Enough
  refine Nat.le_trans ?_ hn
  unfold fuelFor
  generalize s.allIds.length = a
  generalize s.queue.length = b
  rw [show (a + 2) * (a + b + 10) * 8 = (a + 2) * ((a + b + 10) * 8) by rw [Nat.mul_assoc]]
  have h1 : (a + 1 + 1) * (b + a + 1 + (a + 1) + 8 + 3) ≤ (a + 2) * ((a + b + 10) * 8) := Nat.mul_le_mul (by omega) (by omega)
  have h2 : (a + 1 + 1) * (b + a + 1 + (a + 1) + 8 + 3) = (a + 1 + 1) * (b + a + 1 + (a + 1) + 8) + (a + 1 + 1) * 3 := by rw [Nat.mul_add]
  have h3 : (a + 1 + 1) * (b + a + 1 + (a + 1 + 8)) = (a + 1 + 1) * (b + a + 1 + (a + 1) + 8) := by congr 1
  have h3' : (a + 1 + 1) * (b + a + 1 + (a + 1) + 8) = (a + 1 + 1) * (b + a + 1 + (a + 1) + 8) := rfl
  omega

/-- `Enough` also depends on `L`. -/
theorem Enough.monoL {L' : Nat} (h : Enough L u q n) (hl : L' ≤ L) : Enough L' u q n := by
  unfold Enough at *
  refine Nat.le_trans ?_ h
  exact Nat.add_le_add_left (Nat.mul_le_mul (Nat.le_refl _) (by omega)) 3

theorem handle_fuel (s : State) (ev : Event) (hs : FOk s) (hn : fuelFor s ≤ n) :
    HoareE (fun s' => s' = s) (handle cfg n ev) (fun _ => FOk) (fun e s => e ≠ .fuel ∧ FOk s) := by
  have hE := enough_fuelFor s hn
  have hE0 : ∀ q, q ≤ s.queue.length + s.allIds.length → Enough s.allIds.length s.allIds.length q n := fun q hq =>
    (hE.mono (by omega) (by omega)).monoL (by omega)
  unfold handle
  cases ev with
  | submit m sub =>
    exact ((dispatchSubmission_fuel (hE.mono (Nat.le_refl _) (by omega)) m sub).conseq (fun _ h => h) (fun _ _ h => h.ok) (fun _ _ h => ⟨h.1, h.2.ok⟩)).at hs
  | register e =>
    exact ((registerEngine_fuel (hE0 _ (by omega)) e).conseq (fun _ h => h) (fun _ _ h => h.ok) (fun _ _ h => ⟨h.1, h.2.ok⟩)).at hs
  | unregister e =>
    exact ((unregisterEngine_fuel e).conseq (fun _ h => h) (fun _ _ h => h.ok) (fun _ _ h => ⟨h.1, h.2.ok⟩)).at hs
  | result e m ok dm =>
    refine HoareE.emit fun s₁ hs₁ => ?_
    subst hs₁
    refine ((dispatchResult_fuel ((hE.mono (Nat.le_succ _) (by omega)).monoL (Nat.le_succ _)) e m ok dm).conseq (fun _ h => h) (fun _ _ h => h.ok) (fun _ _ h => ⟨h.1, h.2.ok⟩)).at
      (P := FInv s₁.allIds.length s₁.allIds.length s₁.queue.length) ⟨hs.ids, hs.grn, hs.pen, hs.len, hs.un, hs.ql⟩
  | strandTimer e =>
    refine HoareE.getS fun s₁ hs₁ => ?_
    subst hs₁
    refine HoareE.ite (fun _ => ?_) fun _ => HoareE.pure fun s hs' => hs' ▸ hs
    refine HoareE.modS fun s₂ hs₂ => ?_
    subst hs₂
    refine ((handleStranded_fuel e (hE0 _ (Nat.le_refl _))).conseq (fun _ h => h) (fun _ _ h => h.ok) (fun _ _ h => ⟨h.1, h.2.ok⟩)).at
      ⟨hs.ids, hs.grn, hs.pen, hs.len, hs.un, hs.ql⟩
  | jobTimer m tid =>
    refine HoareE.getS fun s₁ hs₁ => ?_
    subst hs₁
    refine HoareE.ite (fun _ => ?_) fun _ => HoareE.pure fun s hs' => hs' ▸ hs
    refine HoareE.modS fun s₂ hs₂ => ?_
    subst hs₂
    refine ((jobTimeout_fuel (hE0 s₂.queue.length (by omega)) m tid).conseq (fun _ h => h) (fun _ _ h => h.ok) (fun _ _ h => ⟨h.1, h.2.ok⟩)).at
      ⟨hs.ids, hs.grn, hs.pen, hs.len, hs.un, hs.ql⟩

theorem run_ok (evs : List Event) : FOk (run cfg evs) := by
  suffices h : ∀ s, FOk s → FOk (evs.foldl (step cfg) s) from
    h _ ⟨(fun _ _ h => nomatch h), (fun _ _ h => nomatch h), (fun _ _ h => nomatch h), Nat.le_refl _, Nat.le_refl _, Nat.le_refl _⟩
  induction evs with
  | nil => exact fun _ h => h
  | cons ev evs ih =>
    intro s h
    exact ih _ ((handle_fuel s ev h (Nat.le_refl _)).final (fun _ _ h => h) (fun _ _ h => h.2) rfl)

/-! ## More fuel makes no difference -/

/-- `y` does what `x` does, unless `x` runs out of fuel. -/
def FuelLe (x y : M α) : Prop := ∀ s, (x s).1 = .error .fuel ∨ y s = x s

theorem FuelLe.refl (x : M α) : FuelLe x x := fun _ => Or.inr rfl

theorem FuelLe.bind {x y : M α} {f g : α → M β} (h : FuelLe x y) (hf : ∀ a, FuelLe (f a) (g a)) : FuelLe (x >>= f) (y >>= g) := by
  intro s
  show (match x s with | (.ok a, s') => f a s' | (.error e, s') => (.error e, s')).1 = _ ∨
    (match y s with | (.ok a, s') => g a s' | (.error e, s') => (.error e, s')) = (match x s with | (.ok a, s') => f a s' | (.error e, s') => (.error e, s'))
  rcases h s with h | h
  · left
    rcases hx : x s with ⟨r, s'⟩
    rw [hx] at h
    cases r with
    | ok a => cases h
    | error e => simpa using h
  · rw [h]
    rcases hx : x s with ⟨r, s'⟩
    cases r with
    | ok a => exact hf a s'
    | error e => exact Or.inr rfl

theorem FuelLe.ite {c : Prop} [Decidable c] {x y x' y' : M α} (h : FuelLe x y) (h' : FuelLe x' y') : FuelLe (if c then x else x') (if c then y else y') := by
  by_cases hc : c
  · rw [if_pos hc, if_pos hc]; exact h
  · rw [if_neg hc, if_neg hc]; exact h'

theorem FuelLe.zero {y : M α} : FuelLe (throwE .fuel) y := fun _ => Or.inl rfl

/-- One more unit of fuel. -/
structure MonoAt (cfg : Config) (n : Nat) : Prop where
  fail : ∀ m why, FuelLe (failUnreachable cfg n m why) (failUnreachable cfg (n + 1) m why)
  may : ∀ m, FuelLe (maybeRun cfg n m) (maybeRun cfg (n + 1) m)
  job : ∀ m, FuelLe (processJob cfg n m) (processJob cfg (n + 1) m)
  lq : ∀ l, FuelLe (loopQueue cfg n l) (loopQueue cfg (n + 1) l)
  lj : ∀ l, FuelLe (loopJobs cfg n l) (loopJobs cfg (n + 1) l)
  upd : ∀ d, FuelLe (updateGraph cfg n d) (updateGraph cfg (n + 1) d)

theorem monoAt (n : Nat) : MonoAt cfg n := by
  induction n with
  | zero =>
    refine ⟨?_, ?_, ?_, ?_, ?_, ?_⟩
    · intro m why; rw [failUnreachable]; exact FuelLe.zero
    · intro m; rw [maybeRun]; exact FuelLe.zero
    · intro m; rw [processJob]; exact FuelLe.zero
    · intro m; rw [loopQueue]; exact FuelLe.zero
    · intro m; rw [loopJobs]; exact FuelLe.zero
    · intro m; rw [updateGraph]; exact FuelLe.zero
  | succ n ih =>
    refine ⟨?_, ?_, ?_, ?_, ?_, ?_⟩
    · intro m why
      unfold failUnreachable
      refine FuelLe.bind (FuelLe.refl _) fun s => ?_
      refine FuelLe.ite (FuelLe.refl _) ?_
      refine FuelLe.bind (FuelLe.refl _) fun _ => ?_
      refine FuelLe.bind (FuelLe.refl _) fun _ => ?_
      refine FuelLe.bind (FuelLe.refl _) fun _ => ?_
      refine FuelLe.bind (FuelLe.refl _) fun _ => ?_
      refine FuelLe.bind (FuelLe.refl _) fun _ => ?_
      exact ih.upd _
    · intro m
      unfold maybeRun
      refine FuelLe.bind (FuelLe.refl _) fun s => ?_
      refine FuelLe.bind (FuelLe.refl _) fun j => ?_
      refine FuelLe.ite (FuelLe.refl _) ?_
      refine FuelLe.ite ?_ (FuelLe.refl _)
      refine FuelLe.bind (FuelLe.refl _) fun is => ?_
      refine FuelLe.ite ?_ (FuelLe.refl _)
      refine FuelLe.bind (FuelLe.refl _) fun b => ?_
      refine FuelLe.ite ?_ ?_
      · refine FuelLe.bind (FuelLe.refl _) fun _ => ?_
        exact FuelLe.bind (ih.fail _ _) fun _ => FuelLe.refl _
      · refine FuelLe.bind (FuelLe.refl _) fun b => ?_
        refine FuelLe.ite ?_ (FuelLe.refl _)
        refine FuelLe.bind (FuelLe.refl _) fun _ => ?_
        exact FuelLe.bind (ih.fail _ _) fun _ => FuelLe.refl _
    · intro m
      unfold processJob
      refine FuelLe.bind (FuelLe.refl _) fun s => ?_
      refine FuelLe.bind (FuelLe.refl _) fun j => ?_
      refine FuelLe.ite (FuelLe.refl _) ?_
      refine FuelLe.ite (FuelLe.bind (ih.fail _ _) fun _ => FuelLe.refl _) ?_
      refine FuelLe.ite ?_ (FuelLe.refl _)
      exact FuelLe.bind (ih.may _) fun b => FuelLe.refl _
    · intro l
      unfold loopQueue
      refine FuelLe.bind (FuelLe.refl _) fun s => ?_
      cases s.queue with
      | nil => exact FuelLe.refl _
      | cons m q =>
        refine FuelLe.bind (FuelLe.refl _) fun _ => ?_
        refine FuelLe.bind (ih.job _) fun o => ?_
        cases o with
        | gone => exact ih.lq _
        | keep => exact ih.lq _
        | stop => exact FuelLe.refl _
    · intro l
      unfold loopJobs
      cases l with
      | nil => exact FuelLe.refl _
      | cons m l =>
        refine FuelLe.bind (ih.job _) fun o => ?_
        cases o with
        | gone => exact ih.lj _
        | keep => exact ih.lj _
        | stop => exact FuelLe.refl _
    · intro d
      unfold updateGraph
      refine FuelLe.bind (FuelLe.refl _) fun s => ?_
      have rest : ∀ ms, FuelLe (if d = none ∨ cfg.hwm ≠ 0 ∧ (s.loads.any fun l => decide (l = (cfg.hwm : Int) - 1)) = true then loopQueue cfg n []
            else do
              if (ms.any fun m => decide (m ∉ s.queueMap)) = true then throwE .keyError
              loopJobs cfg n (sortByTime (fun m => ((s.jobs m).map Job.timestamp).getD 0) ms))
          (if d = none ∨ cfg.hwm ≠ 0 ∧ (s.loads.any fun l => decide (l = (cfg.hwm : Int) - 1)) = true then loopQueue cfg (n + 1) []
            else do
              if (ms.any fun m => decide (m ∉ s.queueMap)) = true then throwE .keyError
              loopJobs cfg (n + 1) (sortByTime (fun m => ((s.jobs m).map Job.timestamp).getD 0) ms)) := fun ms => by
        refine FuelLe.ite (ih.lq _) ?_
        refine FuelLe.ite ?_ (ih.lj _)
        exact FuelLe.bind (FuelLe.refl _) fun _ => ih.lj _
      cases d with
      | none => exact rest []
      | some d =>
        refine FuelLe.bind (FuelLe.refl _) fun _ => ?_
        exact rest _

theorem saveUnmet_refl (m : MsgId) : FuelLe (saveUnmet m) (saveUnmet m) := FuelLe.refl _

theorem handleUnmet_le (e : Engine) (m : MsgId) (c : Cause) : FuelLe (handleUnmet cfg n e m c) (handleUnmet cfg (n + 1) e m c) := by
  have tail : FuelLe (do
      if cfg.hwm ≠ 0 then
        let s ← getS
        match s.targets.idxOf? e with
        | none => pure ()
        | some idx =>
          if s.loads.getD idx 0 = (cfg.hwm : Int) - 1 then updateGraph cfg n none) (do
      if cfg.hwm ≠ 0 then
        let s ← getS
        match s.targets.idxOf? e with
        | none => pure ()
        | some idx =>
          if s.loads.getD idx 0 = (cfg.hwm : Int) - 1 then updateGraph cfg (n + 1) none) := by
    refine FuelLe.ite ?_ (FuelLe.refl _)
    refine FuelLe.bind (FuelLe.refl _) fun s => ?_
    cases s.targets.idxOf? e with
    | none => exact FuelLe.refl _
    | some idx => exact FuelLe.ite ((monoAt n).upd none) (FuelLe.refl _)
  unfold handleUnmet
  refine FuelLe.bind (FuelLe.refl _) fun s => ?_
  refine FuelLe.bind (FuelLe.refl _) fun p => ?_
  have rest : FuelLe (do
      modS fun s => { s with pending := upd s.pending e (some (p.filter (· ≠ m))) }
      let j ← getJob m
      emit (.retry e m c)
      let bl := insertSet e j.blacklist
      setJob m { j with blacklist := bl }
      if setEq bl j.targets then
        addQueueMap m
        failUnreachable cfg n m .impossible
      else
        if ← maybeRun cfg n m then pure ()
        else
          let s ← getS
          if m ∉ s.allFailed then saveUnmet m
      if cfg.hwm ≠ 0 then
        let s ← getS
        match s.targets.idxOf? e with
        | none => pure ()
        | some idx =>
          if s.loads.getD idx 0 = (cfg.hwm : Int) - 1 then updateGraph cfg n none) (do
      modS fun s => { s with pending := upd s.pending e (some (p.filter (· ≠ m))) }
      let j ← getJob m
      emit (.retry e m c)
      let bl := insertSet e j.blacklist
      setJob m { j with blacklist := bl }
      if setEq bl j.targets then
        addQueueMap m
        failUnreachable cfg (n + 1) m .impossible
      else
        if ← maybeRun cfg (n + 1) m then pure ()
        else
          let s ← getS
          if m ∉ s.allFailed then saveUnmet m
      if cfg.hwm ≠ 0 then
        let s ← getS
        match s.targets.idxOf? e with
        | none => pure ()
        | some idx =>
          if s.loads.getD idx 0 = (cfg.hwm : Int) - 1 then updateGraph cfg (n + 1) none) := by
    refine FuelLe.bind (FuelLe.refl _) fun _ => ?_
    refine FuelLe.bind (FuelLe.refl _) fun _ => ?_
    refine FuelLe.bind (FuelLe.refl _) fun _ => ?_
    refine FuelLe.bind (FuelLe.refl _) fun _ => ?_
    refine FuelLe.ite ?_ ?_
    · refine FuelLe.bind (FuelLe.refl _) fun _ => ?_
      exact FuelLe.bind ((monoAt n).fail _ _) fun _ => tail
    · refine FuelLe.bind ((monoAt n).may _) fun b => ?_
      refine FuelLe.ite tail ?_
      refine FuelLe.bind (FuelLe.refl _) fun _ => ?_
      refine FuelLe.ite ?_ tail
      exact FuelLe.bind (FuelLe.refl _) fun _ => tail
  refine FuelLe.ite ?_ rest
  exact FuelLe.bind (FuelLe.refl _) fun _ => rest

theorem handleResult_le (e : Engine) (m : MsgId) (ok : Bool) : FuelLe (handleResult cfg n e m ok) (handleResult cfg (n + 1) e m ok) := by
  unfold handleResult
  refine FuelLe.bind (FuelLe.refl _) fun _ => ?_
  refine FuelLe.bind (FuelLe.refl _) fun s => ?_
  refine FuelLe.bind (FuelLe.refl _) fun p => ?_
  have tail : FuelLe (do
      modS fun s => { s with allDone := insertSet m s.allDone, destinations := upd s.destinations m (some e) }
      updateGraph cfg n (some m)) (do
      modS fun s => { s with allDone := insertSet m s.allDone, destinations := upd s.destinations m (some e) }
      updateGraph cfg (n + 1) (some m)) := FuelLe.bind (FuelLe.refl _) fun _ => (monoAt n).upd _
  have rest : FuelLe (do
      modS fun s => { s with pending := upd s.pending e (some (p.filter (· ≠ m))) }
      if ok then
        let c ← lookupE (s.completed e)
        modS fun s => { s with completed := upd s.completed e (some (insertSet m c)),
                               allCompleted := insertSet m s.allCompleted }
      else
        let f ← lookupE (s.failed e)
        modS fun s => { s with failed := upd s.failed e (some (insertSet m f)),
                               allFailed := insertSet m s.allFailed }
      modS fun s => { s with allDone := insertSet m s.allDone, destinations := upd s.destinations m (some e) }
      updateGraph cfg n (some m)) (do
      modS fun s => { s with pending := upd s.pending e (some (p.filter (· ≠ m))) }
      if ok then
        let c ← lookupE (s.completed e)
        modS fun s => { s with completed := upd s.completed e (some (insertSet m c)),
                               allCompleted := insertSet m s.allCompleted }
      else
        let f ← lookupE (s.failed e)
        modS fun s => { s with failed := upd s.failed e (some (insertSet m f)),
                               allFailed := insertSet m s.allFailed }
      modS fun s => { s with allDone := insertSet m s.allDone, destinations := upd s.destinations m (some e) }
      updateGraph cfg (n + 1) (some m)) := by
    refine FuelLe.bind (FuelLe.refl _) fun _ => ?_
    refine FuelLe.ite ?_ ?_
    all_goals
      refine FuelLe.bind (FuelLe.refl _) fun _ => ?_
      refine FuelLe.bind (FuelLe.refl _) fun _ => ?_
      exact tail
  refine FuelLe.ite ?_ rest
  exact FuelLe.bind (FuelLe.refl _) fun _ => rest

theorem dispatchResult_le (e : Engine) (m : MsgId) (ok dm : Bool) : FuelLe (dispatchResult cfg n e m ok dm) (dispatchResult cfg (n + 1) e m ok dm) := by
  unfold dispatchResult
  refine FuelLe.bind (FuelLe.refl _) fun s => ?_
  have rest : FuelLe (if dm = true then do
      let r ← lookupE (s.retries m)
      if !ok ∧ r > 0 then
        modS fun s => { s with retries := upd s.retries m (some (r - 1)) }
        handleUnmet cfg n e m .failure
      else
        modS fun s => { s with retries := upd s.retries m none }
        handleResult cfg n e m ok
    else handleUnmet cfg n e m .unmet) (if dm = true then do
      let r ← lookupE (s.retries m)
      if !ok ∧ r > 0 then
        modS fun s => { s with retries := upd s.retries m (some (r - 1)) }
        handleUnmet cfg (n + 1) e m .failure
      else
        modS fun s => { s with retries := upd s.retries m none }
        handleResult cfg (n + 1) e m ok
    else handleUnmet cfg (n + 1) e m .unmet) := by
    refine FuelLe.ite ?_ (handleUnmet_le _ _ _)
    refine FuelLe.bind (FuelLe.refl _) fun r => ?_
    refine FuelLe.ite ?_ ?_
    · exact FuelLe.bind (FuelLe.refl _) fun _ => handleUnmet_le _ _ _
    · exact FuelLe.bind (FuelLe.refl _) fun _ => handleResult_le _ _ _
  cases s.targets.idxOf? e with
  | none => exact rest
  | some idx => exact FuelLe.bind (FuelLe.refl _) fun _ => rest

theorem dispatchSubmission_le (m : MsgId) (sub : Submission) : FuelLe (dispatchSubmission cfg n m sub) (dispatchSubmission cfg (n + 1) m sub) := by
  unfold dispatchSubmission
  refine FuelLe.bind (FuelLe.refl _) fun _ => ?_
  refine FuelLe.bind (FuelLe.refl _) fun _ => ?_
  refine FuelLe.ite (FuelLe.bind (FuelLe.refl _) fun _ => ?_) ?_
  all_goals
    refine FuelLe.bind (FuelLe.refl _) fun s => ?_
    refine FuelLe.ite (FuelLe.bind (FuelLe.refl _) fun _ => ?_) ?_
    all_goals
      refine FuelLe.bind (FuelLe.refl _) fun _ => ?_
      split
      · refine FuelLe.bind (FuelLe.refl _) fun _ => ?_
        exact (monoAt n).fail _ _
      · refine FuelLe.ite ?_ (FuelLe.refl _)
        exact FuelLe.bind ((monoAt n).may _) fun b => FuelLe.refl _

theorem step_le (f : Nat → M α) (h : ∀ n, FuelLe (f n) (f (n + 1))) {s : State} (hn : (f n s).1 ≠ .error .fuel) (k : Nat) : f (n + k) s = f n s := by
  induction k with
  | zero => rfl
  | succ k ih =>
    rcases h (n + k) s with h | h
    · rw [ih] at h; exact absurd h hn
    · rw [Nat.add_assoc] at h; rw [h, ih]

theorem noFuel_of {P : State → Prop} {x : M α} {Q : α → State → Prop} {E : Err → State → Prop} (h : HoareE P x Q E) (he : ∀ e s, E e s → e ≠ .fuel)
    {s : State} (hs : P s) : (x s).1 ≠ .error .fuel := by
  have := h s hs
  rcases hx : x s with ⟨r, s'⟩
  rw [hx] at this
  cases r with
  | ok a => simp
  | error e => intro hh; simp at hh; exact he e s' this hh

theorem getS_bind (f : State → M β) (s : State) : (getS >>= f) s = f s s := rfl
theorem modS_bind (g : State → State) (f : Unit → M β) (s : State) : (modS g >>= f) s = f () (g s) := rfl
theorem emit_bind (o : Obs) (f : Unit → M β) (s : State) : (emit o >>= f) s = f () { s with trace := s.trace ++ [o] } := rfl
theorem lookupE_bind (a : α) (f : α → M β) (s : State) : (lookupE (some a) >>= f) s = f a s := rfl
theorem logErrors_bind (x : M Unit) (f : Unit → M β) (s : State) : (logErrors x >>= f) s = f () (x s).2 := rfl
theorem bind_eq {x y : M α} (h : y s = x s) (f : α → M β) : (y >>= f) s = (x >>= f) s := by
  show (match y s with | (.ok a, s') => f a s' | (.error e, s') => (.error e, s')) = (match x s with | (.ok a, s') => f a s' | (.error e, s') => (.error e, s'))
  rw [h]

theorem handle_strand (n : Nat) (e : Engine) : handle cfg n (.strandTimer e) = (do
    let s ← getS
    if e ∈ s.strandTimers then
      modS fun s => { s with strandTimers := s.strandTimers.erase e }
      handleStranded cfg n e) := rfl

theorem strandedLoop_le (e : Engine) (ms : List MsgId) : ∀ (q : Nat) (s : State), FInv L u q s → Enough L u (q + ms.length) n → ∀ k,
    strandedLoop cfg (n + k) e ms s = strandedLoop cfg n e ms s := by
  induction ms with
  | nil => intro q s _ _ k; rfl
  | cons m ms ih =>
    intro q s hs hn k
    simp only [List.length_cons] at hn
    have hn1 : Enough L u (q + 1 + ms.length) n := by rw [Nat.add_right_comm, Nat.add_assoc]; exact hn
    unfold strandedLoop
    rw [getS_bind, getS_bind]
    cases hp : s.pending e with
    | none => rfl
    | some p =>
      rw [lookupE_bind, lookupE_bind]
      by_cases hm : m ∈ p
      · have h1 : FInv L u q { s with trace := s.trace ++ [.stranded e m] } := ⟨hs.ids, hs.grn, hs.pen, hs.len, hs.un, hs.ql⟩
        have hd := dispatchResult_fuel (cfg := cfg) (hn.mono (Nat.le_refl _) (by omega) : Enough L u (q + 1) n) e m false true
        have heq := step_le (fun n => dispatchResult cfg n e m false true) (fun n => dispatchResult_le e m false true) (noFuel_of hd (fun _ _ h => h.1) h1) k
        rw [if_pos hm, if_pos hm, emit_bind, emit_bind, logErrors_bind, logErrors_bind]
        rw [show dispatchResult cfg (n + k) e m false true _ = dispatchResult cfg n e m false true _ from heq]
        exact ih (q + 1) _ (hd.final (fun _ _ h => h) (fun _ _ h => h.2) h1) hn1 k
      · rw [if_neg hm, if_neg hm]
        exact ih (q + 1) _ hs.up hn1 k

/-- **The recursion of `fail_unreachable`, `update_graph` and `maybe_run` terminates**: in every state the scheduler can get into, whatever happened, each
handler ends without running out of the fuel the model gives it, and with any larger amount of fuel the result and the final state are the same. -/
theorem fuel_suffices (evs : List Event) (ev : Event) (n : Nat) (hn : fuelFor (run cfg evs) ≤ n) :
    (handle cfg n ev (run cfg evs)).1 ≠ .error .fuel ∧ handle cfg n ev (run cfg evs) = handle cfg (fuelFor (run cfg evs)) ev (run cfg evs) := by
  have hs := run_ok (cfg := cfg) evs
  generalize run cfg evs = s at hs hn ⊢
  refine ⟨noFuel_of (handle_fuel s ev hs hn) (fun _ _ h => h.1) rfl, ?_⟩
  obtain ⟨k, rfl⟩ := Nat.exists_eq_add_of_le hn
  have h0 := noFuel_of (handle_fuel (cfg := cfg) s ev hs (Nat.le_refl _)) (fun _ _ h => h.1) rfl
  cases ev with
  | submit m sub => exact step_le (fun n => dispatchSubmission cfg n m sub) (fun n => dispatchSubmission_le m sub) h0 k
  | register e =>
    refine step_le (fun n => registerEngine cfg n e) (fun n => ?_) h0 k
    unfold registerEngine
    refine FuelLe.bind (FuelLe.refl _) fun _ => ?_
    exact FuelLe.bind (FuelLe.refl _) fun _ => (monoAt n).upd _
  | unregister e => rfl
  | result e m ok dm =>
    refine step_le (fun n => (handle cfg n (.result e m ok dm))) (fun n => ?_) h0 k
    exact FuelLe.bind (FuelLe.refl _) fun _ => dispatchResult_le _ _ _ _
  | jobTimer m tid =>
    refine step_le (fun n => (handle cfg n (.jobTimer m tid))) (fun n => ?_) h0 k
    refine FuelLe.bind (FuelLe.refl _) fun _ => ?_
    refine FuelLe.ite ?_ (FuelLe.refl _)
    refine FuelLe.bind (FuelLe.refl _) fun _ => ?_
    unfold jobTimeout
    refine FuelLe.bind (FuelLe.refl _) fun _ => ?_
    refine FuelLe.ite (FuelLe.refl _) ?_
    refine FuelLe.bind (FuelLe.refl _) fun _ => ?_
    exact FuelLe.ite ((monoAt n).fail _ _) (FuelLe.refl _)
  | strandTimer e =>
    rw [handle_strand, handle_strand, getS_bind, getS_bind]
    by_cases he : e ∈ s.strandTimers
    · rw [if_pos he, if_pos he, modS_bind, modS_bind]
      unfold handleStranded
      rw [getS_bind, getS_bind]
      cases hp : s.pending e with
      | none => rfl
      | some p =>
        rw [lookupE_bind, lookupE_bind]
        obtain ⟨a, b⟩ := hs.pen e p hp
        have hl : p.length ≤ s.allIds.length := Nat.le_trans (nodup_length_le a b) hs.len
        have h1 : FInv s.allIds.length s.allIds.length s.queue.length { s with strandTimers := s.strandTimers.erase e } :=
          ⟨hs.ids, hs.grn, hs.pen, hs.len, hs.un, hs.ql⟩
        have hE := (enough_fuelFor s (Nat.le_refl _)).mono (Nat.le_succ _) (show s.queue.length + p.length ≤ _ by omega) |>.monoL (Nat.le_succ _)
        exact bind_eq (strandedLoop_le e p s.queue.length _ h1 hE k) _
    · rw [if_neg he, if_neg he]

end IPP.Sched
