import Verif.Sched.LinkInv

/-!
# The dependency graph is exact: the mutually recursive functions (lemmas)
-/
namespace IPP.Sched

variable {cfg : Config} {g : Ghost} {s : State} {K X P : List MsgId}

/-- No exception but the artificial one. -/
def FuelE : Err → State → Prop := fun e _ => e = .fuel

theorem destsOf_total (ms : List MsgId) (s₀ : State) (h : ∀ m ∈ ms, s₀.destinations m ≠ none) :
    HoareE (fun s => s = s₀) (destsOf ms) (fun _ s => s = s₀) (fun _ _ => False) := by
  induction ms with
  | nil => exact HoareE.pure fun _ h => h
  | cons m ms ih =>
    unfold destsOf
    refine HoareE.getS fun s hs => ?_
    subst hs
    refine HoareE.lookupE (fun hn => absurd hn (h m (by simp))) fun d hd => ?_
    refine HoareE.bind (ih fun x hx => h x (by simp [hx])) fun r => HoareE.pure fun _ h => h

theorem followImpossible_link (j : Job) (s₀ : State) (h : Links K X P s₀) (hg : GoodJob j) :
    HoareE (fun s => s = s₀) (followImpossible j) (fun b s => s = s₀ ∧ (b = true → Stuck s₀ j)) (fun _ _ => False) := by
  have h1 : HoareE (fun s => s = s₀) (followImpossible j) (fun _ _ => True) (fun _ _ => False) := by
    unfold followImpossible
    refine HoareE.getS fun s hs => ?_
    subst hs
    refine HoareE.ite (fun _ => ?_) fun _ => HoareE.pure fun _ _ => trivial
    refine HoareE.bind (R := fun _ s' => s' = s) (destsOf_total _ _ fun m hm => ?_) fun _ => HoareE.pure fun _ _ => trivial
    obtain ⟨h1, h2⟩ := List.mem_filter.mp hm
    rcases hg.fol with hf | hf
    · simp only [hf, Bool.false_eq_true, if_false, decide_eq_true_eq] at h2
      split at h2
      · exact (h.cd m h2).2
      · cases h2
    · rw [hf] at h1; cases h1
  refine ((HoareE.ofHoare (followImpossible_same s₀ j)).and h1).conseq (fun _ h => ⟨h, h⟩) (fun _ _ hb => ⟨hb.1.1, fun hh => Or.inl (hb.1.2 hh)⟩) (fun _ _ h => h.2.elim)

theorem targetsImpossible_link {s₀ : State} {j : Job} {m : MsgId} (h : Links K X P s₀) (hj : s₀.jobs m = some j) {E : Err → State → Prop} :
    HoareE (fun s => s = s₀) (targetsImpossible m j) (fun b s => Links K X P s ∧ (Gok m s₀ → Gok m s) ∧ (b = true → Stuck s₀ j)) E := by
  unfold targetsImpossible
  refine HoareE.ite (fun hne => ?_) fun _ => HoareE.pure fun s hs => by subst hs; exact ⟨h, id, by simp⟩
  refine HoareE.setJob fun s hs => ?_
  subst hs
  refine HoareE.getS fun s' hs => ?_
  subst hs
  refine HoareE.pure fun s' hs => ?_
  subst hs
  refine ⟨h.setJob hj rfl rfl (fun hh => absurd hh hne), fun hg => hg.setJob hj rfl rfl, fun hb => Or.inr ⟨hne, fun t ht => ?_⟩⟩
  by_cases hbl : t ∈ j.blacklist
  · exact Or.inl hbl
  · right
    intro htt
    simp only [decide_eq_true_eq] at hb
    have hm : t ∈ j.targets.filter (fun e => decide (e ∉ j.blacklist)) := List.mem_filter.mpr ⟨ht, by simpa using hbl⟩
    rcases hb with hb | hb
    · rw [hb] at hm; cases hm
    · have : t ∈ (j.targets.filter (fun e => decide (e ∉ j.blacklist))).filter (fun e => decide (e ∈ s.targets)) :=
        List.mem_filter.mpr ⟨hm, by simpa using htt⟩
      rw [hb] at this; cases this

theorem submitTask_link {s₀ : State} {j : Job} {m : MsgId} {is : List Nat} (hP : ∀ tr l, l ≠ [] → cfg.pick tr l < l.length)
    (h : InHand cfg False g m s₀) (ht : TgtOk s₀ m) (hF : ¬ g.F) (hj : s₀.jobs m = some j) (hL : Links K [] [] s₀)
    (hrun : is ≠ [] ∨ is = [] → ∀ i, (i ∈ is ∨ is = []) → (∀ d ∈ j.dependents, d ∈ s₀.allDone) ∨ Hardy j)
    (hi : ∀ i ∈ is, ∃ t, s₀.targets[i]? = some t ∧ (j.targets = [] ∨ t ∈ j.targets)) (hne : is = [] → j.targets = [] ∧ s₀.targets ≠ []) :
    HoareE (fun s => s = s₀) (submitTask cfg m is) (fun _ s => MayPost cfg False g m s₀ true s ∧ Links K [] [] s) FuelE := by
  have hload : s₀.loads = s₀.targets.map (fun e => ((assigned e s₀.trace).length : Int)) := h.inv.load
  unfold submitTask
  refine HoareE.getS fun s hs => ?_
  subst hs
  dsimp only
  split
  · rename_i hidx
    exfalso
    split at hidx
    · rename_i hne'
      have := hP s.trace (is.map fun i => s.loads.getD i 0) (by simpa using hne')
      rw [List.getElem?_eq_none_iff] at hidx
      rw [List.length_map] at this
      omega
    · cases hidx
  rename_i idx hidx
  have hidx' : (is ≠ [] ∧ idx ∈ is) ∨ (is = [] ∧ idx = cfg.pick s.trace s.loads) := by
    split at hidx
    · rename_i h1; exact Or.inl ⟨h1, List.mem_of_getElem? hidx⟩
    · rename_i h1
      have h1 : is = [] := Classical.byContradiction h1
      cases hidx; exact Or.inr ⟨h1, rfl⟩
  split
  · rename_i hn
    exfalso
    rcases hidx' with ⟨_, hmem⟩ | ⟨h1, h2⟩
    · obtain ⟨t, htt, _⟩ := hi idx hmem
      rw [hn] at htt; cases htt
    · have := hP s.trace s.loads (by rw [hload]; simpa using (hne h1).2)
      rw [List.getElem?_eq_none_iff] at hn
      have hl : s.loads.length = s.targets.length := by rw [hload, List.length_map]
      omega
  rename_i t htt
  have htg : j.targets = [] ∨ t ∈ j.targets := by
    rcases hidx' with ⟨_, hmem⟩ | ⟨h1, h2⟩
    · obtain ⟨t', ht', h3⟩ := hi idx hmem
      rw [htt] at ht'; cases ht'; exact h3
    · exact Or.inl (hne h1).1
  have hsend := h.send ht htt hF hj htg
  have hlsend := hL.send (m := m) (idx := idx) (t := t) (fun j' hj' => by
    rw [hj] at hj'; cases hj'
    rcases hidx' with ⟨h1, h2⟩ | ⟨h1, _⟩
    · exact hrun (Or.inl h1) idx (Or.inl h2)
    · exact hrun (Or.inr h1) 0 (Or.inr h1))
  obtain ⟨hp, _, _⟩ := h.inv.reg t (List.mem_of_getElem? htt)
  have hpa : ∀ (s : State), (addJob idx s).pending = s.pending := by
    intro s; unfold addJob; split <;> rfl
  refine HoareE.emit fun s₂ h₂ => ?_
  subst h₂
  refine HoareE.modS fun s₃ h₃ => ?_
  subst h₃
  refine HoareE.lookupE (fun hn _ _ => absurd hn hp) fun p hp' => HoareE.modS_last fun s' hs => ?_
  subst hs
  have heq : ({ addJob idx { s₂ with trace := s₂.trace ++ [Obs.send t m] } with
      pending := upd (addJob idx { s₂ with trace := s₂.trace ++ [Obs.send t m] }).pending t (some (insertSet m p)) } : State) = sentState s₂ m idx t := by
    unfold sentState
    simp only [hpa, hp']
  rw [heq]
  exact ⟨⟨hsend, by simp, j, by simpa using hj⟩, hlsend⟩

structure LinkAt (cfg : Config) (n : Nat) : Prop where
  fail : ∀ K g m why, g.X = [] → HoareE (fun s => FailPre cfg False g m s ∧ Links K [m] [] s ∧ Gok m s) (failUnreachable cfg n m why)
    (fun _ s => Inv cfg False { g with R := m :: g.R } s ∧ Links K [] [] s) FuelE
  may : ∀ K g m s₀ j, g.X = [] → InHand cfg False g m s₀ → TgtOk s₀ m → Links K [] [] s₀ → s₀.jobs m = some j →
    ((∀ d ∈ j.after.ids, d ∈ s₀.allDone) ∨ Hardy j) → (Stuck s₀ j → Gok m s₀) →
    HoareE (fun s => s = s₀) (maybeRun cfg n m) (fun b s => MayPost cfg False g m s₀ b s ∧ Links K [] [] s) FuelE
  mayF : ∀ K g m, g.X = [] → g.F → m ∈ K → HoareE (fun s => Inv cfg False g s ∧ Links K [] [] s) (maybeRun cfg n m)
    (fun b s => b = false ∧ Inv cfg False g s ∧ Links K [] [] s) FuelE
  job : ∀ K g m, g.X = [] → HoareE (fun s => Inv cfg False { g with H := g.H ++ [m] } s ∧ Links K [] [] s) (processJob cfg n m)
    (fun o s => (if o = .keep then Inv cfg False { g with H := g.H ++ [m] } s else Inv cfg False g s) ∧ Links K [] [] s) FuelE
  jobF : ∀ K g m, g.X = [] → g.F → m ∈ K → HoareE (fun s => Inv cfg False g s ∧ Links K [] [] s) (processJob cfg n m)
    (fun _ s => Inv cfg False g s ∧ Links K [] [] s) FuelE
  lq : ∀ K g l, g.X = [] → HoareE (fun s => Inv cfg False { g with H := g.H ++ l } s ∧ Links K [] [] s) (loopQueue cfg n l)
    (fun _ s => Inv cfg False g s ∧ Links K [] [] s) FuelE
  lj : ∀ K g ms, g.X = [] → (ms ≠ [] → g.F) → (∀ m ∈ ms, m ∈ K) → HoareE (fun s => Inv cfg False g s ∧ Links K [] [] s) (loopJobs cfg n ms)
    (fun _ s => Inv cfg False g s ∧ Links K [] [] s) FuelE
  upd : ∀ K g d, g.X = [] → HoareE (fun s => Inv cfg False g s ∧ Links K [] d.toList s ∧ ∀ x ∈ d, x ∈ s.allDone) (updateGraph cfg n d)
    (fun _ s => Inv cfg False g s ∧ Links K [] [] s) FuelE

/-- failing a task, whether or not it is waiting -/
theorem LinkAt.fail' {n : Nat} (h : LinkAt cfg n) (m : MsgId) (why : Why) (hX : g.X = []) :
    HoareE (fun s => Inv cfg False g s ∧ Links K [] [] s) (failUnreachable cfg n m why) (fun _ s => Inv cfg False g s ∧ Links K [] [] s) FuelE := by
  intro s hs
  by_cases hm : m ∈ s.queueMap
  · exact ((h.fail K g m why hX).conseq (fun _ h => h) (fun _ _ h => ⟨h.1.forget, h.2⟩) (fun _ _ h => h)) s
      ⟨hs.1.failPre hX hm, hs.2.mono (fun _ h => h) (by simp), hs.2.gok hm⟩
  · cases n with
    | zero => unfold failUnreachable; exact rfl
    | succ n =>
      refine (?_ : HoareE (fun s' => s' = s) _ _ _) s rfl
      unfold failUnreachable
      refine HoareE.getS fun s' hs' => ?_
      subst hs'
      exact HoareE.ite (fun _ => HoareE.pure fun s h => h ▸ hs) fun h => absurd hm h

theorem linkAt (hC : cfg.hwm = 1) (hP : ∀ tr l, l ≠ [] → cfg.pick tr l < l.length) (n : Nat) : LinkAt cfg n := by
  induction n with
  | zero =>
    refine ⟨?_, ?_, ?_, ?_, ?_, ?_, ?_, ?_⟩ <;> intros
    · unfold failUnreachable; exact HoareE.throwE fun _ _ => rfl
    · unfold maybeRun; exact HoareE.throwE fun _ _ => rfl
    · unfold maybeRun; exact HoareE.throwE fun _ _ => rfl
    · unfold processJob; exact HoareE.throwE fun _ _ => rfl
    · unfold processJob; exact HoareE.throwE fun _ _ => rfl
    · unfold loopQueue; exact HoareE.throwE fun _ _ => rfl
    · unfold loopJobs; exact HoareE.throwE fun _ _ => rfl
    · unfold updateGraph; exact HoareE.throwE fun _ _ => rfl
  | succ n ih =>
    refine ⟨?_, ?_, ?_, ?_, ?_, ?_, ?_, ?_⟩
    · -- fail
      intro K g m why hX
      unfold failUnreachable
      refine HoareE.getS fun s hs => ?_
      obtain ⟨⟨hm, hr, j, hj, hI⟩, hL, hG⟩ := hs
      refine HoareE.ite (fun h => absurd hm h) fun _ => ?_
      refine HoareE.modS fun s' hs' => ?_
      subst hs'
      refine HoareE.getJob (fun s hs h => by subst hs; rw [show ({ s' with queueMap := s'.queueMap.filter (· ≠ m) } : State).jobs m = s'.jobs m from rfl, hj] at h; cases h) fun s₁ j' hs₁ hj' => ?_
      subst hs₁
      rw [show ({ s' with queueMap := s'.queueMap.filter (· ≠ m) } : State).jobs m = s'.jobs m from rfl, hj] at hj'
      cases hj'
      refine HoareE.setJob fun s₂ hs₂ => ?_
      subst hs₂
      have hL2 := (hL.dropMap (m := m) (by simp)).setJob (m := m) (j := j) (j' := { j with removed := true }) hj rfl rfl id
      refine HoareE.bind (((((removeFromGraph_loc (g := { g with X := [m] }) (cfg := cfg) (D := False) m j.dependents _ _ _).at ⟨hI, rfl, rfl, rfl⟩).and
        (removeFromGraph_link (K := K) (P := []) j.dependents (hL.shape m j hj).nd _ hL2 (fun d hd => hG j hj d hd) (fun d l hd hml => ?_)))).conseq (fun _ h => ⟨h, h⟩) (fun _ _ h => h) (fun _ _ h => h.2.elim)) fun _ => ?_
      · obtain ⟨_, hh⟩ := hL.lis d l hd
        obtain ⟨_, jx, hjx, hd'⟩ := hh m hml
        rw [hj] at hjx; cases hjx; exact hd'
      · unfold failReply
        refine HoareE.bind (R := fun _ s => Inv cfg False { g with R := m :: g.R } s ∧ Links K [] [m] s ∧ m ∈ s.allDone) ?_ fun _ => ?_
        · refine HoareE.modS fun s h => ?_
          refine HoareE.modS_last fun s'' hs'' => ?_
          subst hs''
          obtain ⟨⟨hI', hJ, hQ, hT⟩, _, hL', hno⟩ := h
          have h1 := hI'.failReply why rfl ⟨{ j with removed := true }, by rw [hJ]; exact upd_self _ _ _, rfl⟩ (by rw [hQ]; simp) (by rw [hT]; exact hr)
          have hg : ({ g with R := m :: g.R, X := [] } : Ghost) = { g with R := m :: g.R } := by rw [← hX]
          refine ⟨by rw [← hg]; exact h1, hL'.failReply why (by rw [hQ]; simp) hno, by simp⟩
        · exact (ih.upd K { g with R := m :: g.R } (some m) hX).pre fun s h => ⟨h.1, h.2.1, by simpa using h.2.2⟩
    · -- may
      intro K g m s₀ j hX h ht hL hj hafter hsafe
      obtain ⟨j', hj', hjr⟩ := h.job
      rw [hj] at hj'; cases hj'
      unfold maybeRun
      refine HoareE.getS fun s hs => ?_
      subst hs
      refine HoareE.getJob (fun s' h hn => by subst h; rw [hj] at hn; cases hn) fun s₁ j' hs₁ hj' => ?_
      subst hs₁
      rw [hj] at hj'
      cases hj'
      refine HoareE.ite (fun _ => HoareE.pure fun s' hs => ?_) fun hav => ?_
      · subst hs; exact ⟨Or.inl ⟨h, ht, Iff.rfl⟩, hL⟩
      have hF : ¬ g.F := fun hF => hav (h.inv.fe hF)
      have hreg : ∀ e ∈ s₁.targets, s₁.completed e ≠ none ∧ s₁.failed e ≠ none := fun e he => (h.inv.reg e he).2
      have hfail : ∀ s₂, InHand cfg False g m s₂ → Links K [] [] s₂ → Gok m s₂ → HoareE (fun s => s = s₂)
          (addQueueMap m >>= fun _ => failUnreachable cfg n m .impossible >>= fun _ => (pure false : M Bool))
          (fun b s => MayPost cfg False g m s₁ b s ∧ Links K [] [] s) FuelE := by
        intro s₂ h₂ hL₂ hG₂
        refine HoareE.addQueueMap fun s₃ h₃ => ?_
        subst h₃
        refine HoareE.bind ((ih.fail K { g with H := g.H ++ [m] } m .impossible hX).at ⟨h₂.addMap.failPre (by simp), hL₂.addMap, hG₂⟩) fun _ => ?_
        exact HoareE.pure fun _ h => ⟨Or.inr h.1, h.2⟩
      have hgj := hL.shape m j hj
      refine HoareE.ite (fun _ => ?_) fun hno => ?_
      · refine HoareE.bind ((((HoareE.ofHoare (filterCanRun_spec (cfg := cfg) j s₁ (availableEngines cfg s₁))).and
          (filterCanRun_total (cfg := cfg) j _ s₁ (fun i hi => available_lt hi) hreg))).conseq (fun _ h => ⟨h, h⟩) (fun _ _ h => h.1) (fun _ _ h => h.2.elim)) fun is => ?_
        rintro s ⟨rfl, hidx⟩
        refine (?_ : HoareE (fun s' => s' = s) _ _ _) s rfl
        refine HoareE.ite (fun _ => ?_) fun hne => ?_
        · refine HoareE.bind ((followImpossible_link j s hL hgj).conseq (fun _ h => h) (fun _ _ h => h) (fun _ _ h => h.elim)) fun b => ?_
          rintro s' ⟨rfl, hb⟩
          refine (?_ : HoareE (fun s => s = s') _ _ _) s' rfl
          refine HoareE.ite (fun hbt => hfail s' h hL (hsafe (hb hbt))) fun _ => ?_
          refine HoareE.bind (((targetsImpossible_loc (E := fun _ _ => False) h ht hj).and (targetsImpossible_link (E := fun _ _ => False) hL hj)).conseq (fun _ h => ⟨h, h⟩) (fun _ _ h => h) (fun _ _ h => h.1.elim)) fun b => ?_
          rintro s₂ ⟨⟨h₂, hq₂, ht₂⟩, hL₂, hG₂, hS₂⟩
          refine (?_ : HoareE (fun s' => s' = s₂) _ _ _) s₂ rfl
          refine HoareE.ite (fun hbt => hfail s₂ h₂ hL₂ (hG₂ (hsafe (hS₂ hbt)))) fun hb => HoareE.pure fun s' hs => ?_
          subst hs
          exact ⟨Or.inl ⟨h₂, ht₂ (by simpa using hb), by rw [hq₂]⟩, hL₂⟩
        · refine HoareE.bind (submitTask_link hP h ht hF hj hL (fun _ i hi => ?_) (fun i hi => ?_) (fun hh => absurd hh hne)) fun _ => HoareE.pure fun _ h => h
          · have hi := hi.resolve_right hne
            obtain ⟨_, t, _, _, _, c, f, hc, hf, hchk⟩ := hidx.1 i hi
            rcases hgj.one with ⟨_, ho⟩ | ho
            · rcases hafter with ha | ha
              · left
                intro d hd
                rcases mem_dependents hd with hd | hd
                · exact ha d hd
                · exact check_done hchk ho (hL.ce t c hc) (hL.fe t f hf) d hd
              · exact Or.inr ha
            · exact Or.inr ho
          · obtain ⟨_, t, a, _, b, _⟩ := hidx.1 i hi
            exact ⟨t, a, b⟩
      · simp only [not_or, Classical.not_not] at hno
        exact absurd hno.2.2.2 (by rw [hC]; simp)
    · -- mayF
      intro K g m hX hF hm
      unfold maybeRun
      refine HoareE.getS fun s hs => ?_
      refine HoareE.getJob (fun s' h hn => absurd hn (by subst h; exact hs.2.kk m hm)) fun s₁ j' hs₁ hj' => ?_
      subst hs₁
      refine HoareE.ite (fun _ => HoareE.pure fun s' h => ⟨rfl, h ▸ hs⟩) fun hav => absurd (hs.1.fe hF) hav
    · -- job
      intro K g m hX
      unfold processJob
      refine HoareE.getS fun s hs => ?_
      obtain ⟨hs, hL⟩ := hs
      obtain ⟨hna, j, hj, hq⟩ := hs.qin m (by simp)
      refine HoareE.getJob (fun s' h hn => by subst h; rw [hj] at hn; cases hn) fun s₁ j' hs₁ hj' => ?_
      subst hs₁
      rw [hj] at hj'
      cases hj'
      refine HoareE.ite (fun hr => HoareE.pure fun s' h => ?_) fun hr => ?_
      · subst h
        refine ⟨?_, hL⟩
        show Inv cfg False g s'
        refine hs.release fun hh => ?_
        obtain ⟨_, j', hj', hr'⟩ := hs.qm m hh
        rw [hj] at hj'; cases hj'; rw [hr] at hr'; cases hr'
      have hr : j.removed = false := by simpa using hr
      obtain ⟨h, ht, hm⟩ := hs.take hX hj hr
      refine HoareE.ite (fun _ => ?_) fun _ => ?_
      · refine HoareE.bind ((ih.fail K { g with H := g.H ++ [m] } m .impossible hX).at ⟨hs.failPre hX hm, hL.mono (fun _ h => h) (by simp), hL.gok hm⟩) fun _ => ?_
        refine HoareE.pure fun s' h' => ⟨?_, h'.2⟩
        show Inv cfg False g s'
        exact h'.1.forget.release (h'.1.answered (by simp))
      · refine HoareE.ite (fun hchk => ?_) fun _ => HoareE.pure fun s h => by subst h; exact ⟨hs, hL⟩
        have hafter : (∀ d ∈ j.after.ids, d ∈ s₁.allDone) ∨ Hardy j := by
          rcases (hL.shape m j hj).one with ⟨ho, _⟩ | ho
          · exact Or.inl (check_done hchk ho (fun x hx => (hL.cd x hx).1) hL.fd)
          · exact Or.inr ho
        refine HoareE.bind (ih.may K g m s₁ j hX h ht hL hj hafter fun _ => hL.gok hm) fun b => ?_
        cases b with
        | false =>
          refine HoareE.ite (fun hh => by cases hh) fun _ => ?_
          refine HoareE.pure fun s' h' => ⟨?_, h'.2⟩
          show Inv cfg False { g with H := g.H ++ [m] } s'
          rcases h'.1 with ⟨h1, h2, h3⟩ | h1
          · exact h1.putBack (h3.mpr hm) h2
          · exact Inv.forget (g := { g with H := g.H ++ [m] }) (m := m) h1
        | true =>
          refine HoareE.ite (fun _ => ?_) fun hh => absurd rfl hh
          refine HoareE.getS fun s₂ hs₂ => ?_
          obtain ⟨⟨hs₂, hq₂, j₂, hj₂⟩, hL₂⟩ := hs₂
          refine HoareE.ite (fun hh => absurd (hq₂.mpr hm) hh) fun _ => ?_
          refine HoareE.modS fun s₃ hs₃ => ?_
          subst hs₃
          refine HoareE.getJob (fun s' h hn => by
            subst h
            rw [show ({ s₃ with queueMap := s₃.queueMap.filter (· ≠ m) } : State).jobs m = s₃.jobs m from rfl, hj₂] at hn; cases hn) fun s₄ j' hs₄ hj' => ?_
          subst hs₄
          have hj₃ : s₃.jobs m = some j' := hj'
          have hL₃ := (hL₂.mono (K' := K) (X' := [m]) (fun _ h => h) (by simp)).dropMap (m := m) (by simp)
          have hG₃ := hL₂.gok (hq₂.mpr hm)
          refine HoareE.bind (((((removeFromGraph_loc (g := g) (cfg := cfg) (D := False) m j'.dependents _ _ _).at ⟨hs₂, rfl, rfl, rfl⟩).and
            (removeFromGraph_link (K := K) (P := []) j'.dependents (hL₂.shape m j' hj₃).nd _ hL₃ (fun d hd => hG₃ j' hj₃ d hd) (fun d l hd hml => ?_)))).conseq (fun _ h => ⟨h, h⟩) (fun _ _ h => h) (fun _ _ h => h.2.elim)) fun _ => ?_
          · obtain ⟨_, hh⟩ := hL₂.lis d l hd
            obtain ⟨_, jx, hjx, hd'⟩ := hh m hml
            rw [hj₃] at hjx; cases hjx; exact hd'
          · refine HoareE.getS fun s₅ hs₅ => ?_
            obtain ⟨⟨hI₅, hJ, hQ, hT⟩, ⟨gr, heq⟩, hL₅, hno⟩ := hs₅
            have hL₆ : Links K [] [] s₅ := by
              refine hL₅.release (by rw [hQ]; simp [drop]) hno fun hr jx hjx d hd => ?_
              rw [hJ] at hjx
              have hjx : s₃.jobs m = some jx := hjx
              rw [hT] at hr
              rw [heq]
              exact hL₂.kno m jx hjx hr (by simp) d hd
            exact HoareE.ite (fun _ => HoareE.pure fun s h => h ▸ ⟨hI₅, hL₆⟩) fun _ => HoareE.pure fun s h => h ▸ ⟨hI₅, hL₆⟩
    · -- jobF
      intro K g m hX hF hm
      unfold processJob
      refine HoareE.getS fun s hs => ?_
      refine HoareE.getJob (fun s' h hn => absurd hn (by subst h; exact hs.2.kk m hm)) fun s₁ j hs₁ hj => ?_
      subst hs₁
      refine HoareE.ite (fun _ => HoareE.pure fun s h => h ▸ hs) fun hr => ?_
      refine HoareE.ite (fun _ => ?_) fun _ => ?_
      · exact HoareE.bind ((ih.fail' m .impossible hX).at hs) fun _ => HoareE.pure fun _ h => h
      · refine HoareE.ite (fun _ => ?_) fun _ => HoareE.pure fun s h => h ▸ hs
        refine HoareE.bind ((ih.mayF K g m hX hF hm).at hs) fun b => ?_
        cases b with
        | true => rintro s₂ ⟨hh, _⟩; cases hh
        | false => exact HoareE.ite (fun hh => by cases hh) fun _ => HoareE.pure fun s h => h.2
    · -- lq
      intro K g l hX
      unfold loopQueue
      refine HoareE.getS fun s hs => ?_
      have done : ∀ s', Inv cfg False { g with H := g.H ++ l } s' → Inv cfg False g { s' with queue := l.reverse ++ s'.queue } := fun s' h => by
        refine h.requeue (g' := g) rfl ?_
        show (g.H ++ (l.reverse ++ s'.queue)).Perm (g.H ++ l ++ s'.queue)
        rw [List.append_assoc]
        exact List.Perm.append_left _ (List.Perm.append_right _ (List.reverse_perm l))
      cases hq : s.queue with
      | nil =>
        refine HoareE.modS_last fun s' h => ?_
        subst h
        exact ⟨done _ hs.1, { hs.2 with }⟩
      | cons m qs =>
        refine HoareE.modS fun s' hs' => ?_
        subst hs'
        have h1 : Inv cfg False { g with H := g.H ++ l ++ [m] } { s' with queue := qs } := by
          refine hs.1.requeue (g' := { g with H := g.H ++ l ++ [m] }) rfl ?_
          show (g.H ++ l ++ [m] ++ qs).Perm (g.H ++ l ++ s'.queue)
          rw [hq]; simp
        refine HoareE.bind ((ih.job K { g with H := g.H ++ l } m hX).at ⟨h1, { hs.2 with }⟩) fun o => ?_
        cases o with
        | gone => exact ih.lq K g l hX
        | keep =>
          refine (ih.lq K g (l ++ [m]) hX).pre fun s h => ⟨?_, h.2⟩
          rw [← List.append_assoc]; exact h.1
        | stop => exact HoareE.modS_last fun s'' h => ⟨done s'' h.1, { h.2 with }⟩
    · -- lj
      intro K g ms hX hF hK
      unfold loopJobs
      cases ms with
      | nil => exact HoareE.pure fun _ h => h
      | cons m ms =>
        have hF := hF (by simp)
        have hK' : ∀ x ∈ ms, x ∈ K := fun x hx => hK x (by simp [hx])
        refine HoareE.bind (ih.jobF K g m hX hF (hK m (by simp))) fun o => ?_
        cases o with
        | gone => exact ih.lj K g ms hX (fun _ => hF) hK'
        | keep => exact ih.lj K g ms hX (fun _ => hF) hK'
        | stop => exact HoareE.pure fun _ h => h
    · -- upd
      intro K g d hX
      unfold updateGraph
      refine HoareE.getS fun s hs => ?_
      obtain ⟨hs, hL, hdd⟩ := hs
      have rest : ∀ s' ms, Inv cfg False g s' → Links K [] [] s' → s'.loads = s.loads → s'.targets = s.targets → s'.jobs = s.jobs → (∀ m ∈ ms, m ∈ s.queueMap) →
          HoareE (fun s => s = s') (if d = none ∨ cfg.hwm ≠ 0 ∧ (s.loads.any fun l => decide (l = (cfg.hwm : Int) - 1)) = true then loopQueue cfg n []
            else do
              if (ms.any fun m => decide (m ∉ s.queueMap)) = true then throwE .keyError
              loopJobs cfg n (sortByTime (fun m => ((s.jobs m).map Job.timestamp).getD 0) ms)) (fun _ s => Inv cfg False g s ∧ Links K [] [] s) FuelE := by
        intro s' ms h hL' hl htg hjb hms
        refine HoareE.ite (fun _ => ?_) fun hno => ?_
        · refine (ih.lq K g [] hX).at ⟨?_, hL'⟩
          rw [List.append_nil]; exact h
        · refine HoareE.ite (fun hany => ?_) fun _ => ?_
          · simp only [List.any_eq_true, decide_eq_true_eq] at hany
            obtain ⟨x, hx, hn⟩ := hany
            exact absurd (hms x hx) hn
          · have hav : availableEngines cfg s' = [] := by
              simp only [not_or, not_and, hC] at hno
              have hno := hno.2 (by simp)
              unfold availableEngines
              rw [hC, if_neg (by simp), List.filter_eq_nil_iff]
              intro i hi
              simp only [List.mem_range] at hi
              have hload := hs.load
              simp only [List.any_eq_true, not_exists, not_and] at hno
              have hlt : i < s.loads.length := by rw [hload, List.length_map, ← htg]; exact hi
              have hmem : s.loads[i] ∈ s.loads := List.getElem_mem hlt
              have hpos : 0 ≤ s.loads[i] := by
                have hm2 : s.loads[i] ∈ s.targets.map (fun e => ((assigned e s.trace).length : Int)) := by rw [← hload]; exact hmem
                obtain ⟨e, _, he⟩ := List.mem_map.mp hm2
                rw [← he]; omega
              have hne0 := hno _ hmem
              have : s'.loads.getD i 0 = s.loads[i] := by rw [hl, List.getD_eq_getElem?_getD, List.getElem?_eq_getElem hlt]; rfl
              rw [this]
              simp at hne0 ⊢
              omega
            have hsort : ∀ x ∈ sortByTime (fun m => ((s.jobs m).map Job.timestamp).getD 0) ms, x ∈ ms := fun x hx => (sortByTime_perm _ _).mem_iff.mp hx
            refine ((ih.lj (K ++ ms) { g with F := True } _ hX (fun _ => trivial) fun x hx => List.mem_append_right _ (hsort x hx)).conseq (fun _ h => h) (fun _ s h => ?_) (fun _ _ h => h)).at ?_
            · exact ⟨h.1.reghost rfl (fun _ h => h) (fun hF => h.1.fe trivial) (fun _ h => h) rfl rfl id, h.2.mono (fun x hx => List.mem_append_left _ hx) (fun _ h => h)⟩
            · refine ⟨h.reghost rfl (fun _ h => h) (fun _ => hav) (fun _ h => h) rfl rfl id, { hL' with kk := fun x hx => ?_ }⟩
              rcases List.mem_append.mp hx with hx | hx
              · exact hL'.kk x hx
              · obtain ⟨_, jx, hjx, _⟩ := hs.qm x (hms x hx)
                rw [hjb, hjx]; simp
      cases d with
      | none => exact rest s [] hs hL rfl rfl rfl (by simp)
      | some d =>
        refine HoareE.modS fun s' h => ?_
        subst h
        refine rest _ _ (hs.setGraph _ fun x hx => ?_) (Links.pop hL (hdd d rfl)) rfl rfl rfl fun x hx => ?_
        · simp only [Sched.upd]; split
          · rfl
          · exact hx
        · dsimp only at hx
          cases hgd : s'.graph d with
          | none => rw [hgd] at hx; cases hx
          | some l =>
            rw [hgd] at hx
            rcases ((hL.lis d l hgd).2 x hx).1 with a | a
            · exact a
            · cases a

end IPP.Sched
