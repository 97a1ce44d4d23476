import Verif.Sched.Loc

/-!
# Where every task is: sending, taking back, answering (lemmas)
-/
namespace IPP.Sched

variable {cfg : Config} {D : Prop} {g : Ghost} {s : State}

theorem mem_eraseIdx_snoc {l : List Nat} {i e : Nat} (hi : l[i]? = some e) (x : Nat) : x ∈ l.eraseIdx i ++ [e] ↔ x ∈ l := by
  constructor
  · intro h
    rcases List.mem_append.mp h with h | h
    · exact List.mem_of_mem_eraseIdx h
    · simp at h; rw [h]; exact List.mem_of_getElem? hi
  · intro h
    by_cases hx : x = e
    · simp [hx]
    · refine List.mem_append_left _ ?_
      have hc := count_eraseIdx hi x
      have : 0 < l.count x := List.count_pos_iff.mpr h
      simp [hx, Ne.symm hx] at hc
      exact List.count_pos_iff.mp (by omega)

/-- The task in hand is sent to an engine. -/
theorem InHand.send {m : MsgId} {idx : Nat} {t : Engine} {j : Job} (h : InHand cfg D g m s) (htk : TgtOk s m) (ht : s.targets[idx]? = some t) (hF : ¬ g.F)
    (hj : s.jobs m = some j) (htg : j.targets = [] ∨ t ∈ j.targets) : Inv cfg D g (drop m (sentState s m idx t)) := by
  have hI := h.inv
  have hload : s.loads = s.targets.map (fun e => ((assigned e s.trace).length : Int)) := hI.load
  have htmem : t ∈ s.targets := List.mem_of_getElem? ht
  obtain ⟨hp, hc, hfl⟩ := hI.reg t htmem
  have hp : s.pending t ≠ none := hp
  obtain ⟨p, hp⟩ := Option.ne_none_iff_exists'.mp hp
  have hpe : p = assigned t s.trace := hI.ps t p hp
  have hl' : s.loads[idx]? = some ((assigned t s.trace).length : Int) := by rw [hload, List.getElem?_map, ht]; rfl
  obtain ⟨h1, h2⟩ := sentState_targets s t m idx _ ht hl'
  have hjm : ∃ j, s.jobs m = some j ∧ j.removed = false := h.job
  have hass : ∀ e, assigned e (s.trace ++ [.send t m]) = if t = e then assigned e s.trace ++ [m] else assigned e s.trace := fun e => by rw [assigned_snoc]
  have hasse : ∀ e, t ≠ e → assigned e (s.trace ++ [.send t m]) = assigned e s.trace := fun e he => by rw [hass, if_neg he]
  have hasst : assigned t (s.trace ++ [.send t m]) = assigned t s.trace ++ [m] := by rw [hass, if_pos rfl]
  have hmem : ∀ x e, x ∈ assigned e (s.trace ++ [.send t m]) ↔ (x ∈ assigned e s.trace ∨ (x = m ∧ e = t)) := fun x e => by
    rw [hass]
    split
    · rename_i he; subst he; simp
    · rename_i he; simp [Ne.symm he]
  have hrep : ∀ x, replies x (s.trace ++ [.send t m]) = replies x s.trace := fun x => by rw [replies_snoc]; simp
  have hsub : ∀ x sub, Obs.submitted x sub ∈ s.trace ++ [.send t m] ↔ Obs.submitted x sub ∈ s.trace := by intro x sub; simp
  have hins : insertSet m p = p ++ [m] := by
    unfold insertSet
    rw [if_neg]
    rw [hpe]; exact h.una t
  have hpend : (sentState s m idx t).pending = upd s.pending t (some (p ++ [m])) := by rw [sentState_pending, hp, ← hins]
  have htgts : ∀ x, x ∈ (sentState s m idx t).targets ↔ x ∈ s.targets := fun x => by rw [h1]; exact mem_eraseIdx_snoc ht x
  have hq : (drop m (sentState s m idx t)).queueMap = (drop m s).queueMap := by simp [drop]
  have htr : (drop m (sentState s m idx t)).trace = s.trace ++ [.send t m] := by simp [drop]
  have hjobs : (drop m (sentState s m idx t)).jobs = s.jobs := by simp [drop]
  have hpend' : (drop m (sentState s m idx t)).pending = upd s.pending t (some (p ++ [m])) := by simpa [drop] using hpend
  have hqueue : (drop m (sentState s m idx t)).queue = s.queue := by simp [drop]
  have htgts' : (drop m (sentState s m idx t)).targets = s.targets.eraseIdx idx ++ [t] := by simpa [drop] using h1
  have hloads' : (drop m (sentState s m idx t)).loads = s.loads.eraseIdx idx ++ [((assigned t s.trace).length : Int) + 1] := by simpa [drop] using h2
  have hcomp : (drop m (sentState s m idx t)).completed = s.completed := by simp [drop]
  have hfail : (drop m (sentState s m idx t)).failed = s.failed := by simp [drop]
  have hst : (drop m (sentState s m idx t)).strandTimers = s.strandTimers := by simp [drop]
  have hret : (drop m (sentState s m idx t)).retries = s.retries := by simp [drop]
  have half : (drop m (sentState s m idx t)).allFailed = s.allFailed := by simp [drop]
  have hgr : (drop m (sentState s m idx t)).graph = s.graph := by
    simp only [drop, sentState]; split <;> (unfold addJob; split <;> rfl)
  have hne : ∀ x ∈ s.targets.eraseIdx idx, x ≠ t := fun x hx he => not_mem_eraseIdx hI.tnd ht (he ▸ hx)
  have hnm : m ∉ (drop m s).queueMap := by simp [drop]
  refine { pn := ?_, ps := ?_, nod := ?_, excl := ?_, asg := ?_, tnd := ?_, reg := ?_, load := ?_, dead := ?_, tim := ?_, stt := ?_, stn := ?_, sin := ?_, fre := ?_, qm := ?_, rep := ?_, unk := ?_, alf := ?_, ret := ?_, dep := ?_, sub := ?_, sent := ?_, fe := ?_, rr := ?_, que := ?_, qin := ?_, lost := ?_, wait := ?_, rem := ?_ }
  all_goals try simp only [hq, htr, hjobs, hpend', hqueue, htgts', hloads', hcomp, hfail, hst, hret, half, hgr, hrep]
  · intro e he
    by_cases het : e = t
    · subst het; simp [upd] at he
    · rw [upd_ne _ _ het] at he; rw [hasse e (Ne.symm het)]; exact hI.pn e he
  · intro e p' he
    by_cases het : e = t
    · subst het; rw [upd_self] at he; cases he; rw [hasst, hpe]
    · rw [upd_ne _ _ het] at he; rw [hasse e (Ne.symm het)]; exact hI.ps e p' he
  · intro e
    rw [hass]
    split
    · rename_i he; subst he
      exact List.nodup_append.mpr ⟨hI.nod t, by simp, fun a ha b hb hab => h.una t (by simp at hb; rw [← hb, ← hab]; exact ha)⟩
    · exact hI.nod e
  · intro x e e' hx hx'
    rcases (hmem x e).mp hx with a | ⟨a, b⟩ <;> rcases (hmem x e').mp hx' with a' | ⟨a', b'⟩
    · exact hI.excl x e e' a a'
    · exact absurd (a' ▸ a) (h.una e)
    · exact absurd (a ▸ a') (h.una e')
    · rw [b, b']
  · intro x e hx
    rcases (hmem x e).mp hx with a | ⟨a, b⟩
    · exact hI.asg x e a
    · rw [a]; exact ⟨hnm, h.rep, hjm⟩
  · rw [List.nodup_append]
    refine ⟨hI.tnd.sublist (List.eraseIdx_sublist _ _), by simp, ?_⟩
    intro a ha b hb
    simp only [List.mem_singleton] at hb
    exact hb ▸ hne a ha
  · intro e he
    have he := (mem_eraseIdx_snoc ht e).mp he
    obtain ⟨a, b, c⟩ := hI.reg e he
    refine ⟨?_, b, c⟩
    by_cases het : e = t
    · subst het; simp [upd]
    · rw [upd_ne _ _ het]; exact a
  · rw [List.map_append]
    congr 1
    · rw [hload, eraseIdx_map']
      refine List.map_congr_left fun x hx => ?_
      rw [hasse x (Ne.symm (hne x hx))]
    · simp [hasst]
  · intro e he
    by_cases het : e = t
    · subst het; exact ⟨hc, hfl⟩
    · rw [hasse e (Ne.symm het)] at he; exact hI.dead e he
  · intro e he hne'
    have hne' : e ∉ s.targets := fun hh => hne' ((mem_eraseIdx_snoc ht e).mpr hh)
    have het : e ≠ t := fun hh => hne' (hh ▸ htmem)
    rw [hasse e (Ne.symm het)] at he; exact hI.tim e he hne'
  · intro e he
    obtain ⟨a, b, c, d, f⟩ := hI.stt e he
    refine ⟨fun hh => a ((mem_eraseIdx_snoc ht e).mp hh), b, c, d, ?_⟩
    have het : e ≠ t := fun hh => a (hh ▸ htmem)
    rw [upd_ne _ _ het]; exact f
  · exact hI.stn
  · intro e he
    obtain ⟨a, b, c, d, f⟩ := hI.sin e he
    have het : e ≠ t := fun hh => a (hh ▸ htmem)
    refine ⟨fun hh => a ((mem_eraseIdx_snoc ht e).mp hh), b, c, ?_, ?_⟩
    · rw [upd_ne _ _ het]; exact d
    · rw [hasse e (Ne.symm het)]; exact f
  · intro e he
    have he : Obs.registered e ∉ s.trace := fun hh => he (by simp [hh])
    obtain ⟨a, b, c⟩ := hI.fre e he
    have het : e ≠ t := fun hh => b (hh ▸ htmem)
    refine ⟨by rw [upd_ne _ _ het]; exact a, fun hh => b ((mem_eraseIdx_snoc ht e).mp hh), c⟩
  · exact hI.qm
  · exact hI.rep
  · exact hI.unk
  · exact hI.alf
  · exact hI.ret
  · exact hI.dep
  · intro x jx hx
    obtain ⟨sub, a, b, c, d⟩ := hI.sub x jx hx
    refine ⟨sub, by simp [show Obs.submitted x sub ∈ s.trace from a], fun sub' hs => b sub' ((hsub _ _).mp hs), c, fun hr _ => ?_⟩
    by_cases hxm : x = m
    · subst hxm; exact htk jx hx hr sub a
    · exact d hr (by simpa using hxm)
  · intro p' e x q hq'
    rcases snoc_split hq' with ⟨_, h3, h4⟩ | ⟨q', _, hq''⟩
    · cases h4
      intro sub hs
      subst h3
      rcases htg with hh | hh
      · left
        obtain ⟨j', hj', hr'⟩ := hjm
        rw [hj] at hj'; cases hj'
        exact Classical.byContradiction fun hcon => htk j hj hr' sub hs hcon hh
      · right
        obtain ⟨sub', a, b, c, d⟩ := hI.sub m j hj
        rw [b sub hs]; exact c t hh
    · exact hI.sent p' e x q' hq''
  · exact fun hh => (hF hh).elim
  · exact hI.rr
  · exact hI.que
  · intro x hx
    obtain ⟨a, b⟩ := hI.qin x hx
    refine ⟨fun e he => ?_, b⟩
    rcases (hmem x e).mp he with a' | ⟨a', b'⟩
    · exact a e a'
    · exact h.out (a' ▸ hx)
  · intro hf x jx hx hr
    rcases hI.lost hf x jx hx hr with a | ⟨e, a⟩ | a
    · exact Or.inl a
    · exact Or.inr (Or.inl ⟨e, (hmem x e).mpr (Or.inl a)⟩)
    · simp at a; exact Or.inr (Or.inl ⟨t, (hmem x t).mpr (Or.inr ⟨a, rfl⟩)⟩)
  · exact hI.wait
  · intro hf x jx hx hr
    rcases hI.rem hf x jx hx hr with a | a
    · simp at a; subst a
      obtain ⟨j', hj', hr'⟩ := hjm
      have hx : s.jobs x = some jx := hx
      rw [hx] at hj'; cases hj'; rw [hr] at hr'; cases hr'
    · exact Or.inr a

/-- `o` is the arrival of a reply of `e` for `m`, real or made up. -/
def ReplyObs (o : Obs) (e : Engine) (m : MsgId) : Prop := (∃ ok dm, o = .received e m ok dm) ∨ o = .stranded e m

theorem filter_ne_erase {l : List MsgId} (h : l.Nodup) (m : MsgId) : l.filter (· ≠ m) = l.erase m := by
  rw [h.erase_eq_filter]
  apply List.filter_congr
  intro x _
  by_cases hx : x = m <;> simp [hx]

/-- State after a reply of `e` for `m` has arrived and `m` was taken from `pending[e]`. -/
def recvState (s : State) (o : Obs) (e : Engine) (m : MsgId) (p : List MsgId) (r : MsgId → Option Nat) : State :=
  { recvBase s o e with
    pending := upd s.pending e (some (p.filter (· ≠ m)))
    retries := r }

theorem Inv.recv {m : MsgId} {e : Engine} {o : Obs} {p : List MsgId} {r : MsgId → Option Nat} {A' : List MsgId} (h : Inv cfg D g s) (hX : g.X = []) (hF : ¬ g.F)
    (ho : ReplyObs o e m) (hm : m ∈ assigned e s.trace) (hp : s.pending e = some p) (hr : ∀ x, x ≠ m → r x = s.retries x) (hrm : r m ≠ none)
    (hA : ∀ e' ∈ g.S, ∀ x ∈ assigned e' (s.trace ++ [o]), x ∈ A') :
    InHand cfg D { g with A := A' } m (recvState s o e m p r) ∧ TgtOk (recvState s o e m p r) m ∧ m ∉ (recvState s o e m p r).queueMap := by
  have hpe : p = assigned e s.trace := h.ps e p hp
  have hass : ∀ e', assigned e' (s.trace ++ [o]) = if e = e' then (assigned e' s.trace).erase m else assigned e' s.trace := fun e' => by
    rcases ho with ⟨ok, dm, rfl⟩ | rfl <;> rw [assigned_snoc]
  have hasse : ∀ e', e ≠ e' → assigned e' (s.trace ++ [o]) = assigned e' s.trace := fun e' he => by rw [hass, if_neg he]
  have hasst : assigned e (s.trace ++ [o]) = (assigned e s.trace).erase m := by rw [hass, if_pos rfl]
  have hsubl : ∀ e', (assigned e' (s.trace ++ [o])).Sublist (assigned e' s.trace) := fun e' => by
    rw [hass]; split
    · exact List.erase_sublist
    · exact List.Sublist.refl _
  have hmem : ∀ x e', x ∈ assigned e' (s.trace ++ [o]) → x ∈ assigned e' s.trace ∧ x ≠ m := fun x e' hx => by
    by_cases hee : e = e'
    · subst hee
      rw [hasst, (h.nod e).mem_erase_iff] at hx
      exact ⟨hx.2, hx.1⟩
    · rw [hasse e' hee] at hx
      exact ⟨hx, fun hh => hee (h.excl m e e' hm (hh ▸ hx))⟩
  have hmem' : ∀ x e', x ∈ assigned e' s.trace → x ≠ m → x ∈ assigned e' (s.trace ++ [o]) := fun x e' hx hne => by
    by_cases hee : e = e'
    · subst hee
      rw [hasst, (h.nod e).mem_erase_iff]
      exact ⟨hne, hx⟩
    · rw [hasse e' hee]; exact hx
  have hrep : ∀ x, replies x (s.trace ++ [o]) = replies x s.trace := fun x => by
    rcases ho with ⟨ok, dm, rfl⟩ | rfl <;> rw [replies_snoc] <;> simp
  have hsub : ∀ x sub, Obs.submitted x sub ∈ s.trace ++ [o] ↔ Obs.submitted x sub ∈ s.trace := by
    intro x sub
    rcases ho with ⟨ok, dm, rfl⟩ | rfl <;> simp
  have hregs : ∀ x, Obs.registered x ∈ s.trace ++ [o] ↔ Obs.registered x ∈ s.trace := by
    intro x
    rcases ho with ⟨ok, dm, rfl⟩ | rfl <;> simp
  obtain ⟨hmq, hm0, jm, hjm, hjr⟩ := h.asg m e hm
  have hfil : p.filter (· ≠ m) = assigned e (s.trace ++ [o]) := by
    rw [hasst, hpe, filter_ne_erase (h.nod e)]
  have htk : TgtOk (recvState s o e m p r) m := fun j hj hrj sub hs => by
    obtain ⟨sub', a, b, c, d⟩ := h.sub m j (by simpa [recvState] using hj)
    rw [b sub ((hsub _ _).mp (by simpa [recvState] using hs))]
    exact d hrj (by simp [hX])
  have hnq : m ∉ (recvState s o e m p r).queueMap := by simpa [recvState] using hmq
  refine ⟨⟨?_, ?_, ⟨jm, by simpa [recvState] using hjm, hjr⟩, ?_, ?_⟩, htk, hnq⟩
  · rw [drop_self hnq]
    have htr : (recvState s o e m p r).trace = s.trace ++ [o] := by simp [recvState]
    have e1 : (recvState s o e m p r).queueMap = s.queueMap := by simp [recvState]
    have e2 : (recvState s o e m p r).jobs = s.jobs := by simp [recvState]
    have e3 : (recvState s o e m p r).pending = upd s.pending e (some (assigned e (s.trace ++ [o]))) := by simp only [recvState, hfil]
    have e4 : (recvState s o e m p r).queue = s.queue := by simp [recvState]
    have e5 : (recvState s o e m p r).targets = s.targets := by simp [recvState]
    have e6 : (recvState s o e m p r).loads = s.targets.map (fun e => ((assigned e (s.trace ++ [o])).length : Int)) := by
      simp only [recvState]
      rw [recvBase_loads]
      split
      · rename_i hi
        rw [h.load]
        refine List.map_congr_left fun x hx => ?_
        rw [hasse x]
        rintro rfl
        exact idxOf?_none hi hx
      · rename_i idx hi
        rw [h.load, modify_map h.tnd (idxOf?_some hi)]
        refine List.map_congr_left fun x hx => ?_
        rw [hass]
        split
        · rename_i hee
          subst hee
          rw [List.length_erase_of_mem hm]
          have := List.length_pos_of_mem hm
          omega
        · rfl
    have e7 : (recvState s o e m p r).completed = s.completed := by simp [recvState]
    have e8 : (recvState s o e m p r).failed = s.failed := by simp [recvState]
    have e9 : (recvState s o e m p r).strandTimers = s.strandTimers := by simp [recvState]
    have e10 : (recvState s o e m p r).retries = r := by simp [recvState]
    have e11 : (recvState s o e m p r).allFailed = s.allFailed := by simp [recvState]
    have e12 : (recvState s o e m p r).graph = s.graph := by
      simp only [recvState, recvBase]; split <;> rfl
    refine { pn := ?_, ps := ?_, nod := ?_, excl := ?_, asg := ?_, tnd := ?_, reg := ?_, load := ?_, dead := ?_, tim := ?_, stt := ?_, stn := ?_, sin := ?_, fre := ?_, qm := ?_, rep := ?_, unk := ?_, alf := ?_, ret := ?_, dep := ?_, sub := ?_, sent := ?_, fe := ?_, rr := ?_, que := ?_, qin := ?_, lost := ?_, wait := ?_, rem := ?_ }
    all_goals try simp only [htr, e1, e2, e3, e4, e5, e6, e7, e8, e9, e10, e11, e12, hrep]
    · intro e' he
      by_cases hee : e' = e
      · subst hee; simp [upd] at he
      · rw [upd_ne _ _ hee] at he; rw [hasse e' (Ne.symm hee)]; exact h.pn e' he
    · intro e' p' he
      by_cases hee : e' = e
      · subst hee; rw [upd_self] at he; cases he; rfl
      · rw [upd_ne _ _ hee] at he; rw [hasse e' (Ne.symm hee)]; exact h.ps e' p' he
    · intro e'; exact (h.nod e').sublist (hsubl e')
    · intro x a b hx hx'; exact h.excl x a b (hmem x a hx).1 (hmem x b hx').1
    · intro x a hx; exact h.asg x a (hmem x a hx).1
    · exact h.tnd
    · intro e' he
      obtain ⟨a, b, c⟩ := h.reg e' he
      refine ⟨?_, b, c⟩
      by_cases hee : e' = e
      · subst hee; simp [upd]
      · rw [upd_ne _ _ hee]; exact a
    · intro e' he
      refine h.dead e' fun hh => he ?_
      have := hsubl e'
      rw [hh] at this
      exact List.sublist_nil.mp this
    · intro e' he
      refine h.tim e' fun hh => he ?_
      have := hsubl e'
      rw [hh] at this
      exact List.sublist_nil.mp this
    · intro e' he
      obtain ⟨a, b, c, d, f⟩ := h.stt e' he
      refine ⟨a, b, c, d, ?_⟩
      by_cases hee : e' = e
      · subst hee; simp [upd]
      · rw [upd_ne _ _ hee]; exact f
    · exact h.stn
    · intro e' he
      obtain ⟨a, b, c, d, f⟩ := h.sin e' he
      refine ⟨a, b, c, ?_, hA e' he⟩
      by_cases hee : e' = e
      · subst hee; simp [upd]
      · rw [upd_ne _ _ hee]; exact d
    · intro e' he
      obtain ⟨a, b, c⟩ := h.fre e' fun hh => he ((hregs e').mpr hh)
      refine ⟨?_, b, c⟩
      have hee : e' ≠ e := fun hh => by rw [hh, hp] at a; cases a
      rw [upd_ne _ _ hee]; exact a
    · exact h.qm
    · exact h.rep
    · exact h.unk
    · exact h.alf
    · intro x j hj hr0
      by_cases hxm : x = m
      · rw [hxm]; exact hrm
      · rw [hr x hxm]; exact h.ret x j hj hr0
    · exact h.dep
    · intro x j hj
      obtain ⟨sub, a, b, c, d⟩ := h.sub x j hj
      exact ⟨sub, (hsub _ _).mpr a, fun sub' hs => b sub' ((hsub _ _).mp hs), c, fun hrj _ => d hrj (by simp [hX])⟩
    · intro p' e' x q hq'
      rcases snoc_split hq' with ⟨_, h3, h4⟩ | ⟨q', _, hq''⟩
      · rcases ho with ⟨ok, dm, rfl⟩ | rfl <;> cases h4
      · exact h.sent p' e' x q' hq''
    · exact fun hh => (hF hh).elim
    · exact h.rr
    · exact h.que
    · intro x hx
      obtain ⟨a, b⟩ := h.qin x hx
      exact ⟨fun e' he => a e' (hmem x e' he).1, b⟩
    · intro hf x j hj hr0
      by_cases hxm : x = m
      · subst hxm; simp
      · rcases h.lost hf x j hj hr0 with a | ⟨e', a⟩ | a
        · exact Or.inl a
        · exact Or.inr (Or.inl ⟨e', hmem' x e' a hxm⟩)
        · simp [hX] at a
    · exact h.wait
    · intro hf x j hj hr0
      rcases h.rem hf x j hj hr0 with a | a
      · simp [hX] at a
      · exact Or.inr a
  · intro hh
    exact (h.qin m (by simpa [recvState] using hh)).1 e hm
  · simpa [recvState, hrep] using hm0
  · intro e' he
    exact (hmem m e' (by simpa [recvState] using he)).2 rfl

/-- An observation that changes nothing. -/
def Neutral (o : Obs) : Prop := (∃ e m c, o = .retry e m c) ∨ ∃ e, o = .unregistered e

theorem Inv.emit {o : Obs} (h : Inv cfg D g s) (ho : Neutral o) : Inv cfg D g { s with trace := s.trace ++ [o] } := by
  have hass : ∀ e', assigned e' (s.trace ++ [o]) = assigned e' s.trace := fun e' => by
    rcases ho with ⟨e, m, c, rfl⟩ | ⟨e, rfl⟩ <;> rw [assigned_snoc]
  have hrep : ∀ x, replies x (s.trace ++ [o]) = replies x s.trace := fun x => by
    rcases ho with ⟨e, m, c, rfl⟩ | ⟨e, rfl⟩ <;> rw [replies_snoc] <;> simp
  have hsub : ∀ x sub, Obs.submitted x sub ∈ s.trace ++ [o] ↔ Obs.submitted x sub ∈ s.trace := by
    intro x sub
    rcases ho with ⟨e, m, c, rfl⟩ | ⟨e, rfl⟩ <;> simp
  have hregs : ∀ x, Obs.registered x ∈ s.trace ++ [o] ↔ Obs.registered x ∈ s.trace := by
    intro x
    rcases ho with ⟨e, m, c, rfl⟩ | ⟨e, rfl⟩ <;> simp
  refine { pn := ?_, ps := ?_, nod := ?_, excl := ?_, asg := ?_, tnd := h.tnd, reg := h.reg, load := ?_, dead := ?_, tim := ?_, stt := h.stt, stn := h.stn, sin := ?_, fre := ?_, qm := ?_, rep := ?_, unk := ?_, alf := ?_, ret := ?_, dep := h.dep, sub := ?_, sent := ?_, fe := h.fe, rr := ?_, que := h.que, qin := ?_, lost := ?_, wait := h.wait, rem := ?_ }
  all_goals simp only [hass, hrep, hregs, hsub]
  · exact h.pn
  · exact h.ps
  · exact h.nod
  · exact h.excl
  · exact h.asg
  · exact h.load
  · exact h.dead
  · exact h.tim
  · exact h.sin
  · exact h.fre
  · exact h.qm
  · exact h.rep
  · exact h.unk
  · exact h.alf
  · exact h.ret
  · exact h.sub
  · intro p' e' x q hq'
    rcases snoc_split hq' with ⟨_, h3, h4⟩ | ⟨q', _, hq''⟩
    · rcases ho with ⟨e, m, c, rfl⟩ | ⟨e, rfl⟩ <;> cases h4
    · intro sub hs; exact h.sent p' e' x q' hq'' sub hs
  · exact h.rr
  · exact h.qin
  · exact h.lost
  · exact h.rem

theorem InHand.retried {m : MsgId} {e : Engine} {c : Cause} (h : InHand cfg D g m s) : InHand cfg D g m { s with trace := s.trace ++ [.retry e m c] } where
  inv := h.inv.emit (Or.inl ⟨e, m, c, rfl⟩)
  out := h.out
  job := h.job
  rep := by
    show replies m (s.trace ++ [.retry e m c]) = 0
    rw [replies_snoc, h.rep]
    rfl
  una := fun e' => by
    show m ∉ assigned e' (s.trace ++ [.retry e m c])
    rw [assigned_snoc]; exact h.una e'

/-- The reply for the task in hand goes to the client. -/
theorem InHand.relay {m : MsgId} {e : Engine} {ok : Bool} {s' : State} {comp fai : Engine → Option (List MsgId)} {alf : List MsgId} (h : InHand cfg D g m s)
    (htk : TgtOk s m) (hm : m ∉ s.queueMap) (hc : ∀ e, s.completed e ≠ none → comp e ≠ none) (hf : ∀ e, s.failed e ≠ none → fai e ≠ none)
    (ha : ∀ x ∈ alf, x ∈ s.allFailed ∨ x = m) (hsup : ∀ x ∈ s.allFailed, x ∈ alf) (hX : g.X = [])
    (h1 : s'.targets = s.targets) (h2 : s'.loads = s.loads) (h3 : s'.jobs = s.jobs) (h4 : s'.queue = s.queue) (h5 : s'.queueMap = s.queueMap) (h6 : s'.graph = s.graph)
    (h7 : s'.retries = upd s.retries m none) (h8 : s'.pending = s.pending) (h9 : s'.completed = comp) (h10 : s'.failed = fai)
    (h11 : s'.allFailed = alf) (h12 : s'.strandTimers = s.strandTimers) (h13 : s'.trace = s.trace ++ [.relay e m ok]) : Inv cfg D g s' := by
  have hI := h.inv
  rw [drop_self hm] at hI
  have hass : ∀ e', assigned e' (s.trace ++ [.relay e m ok]) = assigned e' s.trace := fun e' => by rw [assigned_snoc]
  have hrep : ∀ x, x ≠ m → replies x (s.trace ++ [.relay e m ok]) = replies x s.trace := fun x hx => by rw [replies_snoc]; simp [Ne.symm hx]
  have hrepm : replies m (s.trace ++ [.relay e m ok]) = 1 := by rw [replies_snoc, h.rep]; simp
  have hsub : ∀ x sub, Obs.submitted x sub ∈ s.trace ++ [.relay e m ok] ↔ Obs.submitted x sub ∈ s.trace := by intro x sub; simp
  have hregs : ∀ x, Obs.registered x ∈ s.trace ++ [.relay e m ok] ↔ Obs.registered x ∈ s.trace := by intro x; simp
  obtain ⟨jm, hjm, hjr⟩ := h.job
  refine { pn := ?_, ps := ?_, nod := ?_, excl := ?_, asg := ?_, tnd := ?_, reg := ?_, load := ?_, dead := ?_, tim := ?_, stt := ?_, stn := ?_, sin := ?_, fre := ?_, qm := ?_, rep := ?_, unk := ?_, alf := ?_, ret := ?_, dep := ?_, sub := ?_, sent := ?_, fe := ?_, rr := ?_, que := ?_, qin := ?_, lost := ?_, wait := ?_, rem := ?_ }
  all_goals try simp only [h1, h2, h3, h4, h5, h6, h7, h8, h9, h10, h11, h12, h13, hass, hregs, hsub]
  · exact hI.pn
  · exact hI.ps
  · exact hI.nod
  · exact hI.excl
  · intro x e' hx
    have hxm : x ≠ m := fun hh => h.una e' (hh ▸ hx)
    rw [hrep x hxm]; exact hI.asg x e' hx
  · exact hI.tnd
  · intro e' he
    obtain ⟨a, b, c⟩ := hI.reg e' he
    exact ⟨a, hc _ b, hf _ c⟩
  · exact hI.load
  · intro e' he
    obtain ⟨b, c⟩ := hI.dead e' he
    exact ⟨hc _ b, hf _ c⟩
  · exact hI.tim
  · intro e' he
    obtain ⟨a, b, c, d, f⟩ := hI.stt e' he
    exact ⟨a, b, hc _ c, hf _ d, f⟩
  · exact hI.stn
  · intro e' he
    obtain ⟨a, b, c, d, f⟩ := hI.sin e' he
    exact ⟨a, hc _ b, hf _ c, d, f⟩
  · exact hI.fre
  · intro x hx
    have hxm : x ≠ m := fun hh => hm (hh ▸ hx)
    rw [hrep x hxm]; exact hI.qm x hx
  · intro x
    by_cases hxm : x = m
    · rw [hxm, hrepm]; exact Nat.le_refl _
    · rw [hrep x hxm]; exact hI.rep x
  · intro x hx
    have hxm : x ≠ m := fun hh => by rw [hh, hjm] at hx; cases hx
    rw [hrep x hxm]; exact hI.unk x hx
  · intro x hx
    by_cases hxm : x = m
    · rw [hxm, hrepm]; simp
    · rw [hrep x hxm]
      exact hI.alf x ((ha x hx).resolve_right hxm)
  · intro x j hj hr0
    have hxm : x ≠ m := fun hh => by rw [hh, hrepm] at hr0; cases hr0
    rw [hrep x hxm] at hr0
    rw [upd_ne _ _ hxm]; exact hI.ret x j hj hr0
  · exact hI.dep
  · intro x j hj
    obtain ⟨sub, a, b, c, d⟩ := hI.sub x j hj
    refine ⟨sub, a, b, c, fun hrj _ hne => ?_⟩
    by_cases hxm : x = m
    · subst hxm; exact htk j hj hrj sub a hne
    · exact d hrj (by simpa using hxm) hne
  · intro p' e' x q hq'
    rcases snoc_split hq' with ⟨_, h3, h4⟩ | ⟨q', _, hq''⟩
    · cases h4
    · intro sub hs; exact hI.sent p' e' x q' hq'' sub hs
  · intro hF
    have := hI.fe hF
    unfold availableEngines at this ⊢
    simpa only [h1, h2] using this
  · intro x hx
    obtain ⟨a, b, c⟩ := hI.rr x hx
    have hxm : x ≠ m := fun hh => b (hh ▸ h.rep)
    rw [hrep x hxm]
    exact ⟨hsup x a, b, c⟩
  · exact hI.que
  · exact hI.qin
  · intro hfu x j hj hr0
    have hxm : x ≠ m := fun hh => by rw [hh, hrepm] at hr0; cases hr0
    rw [hrep x hxm] at hr0
    rcases hI.lost hfu x j hj hr0 with a | a | a
    · exact Or.inl a
    · exact Or.inr (Or.inl a)
    · simp at a; exact absurd a hxm
  · exact hI.wait
  · intro hfu x j hj hr0
    by_cases hxm : x = m
    · rw [hxm, hrepm]; simp
    · rw [hrep x hxm]
      rcases hI.rem hfu x j hj hr0 with a | a
      · simp at a; exact absurd a hxm
      · exact Or.inr a

/-- An engine registers. -/
theorem Inv.register {e : Engine} (h : Inv cfg D g s) (hF : ¬ g.F) (hfresh : Obs.registered e ∉ s.trace) : Inv cfg D g { s with
    trace := s.trace ++ [.registered e]
    targets := e :: s.targets
    loads := 0 :: s.loads
    completed := upd s.completed e (some [])
    failed := upd s.failed e (some [])
    pending := upd s.pending e (some []) } := by
  obtain ⟨hp, hnt, hns⟩ := h.fre e hfresh
  have hae : assigned e s.trace = [] := h.pn e hp
  have hass : ∀ e', assigned e' (s.trace ++ [.registered e]) = assigned e' s.trace := fun e' => by rw [assigned_snoc]
  have hrep : ∀ x, replies x (s.trace ++ [.registered e]) = replies x s.trace := fun x => by rw [replies_snoc]; rfl
  have hsub : ∀ x sub, Obs.submitted x sub ∈ s.trace ++ [.registered e] ↔ Obs.submitted x sub ∈ s.trace := by intro x sub; simp
  have hune : ∀ e', s.pending e' ≠ none → e' ≠ e := fun e' h1 h2 => h1 (h2 ▸ hp)
  refine { pn := ?_, ps := ?_, nod := ?_, excl := ?_, asg := ?_, tnd := ?_, reg := ?_, load := ?_, dead := ?_, tim := ?_, stt := ?_, stn := h.stn, sin := ?_, fre := ?_, qm := ?_, rep := ?_, unk := ?_, alf := ?_, ret := ?_, dep := h.dep, sub := ?_, sent := ?_, fe := fun hh => (hF hh).elim, rr := ?_, que := h.que, qin := ?_, lost := ?_, wait := h.wait, rem := ?_ }
  all_goals simp only [hass, hrep, hsub]
  · intro e' he
    by_cases hee : e' = e
    · rw [hee]; exact hae
    · rw [upd_ne _ _ hee] at he; exact h.pn e' he
  · intro e' p he
    by_cases hee : e' = e
    · rw [hee, upd_self] at he; cases he; rw [hee, hae]
    · rw [upd_ne _ _ hee] at he; exact h.ps e' p he
  · exact h.nod
  · exact h.excl
  · exact h.asg
  · exact List.nodup_cons.mpr ⟨hnt, h.tnd⟩
  · intro e' he
    by_cases hee : e' = e
    · rw [hee]; simp [upd]
    · rw [upd_ne _ _ hee, upd_ne _ _ hee, upd_ne _ _ hee]
      exact h.reg e' ((List.mem_cons.mp he).resolve_left hee)
  · rw [h.load]; simp [hae]
  · intro e' he
    by_cases hee : e' = e
    · rw [hee]; simp [upd]
    · rw [upd_ne _ _ hee, upd_ne _ _ hee]; exact h.dead e' he
  · intro e' he hn
    exact h.tim e' he fun hh => hn (List.mem_cons_of_mem _ hh)
  · intro e' he
    obtain ⟨a, b, c, d, f⟩ := h.stt e' he
    have hee := hune e' f
    rw [upd_ne _ _ hee, upd_ne _ _ hee, upd_ne _ _ hee]
    exact ⟨fun hh => (List.mem_cons.mp hh).elim hee a, b, c, d, f⟩
  · intro e' he
    obtain ⟨a, b, c, d, f⟩ := h.sin e' he
    have hee := hune e' d
    rw [upd_ne _ _ hee, upd_ne _ _ hee, upd_ne _ _ hee]
    exact ⟨fun hh => (List.mem_cons.mp hh).elim hee a, b, c, d, f⟩
  · intro e' he
    simp only [List.mem_append, List.mem_singleton, not_or] at he
    have hee : e' ≠ e := fun hh => he.2 (by rw [hh])
    obtain ⟨a, b, c⟩ := h.fre e' he.1
    rw [upd_ne _ _ hee]
    exact ⟨a, fun hh => (List.mem_cons.mp hh).elim hee b, c⟩
  · exact h.qm
  · exact h.rep
  · exact h.unk
  · exact h.alf
  · exact h.ret
  · exact h.sub
  · intro p' e' x q hq'
    rcases snoc_split hq' with ⟨_, h3, h4⟩ | ⟨q', _, hq''⟩
    · cases h4
    · intro sub hs; exact h.sent p' e' x q' hq'' sub hs
  · exact h.rr
  · exact h.qin
  · exact h.lost
  · exact h.rem

/-- An engine is unregistered: its tasks, if any, wait for the timer. -/
theorem Inv.unregister {e : Engine} {idx : Nat} {ts : List Engine} {comp fai : Engine → Option (List MsgId)} (h : Inv cfg D g s) (hF : ¬ g.F) (hidx : s.targets[idx]? = some e)
    (hcase : (ts = s.strandTimers ++ [e] ∧ comp = s.completed ∧ fai = s.failed) ∨
      (assigned e s.trace = [] ∧ ts = s.strandTimers ∧ comp = upd s.completed e none ∧ fai = upd s.failed e none)) :
    Inv cfg D g { s with
      trace := s.trace ++ [.unregistered e]
      targets := s.targets.eraseIdx idx
      loads := s.loads.eraseIdx idx
      strandTimers := ts
      completed := comp
      failed := fai } := by
  have hmem : e ∈ s.targets := List.mem_of_getElem? hidx
  have hne := not_mem_eraseIdx h.tnd hidx
  have hass : ∀ e', assigned e' (s.trace ++ [.unregistered e]) = assigned e' s.trace := fun e' => by rw [assigned_snoc]
  have hrep : ∀ x, replies x (s.trace ++ [.unregistered e]) = replies x s.trace := fun x => by rw [replies_snoc]; rfl
  have hsub : ∀ x sub, Obs.submitted x sub ∈ s.trace ++ [.unregistered e] ↔ Obs.submitted x sub ∈ s.trace := by intro x sub; simp
  have hreg : ∀ x, Obs.registered x ∈ s.trace ++ [.unregistered e] ↔ Obs.registered x ∈ s.trace := by intro x; simp
  have hother : ∀ e', e' ≠ e → comp e' = s.completed e' ∧ fai e' = s.failed e' := fun e' hee => by
    rcases hcase with ⟨_, rfl, rfl⟩ | ⟨_, _, rfl, rfl⟩
    · exact ⟨rfl, rfl⟩
    · exact ⟨upd_ne _ _ hee, upd_ne _ _ hee⟩
  have hts : ∀ x ∈ s.strandTimers, x ∈ ts := fun x hx => by
    rcases hcase with ⟨rfl, _⟩ | ⟨_, rfl, _⟩
    · exact List.mem_append_left _ hx
    · exact hx
  have hts' : ∀ x ∈ ts, x ∈ s.strandTimers ∨ (x = e ∧ comp = s.completed ∧ fai = s.failed) := fun x hx => by
    rcases hcase with ⟨rfl, h1, h2⟩ | ⟨_, rfl, _⟩
    · rcases List.mem_append.mp hx with hx | hx
      · exact Or.inl hx
      · simp at hx; exact Or.inr ⟨hx, h1, h2⟩
    · exact Or.inl hx
  have hmem' : ∀ x, x ∈ s.targets → x ≠ e → x ∈ s.targets.eraseIdx idx := fun x hx hxe => by
    have := (mem_eraseIdx_snoc hidx x).mpr hx
    simpa [hxe] using this
  refine { pn := ?_, ps := ?_, nod := ?_, excl := ?_, asg := ?_, tnd := h.tnd.sublist (List.eraseIdx_sublist _ _), reg := ?_, load := ?_, dead := ?_, tim := ?_, stt := ?_, stn := ?_, sin := ?_, fre := ?_, qm := ?_, rep := ?_, unk := ?_, alf := ?_, ret := ?_, dep := h.dep, sub := ?_, sent := ?_, fe := fun hh => (hF hh).elim, rr := ?_, que := h.que, qin := ?_, lost := ?_, wait := h.wait, rem := ?_ }
  all_goals simp only [hass, hrep, hsub, hreg]
  · exact h.pn
  · exact h.ps
  · exact h.nod
  · exact h.excl
  · exact h.asg
  · intro e' he
    have hee : e' ≠ e := fun hh => hne (hh ▸ he)
    rw [(hother e' hee).1, (hother e' hee).2]
    exact h.reg e' (List.mem_of_mem_eraseIdx he)
  · rw [h.load, eraseIdx_map']
  · intro e' he
    by_cases hee : e' = e
    · rcases hcase with ⟨_, rfl, rfl⟩ | ⟨h0, _⟩
      · exact h.dead e' he
      · rw [hee] at he; exact absurd h0 he
    · rw [(hother e' hee).1, (hother e' hee).2]; exact h.dead e' he
  · intro e' he hn
    by_cases hee : e' = e
    · rcases hcase with ⟨rfl, _⟩ | ⟨h0, _⟩
      · left; rw [hee]; simp
      · rw [hee] at he; exact absurd h0 he
    · exact (h.tim e' he fun hh => hn (hmem' e' hh hee)).imp (hts e') id
  · intro e' he
    rcases hts' e' he with he | ⟨rfl, rfl, rfl⟩
    · obtain ⟨a, b, c, d, f⟩ := h.stt e' he
      have hee : e' ≠ e := fun hh => a (hh ▸ hmem)
      rw [(hother e' hee).1, (hother e' hee).2]
      exact ⟨fun hh => a (List.mem_of_mem_eraseIdx hh), b, c, d, f⟩
    · obtain ⟨a, b, c⟩ := h.reg e' hmem
      exact ⟨hne, fun hh => (h.sin e' hh).1 hmem, b, c, a⟩
  · rcases hcase with ⟨rfl, _⟩ | ⟨_, rfl, _⟩
    · refine List.nodup_append.mpr ⟨h.stn, by simp, fun a ha b hb hab => ?_⟩
      simp at hb
      rw [hab, hb] at ha
      exact (h.stt e ha).1 hmem
    · exact h.stn
  · intro e' he
    obtain ⟨a, b, c, d, f⟩ := h.sin e' he
    have hee : e' ≠ e := fun hh => a (hh ▸ hmem)
    rw [(hother e' hee).1, (hother e' hee).2]
    exact ⟨fun hh => a (List.mem_of_mem_eraseIdx hh), b, c, d, f⟩
  · intro e' he
    obtain ⟨a, b, c⟩ := h.fre e' he
    refine ⟨a, fun hh => b (List.mem_of_mem_eraseIdx hh), fun hh => ?_⟩
    rcases hts' e' hh with hh | ⟨hh, _⟩
    · exact c hh
    · exact b (hh ▸ hmem)
  · exact h.qm
  · exact h.rep
  · exact h.unk
  · exact h.alf
  · exact h.ret
  · exact h.sub
  · intro p' e' x q hq'
    rcases snoc_split hq' with ⟨_, h3, h4⟩ | ⟨q', _, hq''⟩
    · cases h4
    · intro sub hs; exact h.sent p' e' x q' hq'' sub hs
  · exact h.rr
  · exact h.qin
  · exact h.lost
  · exact h.rem

/-- A task that was never submitted is nowhere. -/
theorem Inv.fresh {m : MsgId} (h : Inv cfg D g s) (hfresh : ∀ sub, Obs.submitted m sub ∉ s.trace) :
    s.jobs m = none ∧ replies m s.trace = 0 ∧ m ∉ s.queueMap ∧ m ∉ g.H ++ s.queue ∧ ∀ e, m ∉ assigned e s.trace := by
  have hj : s.jobs m = none := by
    cases hj : s.jobs m with
    | none => rfl
    | some j =>
      obtain ⟨sub, a, _⟩ := h.sub m j hj
      exact absurd a (hfresh sub)
  refine ⟨hj, h.unk m hj, fun hh => ?_, fun hh => ?_, fun e hh => ?_⟩
  · obtain ⟨_, j, hj', _⟩ := h.qm m hh
    rw [hj] at hj'; cases hj'
  · obtain ⟨_, j, hj', _⟩ := h.qin m hh
    rw [hj] at hj'; cases hj'
  · obtain ⟨_, _, j, hj', _⟩ := h.asg m e hh
    rw [hj] at hj'; cases hj'

/-- A task arrives. -/
theorem Inv.submitted {m : MsgId} {sub : Submission} {ids : List MsgId} (h : Inv cfg D g s) (hfresh : ∀ sub, Obs.submitted m sub ∉ s.trace) :
    Inv cfg D g { s with
      trace := s.trace ++ [.submitted m sub]
      allIds := ids
      retries := upd s.retries m (some sub.retries) } := by
  obtain ⟨hj, hr, hq, hH, ha⟩ := h.fresh hfresh
  have hass : ∀ e', assigned e' (s.trace ++ [.submitted m sub]) = assigned e' s.trace := fun e' => by rw [assigned_snoc]
  have hrep : ∀ x, replies x (s.trace ++ [.submitted m sub]) = replies x s.trace := fun x => by rw [replies_snoc]; rfl
  have hsub : ∀ x, x ≠ m → ∀ sub', Obs.submitted x sub' ∈ s.trace ++ [.submitted m sub] ↔ Obs.submitted x sub' ∈ s.trace := by
    intro x hx sub'; simp [hx]
  have hreg : ∀ x, Obs.registered x ∈ s.trace ++ [.submitted m sub] ↔ Obs.registered x ∈ s.trace := by intro x; simp
  refine { pn := ?_, ps := ?_, nod := ?_, excl := ?_, asg := ?_, tnd := h.tnd, reg := h.reg, load := ?_, dead := ?_, tim := ?_, stt := h.stt, stn := h.stn, sin := ?_, fre := ?_, qm := ?_, rep := ?_, unk := ?_, alf := ?_, ret := ?_, dep := h.dep, sub := ?_, sent := ?_, fe := h.fe, rr := ?_, que := h.que, qin := ?_, lost := ?_, wait := h.wait, rem := ?_ }
  all_goals simp only [hass, hrep, hreg]
  · exact h.pn
  · exact h.ps
  · exact h.nod
  · exact h.excl
  · exact h.asg
  · exact h.load
  · exact h.dead
  · exact h.tim
  · exact h.sin
  · exact h.fre
  · exact h.qm
  · exact h.rep
  · exact h.unk
  · exact h.alf
  · intro x j hx hr0
    have hxm : x ≠ m := fun hh => by rw [hh, hj] at hx; cases hx
    rw [upd_ne _ _ hxm]; exact h.ret x j hx hr0
  · intro x j hx
    have hxm : x ≠ m := fun hh => by rw [hh, hj] at hx; cases hx
    obtain ⟨sub', a, b, c, d⟩ := h.sub x j hx
    exact ⟨sub', (hsub x hxm _).mpr a, fun s' hs => b s' ((hsub x hxm _).mp hs), c, d⟩
  · intro p' e' x q hq'
    rcases snoc_split hq' with ⟨_, h3, h4⟩ | ⟨q', _, hq''⟩
    · cases h4
    · intro sub hs; exact h.sent p' e' x q' hq'' sub hs
  · exact h.rr
  · exact h.qin
  · exact h.lost
  · exact h.rem

/-- Its `Job` is made. -/
theorem Inv.newJob {m : MsgId} {sub : Submission} {j : Job} (h : Inv cfg D g s) (hX : g.X = []) (hj : s.jobs m = none) (hret : s.retries m ≠ none)
    (hs : Obs.submitted m sub ∈ s.trace) (hu : ∀ sub', Obs.submitted m sub' ∈ s.trace → sub' = sub) (hr : j.removed = false) (ht : j.targets = sub.targets)
    (hd : D → j.after.ids = [] ∧ j.follow.ids = []) :
    InHand cfg D g m { s with jobs := upd s.jobs m (some j) } ∧ TgtOk { s with jobs := upd s.jobs m (some j) } m ∧ m ∉ s.queueMap := by
  have hq : m ∉ s.queueMap := fun hh => by
    obtain ⟨_, j, hj', _⟩ := h.qm m hh
    rw [hj] at hj'; cases hj'
  have ha : ∀ e, m ∉ assigned e s.trace := fun e hh => by
    obtain ⟨_, _, j, hj', _⟩ := h.asg m e hh
    rw [hj] at hj'; cases hj'
  have hout : m ∉ g.H ++ s.queue := fun hh => by
    obtain ⟨_, j, hj', _⟩ := h.qin m hh
    rw [hj] at hj'; cases hj'
  have hrep : replies m s.trace = 0 := h.unk m hj
  have other : ∀ x, x ≠ m → upd s.jobs m (some j) x = s.jobs x := fun x hx => upd_ne _ _ hx
  have old : ∀ x jx, s.jobs x = some jx → x ≠ m := fun x jx hx hh => by rw [hh, hj] at hx; cases hx
  refine ⟨⟨?_, hout, ⟨j, upd_self _ _ _, hr⟩, hrep, ha⟩, ?_, hq⟩
  · rw [drop_self (s := { s with jobs := upd s.jobs m (some j) }) hq]
    refine { h with asg := ?_, qm := ?_, unk := ?_, ret := ?_, dep := ?_, sub := ?_, rr := ?_, qin := ?_, lost := ?_, rem := ?_ }
    all_goals dsimp only
    · intro x e hx
      obtain ⟨a, b, jx, c, d⟩ := h.asg x e hx
      exact ⟨a, b, jx, by rw [other x (old x jx c)]; exact c, d⟩
    · intro x hx
      obtain ⟨a, jx, c, d⟩ := h.qm x hx
      exact ⟨a, jx, by rw [other x (old x jx c)]; exact c, d⟩
    · intro x hx
      by_cases hxm : x = m
      · simp [hxm, upd] at hx
      · rw [other x hxm] at hx; exact h.unk x hx
    · intro x jx hx hr0
      by_cases hxm : x = m
      · rw [hxm]; exact hret
      · rw [other x hxm] at hx; exact h.ret x jx hx hr0
    · intro hD
      refine ⟨(h.dep hD).1, fun x jx hx => ?_⟩
      by_cases hxm : x = m
      · rw [hxm, upd_self] at hx; cases hx; exact hd hD
      · rw [other x hxm] at hx; exact (h.dep hD).2 x jx hx
    · intro x jx hx
      by_cases hxm : x = m
      · rw [hxm, upd_self] at hx; cases hx
        rw [hxm]
        exact ⟨sub, hs, hu, fun t h => ht ▸ h, by simp⟩
      · rw [other x hxm] at hx
        obtain ⟨sub', a, b, c, d⟩ := h.sub x jx hx
        exact ⟨sub', a, b, c, fun hr _ => d hr (by simp [hX])⟩
    · intro x hx
      obtain ⟨a, b, jx, c, d⟩ := h.rr x hx
      exact ⟨a, b, jx, by rw [other x (old x jx c)]; exact c, d⟩
    · intro x hx
      obtain ⟨a, jx, c, d⟩ := h.qin x hx
      exact ⟨a, jx, by rw [other x (old x jx c)]; exact c, d⟩
    · intro hf x jx hx hr0
      by_cases hxm : x = m
      · rw [hxm]; simp
      · rw [other x hxm] at hx
        rcases h.lost hf x jx hx hr0 with a | a | a
        · exact Or.inl a
        · exact Or.inr (Or.inl a)
        · simp [hX] at a
    · intro hf x jx hx hr0
      by_cases hxm : x = m
      · rw [hxm]; simp
      · rw [other x hxm] at hx
        rcases h.rem hf x jx hx hr0 with a | a
        · simp [hX] at a
        · exact Or.inr a
  · intro j' hj' _ sub' hs'
    have hj' : upd s.jobs m (some j) m = some j' := hj'
    rw [upd_self] at hj'; cases hj'
    rw [hu sub' hs', ht]; exact id

/-- The task in hand is put into the queue — save_unmet. -/
theorem InHand.enqueue {m : MsgId} (h : InHand cfg D g m s) (ht : TgtOk s m) (hH : g.H = []) : Inv cfg D g { s with
    queueMap := insertSet m s.queueMap
    queue := s.queue ++ [m] } := by
  have h1 := h.addMap.putBack (by simp) ht
  refine Inv.requeue (q' := s.queue ++ [m]) h1 rfl ?_
  show (g.H ++ (s.queue ++ [m])).Perm (g.H ++ [m] ++ s.queue)
  rw [hH]
  simpa using List.perm_append_comm

/-- A change of a job that does not matter. -/
theorem Inv.touch {m : MsgId} {j j' : Job} (h : Inv cfg D g s) (hj : s.jobs m = some j) (hr : j'.removed = j.removed) (ht : j'.targets = j.targets)
    (ha : j'.after = j.after) (hf : j'.follow = j.follow) : Inv cfg D g { s with jobs := upd s.jobs m (some j') } := by
  have key : ∀ x jx, s.jobs x = some jx → ∃ jx', upd s.jobs m (some j') x = some jx' ∧ jx'.removed = jx.removed := fun x jx hx => by
    by_cases hxm : x = m
    · rw [hxm, hj] at hx; cases hx; exact ⟨j', by rw [hxm, upd_self], hr⟩
    · exact ⟨jx, by rw [upd_ne _ _ hxm]; exact hx, rfl⟩
  have key' : ∀ x jx', upd s.jobs m (some j') x = some jx' → ∃ jx, s.jobs x = some jx ∧ jx'.removed = jx.removed ∧ jx'.targets = jx.targets ∧ jx'.after = jx.after ∧ jx'.follow = jx.follow :=
    fun x jx' hx => by
      by_cases hxm : x = m
      · rw [hxm, upd_self] at hx; cases hx; exact ⟨j, by rw [hxm]; exact hj, hr, ht, ha, hf⟩
      · rw [upd_ne _ _ hxm] at hx; exact ⟨jx', hx, rfl, rfl, rfl, rfl⟩
  refine { h with asg := ?_, qm := ?_, unk := ?_, ret := ?_, dep := ?_, sub := ?_, rr := ?_, qin := ?_, lost := ?_, rem := ?_ }
  · intro x e hx
    obtain ⟨a, b, jx, c, d⟩ := h.asg x e hx
    obtain ⟨jx', c', d'⟩ := key x jx c
    exact ⟨a, b, jx', c', d'.trans d⟩
  · intro x hx
    obtain ⟨a, jx, c, d⟩ := h.qm x hx
    obtain ⟨jx', c', d'⟩ := key x jx c
    exact ⟨a, jx', c', d'.trans d⟩
  · intro x hx
    refine h.unk x ?_
    cases hh : s.jobs x with
    | none => rfl
    | some jx =>
      obtain ⟨jx', c', _⟩ := key x jx hh
      rw [show upd s.jobs m (some j') x = none from hx] at c'; cases c'
  · intro x jx' hx hr0
    obtain ⟨jx, c, _⟩ := key' x jx' hx
    exact h.ret x jx c hr0
  · intro hD
    refine ⟨(h.dep hD).1, fun x jx' hx => ?_⟩
    obtain ⟨jx, c, _, _, c3, c4⟩ := key' x jx' hx
    rw [c3, c4]; exact (h.dep hD).2 x jx c
  · intro x jx' hx
    obtain ⟨jx, c, c1, c2, c3, c4⟩ := key' x jx' hx
    rw [c1, c2]; exact h.sub x jx c
  · intro x hx
    obtain ⟨a, b, jx, c, d⟩ := h.rr x hx
    obtain ⟨jx', c', d'⟩ := key x jx c
    exact ⟨a, b, jx', c', d'.trans d⟩
  · intro x hx
    obtain ⟨a, jx, c, d⟩ := h.qin x hx
    obtain ⟨jx', c', d'⟩ := key x jx c
    exact ⟨a, jx', c', d.imp (fun hh => d'.trans hh) id⟩
  · intro hf x jx' hx hr0
    obtain ⟨jx, c, _⟩ := key' x jx' hx
    exact h.lost hf x jx c hr0
  · intro hf x jx' hx hr0
    obtain ⟨jx, c, c1, _⟩ := key' x jx' hx
    exact h.rem hf x jx c (c1 ▸ hr0)

end IPP.Sched
