import Verif.Cluster.Model
/-!
# Lemmas on clusters: dictionaries, new set ids, the bookkeeping invariant
-/
namespace IPP.Cluster

/-! ### dictionaries -/

theorem mem_dset {k : String} {v : Nat} : ∀ {d : List (String × Nat)} {e : String × Nat}, e ∈ dset k v d → e = (k, v) ∨ (e ∈ d ∧ (e.1 ≠ k ∨ ¬ (d.map (·.1)).Nodup))
  | [], e, h => by simp only [dset, List.mem_singleton] at h; exact .inl h
  | x :: t, e, h => by
    simp only [dset] at h
    split at h
    · rename_i hx
      rcases List.mem_cons.1 h with h | h
      · exact .inl h
      · refine .inr ⟨List.mem_cons_of_mem _ h, ?_⟩
        by_cases he : e.1 = k
        · refine .inr ?_
          simp only [List.map_cons, List.nodup_cons, not_and]
          intro hn
          exact absurd (List.mem_map.2 ⟨e, h, by rw [he, hx]⟩) hn
        · exact .inl he
    · rename_i hx
      rcases List.mem_cons.1 h with h | h
      · subst h; exact .inr ⟨List.mem_cons_self, .inl hx⟩
      · rcases mem_dset h with h | ⟨h, h2⟩
        · exact .inl h
        · refine .inr ⟨List.mem_cons_of_mem _ h, ?_⟩
          rcases h2 with h2 | h2
          · exact .inl h2
          · exact .inr (fun hn => h2 (List.nodup_cons.1 (by simpa using hn)).2)

theorem self_mem_dset (k : String) (v : Nat) : ∀ (d : List (String × Nat)), (k, v) ∈ dset k v d
  | [] => by simp [dset]
  | x :: t => by
    simp only [dset]
    split
    · exact List.mem_cons_self
    · exact List.mem_cons_of_mem _ (self_mem_dset k v t)

theorem mem_dset_of_ne {k : String} {v : Nat} : ∀ {d : List (String × Nat)} {e : String × Nat}, e ∈ d → e.1 ≠ k → e ∈ dset k v d
  | x :: t, e, h, hk => by
    simp only [dset]
    rcases List.mem_cons.1 h with h | h
    · subst h
      rw [if_neg hk]; exact List.mem_cons_self
    · split
      · exact List.mem_cons_of_mem _ h
      · exact List.mem_cons_of_mem _ (mem_dset_of_ne h hk)

theorem dset_keys {k : String} {v : Nat} : ∀ {d : List (String × Nat)} {x : String}, x ∈ (dset k v d).map (·.1) ↔ x = k ∨ x ∈ d.map (·.1)
  | [], x => by simp [dset]
  | y :: t, x => by
    simp only [dset]
    split
    · rename_i h; subst h; simp
    · simp only [List.map_cons, List.mem_cons, dset_keys]
      constructor
      · rintro (h | h | h) <;> simp [h]
      · rintro (h | h | h) <;> simp [h]

theorem dset_nodup {k : String} {v : Nat} : ∀ {d : List (String × Nat)}, (d.map (·.1)).Nodup → ((dset k v d).map (·.1)).Nodup
  | [], _ => by simp [dset]
  | x :: t, h => by
    simp only [List.map_cons, List.nodup_cons] at h
    simp only [dset]
    split
    · rename_i hx
      simp only [List.map_cons, List.nodup_cons]
      exact ⟨hx ▸ h.1, h.2⟩
    · rename_i hx
      simp only [List.map_cons, List.nodup_cons]
      refine ⟨?_, dset_nodup h.2⟩
      rw [dset_keys]
      rintro (h' | h')
      · exact hx h'
      · exact h.1 h'

theorem dget_mem {k : String} {v : Nat} : ∀ {d : List (String × Nat)}, dget k d = some v → (k, v) ∈ d
  | x :: t, h => by
    simp only [dget] at h
    split at h
    · rename_i hx
      cases h; subst hx; exact List.mem_cons_self
    · exact List.mem_cons_of_mem _ (dget_mem h)

theorem dget_of_mem {k : String} {v : Nat} : ∀ {d : List (String × Nat)}, (d.map (·.1)).Nodup → (k, v) ∈ d → dget k d = some v
  | x :: t, hn, h => by
    simp only [List.map_cons, List.nodup_cons] at hn
    simp only [dget]
    rcases List.mem_cons.1 h with h | h
    · subst h; simp
    · split
      · rename_i hx
        exact absurd (List.mem_map.2 ⟨(k, v), h, rfl⟩) (hx ▸ hn.1)
      · exact dget_of_mem hn.2 h

theorem dget_none {k : String} : ∀ {d : List (String × Nat)}, dget k d = none ↔ k ∉ d.map (·.1)
  | [] => by simp [dget]
  | x :: t => by
    simp only [dget]
    split
    · rename_i hx; subst hx; simp
    · rename_i hx
      rw [dget_none]
      simp only [List.map_cons, List.mem_cons, not_or]
      exact ⟨fun h => ⟨fun e => hx e.symm, h⟩, fun h => h.2⟩

theorem dpop_nodup {k : String} {d : List (String × Nat)} (h : (d.map (·.1)).Nodup) : ((dpop k d).map (·.1)).Nodup :=
  (List.filter_sublist.map _).nodup h

theorem mem_dpop {k : String} {d : List (String × Nat)} {e : String × Nat} : e ∈ dpop k d ↔ e ∈ d ∧ e.1 ≠ k := by simp [dpop]

/-! ### new engine set ids -/

theorem toString_nat_inj {a b : Nat} (h : toString a = toString b) : a = b := by
  have h1 : (toString a : String) = String.ofList (Nat.toDigits 10 a) := Nat.toString_eq_ofList_toDigits
  have h2 : (toString b : String) = String.ofList (Nat.toDigits 10 b) := Nat.toString_eq_ofList_toDigits
  rw [h1, h2, String.ofList_inj] at h
  rw [← Nat.ofDigitChars_ten_toDigits (n := a), ← Nat.ofDigitChars_ten_toDigits (n := b), h]

theorem suffix_inj {base : String} {i j : Nat} (h : base ++ ("-" ++ toString i) = base ++ ("-" ++ toString j)) : i = j := by
  rw [String.append_right_inj, String.append_right_inj] at h
  exact toString_nat_inj h

/-- the loop ends with an unused id: of `fuel + 1` candidates at most `fuel` can be in a list that has at most `fuel` elements beginning at `i` -/
theorem newIdFrom_fresh (base : String) (keys : List String) : ∀ (fuel i : Nat) (used : List String),
    used.Nodup → (∀ x ∈ used, x ∈ keys ∧ ∀ j, i ≤ j → x ≠ base ++ ("-" ++ toString j)) → keys.length < used.length + fuel + 1 →
    newIdFrom base keys fuel i ∉ keys
  | 0, i, used, hn, hu, hl => by
    intro hc
    simp only [newIdFrom] at hc
    have hsub : (base ++ ("-" ++ toString i)) :: used ⊆ keys := by
      intro x hx
      rcases List.mem_cons.1 hx with rfl | hx
      · exact hc
      · exact (hu x hx).1
    have hnd : ((base ++ ("-" ++ toString i)) :: used).Nodup := List.nodup_cons.2 ⟨fun hx => (hu _ hx).2 i (Nat.le_refl _) rfl, hn⟩
    have := List.Nodup.length_le_of_subset hnd hsub
    simp at this; omega
  | fuel + 1, i, used, hn, hu, hl => by
    simp only [newIdFrom]
    split
    · rename_i hc
      refine newIdFrom_fresh base keys fuel (i + 1) ((base ++ ("-" ++ toString i)) :: used) ?_ ?_ ?_
      · exact List.nodup_cons.2 ⟨fun hx => (hu _ hx).2 i (Nat.le_refl _) rfl, hn⟩
      · intro x hx
        rcases List.mem_cons.1 hx with rfl | hx
        · refine ⟨hc, fun j hj he => ?_⟩
          have := suffix_inj he
          omega
        · exact ⟨(hu x hx).1, fun j hj => (hu x hx).2 j (by omega)⟩
      · simp only [List.length_cons]; omega
    · rename_i hc; exact hc

theorem newSetId_fresh (t : Nat) (keys : List String) : newSetId t keys ∉ keys := by
  unfold newSetId
  split
  · exact newIdFrom_fresh _ _ _ _ [] List.nodup_nil (by simp) (by simp)
  · rename_i h; exact h

/-! ### bookkeeping -/

/-- facts about every reachable state -/
structure Wf (s : St) : Prop where
  ltEng : ∀ e ∈ s.engines, e.2 < s.next
  ltCtl : ∀ a, s.ctl = some a → a < s.next
  ltPend : ∀ a ∈ s.pending, a < s.next
  liveSeen : ∀ p ∈ s.live, p ∈ s.seen
  procSeen : ∀ a i p, (i, some p) ∈ (s.objs a).procs → p ∈ s.seen
  pend : ∀ a ∈ s.pending, (s.objs a).state = .before ∧ (s.objs a).procs = []
  runWatched : ∀ a, (s.objs a).state = .running → (s.objs a).watched = true
  unwatched : ∀ a, (s.objs a).watched = false → (s.objs a).procs = [] ∨ ((s.objs a).multi = true ∧ ∃ k, (k, none) ∈ (s.objs a).procs)
  afterDead : ∀ a, (s.objs a).state = .after → ∀ i p, (i, some p) ∈ (s.objs a).procs → p ∉ s.live
  single : ∀ a, (s.objs a).multi = false → (s.objs a).procs.length ≤ 1
  fresh : ∀ a, s.next ≤ a → (s.objs a).state = .before ∧ (s.objs a).procs = []
  keys : (s.engines.map (·.1)).Nodup

theorem Wf.update {c : Cfg} {s : St} (h : Wf s) : Wf (update c s) := by
  unfold Cluster.update
  split
  · exact { h with }
  · exact h

theorem spawnable_spec {c : Cfg} {s : St} {ps : List Nat} (h : spawnable c s ps = true) :
    (∀ p ∈ ps, p ∉ s.seen ∧ c.pid p ∉ s.live.map c.pid) ∧ (ps.map c.pid).Nodup ∧ ps.Nodup := by
  unfold spawnable at h
  simp only [Bool.and_eq_true, List.all_eq_true, decide_eq_true_eq] at h
  exact ⟨h.1.1, h.1.2, h.2⟩

theorem zip_range_mem {ps : List Nat} {i : Nat} {o : Option Nat} {k : Nat} (h : (i, o) ∈ ((List.range k).zip (ps.map some))) : ∃ p ∈ ps, o = some p := by
  have := (List.of_mem_zip h).2
  obtain ⟨p, hp, rfl⟩ := List.mem_map.1 this
  exact ⟨p, hp, rfl⟩

theorem startLauncher_procs {n : Nat} {ps : List Nat} {ok : Bool} {l : Launcher} {i p : Nat} (h : (i, some p) ∈ (startLauncher n ps ok l).procs) : p ∈ ps := by
  unfold startLauncher at h
  split at h
  · simp only [List.mem_append] at h
    rcases h with h | h
    · obtain ⟨q, hq, he⟩ := zip_range_mem h
      cases he; exact hq
    · split at h
      · exact absurd h (by simp)
      · simp at h
  · simp only [List.mem_map] at h
    obtain ⟨q, hq, he⟩ := h
    cases he; exact hq

/-- the processes that are new in a start are known and alive afterwards -/
theorem Wf.spawn {s : St} (h : Wf s) {ps : List Nat} (hp : ∀ p ∈ ps, p ∉ s.seen) : Wf (spawn ps s) := by
  refine { h with liveSeen := ?_, procSeen := ?_, afterDead := ?_ }
  · intro p hp'
    simp only [Cluster.spawn, List.mem_append] at hp' ⊢
    rcases hp' with h' | h'
    · exact .inl (h.liveSeen p h')
    · exact .inr h'
  · intro a i p hm
    simp only [Cluster.spawn, List.mem_append]
    exact .inl (h.procSeen a i p hm)
  · intro a ha i p hm hc
    simp only [Cluster.spawn, List.mem_append] at hc
    rcases hc with hc | hc
    · exact h.afterDead a ha i p hm hc
    · exact hp p hc (h.procSeen a i p hm)

/-- replacing one launcher -/
theorem Wf.setObj {s : St} (h : Wf s) {a : Nat} {l : Launcher}
    (h1 : ∀ i p, (i, some p) ∈ l.procs → p ∈ s.seen) (h2 : a ∈ s.pending → l.state = .before ∧ l.procs = [])
    (h3 : l.state = .running → l.watched = true) (h4 : l.watched = false → l.procs = [] ∨ (l.multi = true ∧ ∃ k, (k, none) ∈ l.procs))
    (h5 : l.state = .after → ∀ i p, (i, some p) ∈ l.procs → p ∉ s.live) (h6 : l.multi = false → l.procs.length ≤ 1) (h7 : a < s.next) : Wf { s with objs := setObj s.objs a l } := by
  refine { h with procSeen := ?_, pend := ?_, runWatched := ?_, unwatched := ?_, afterDead := ?_, single := ?_, fresh := ?_ }
  · intro b i p hm
    simp only [Cluster.setObj] at hm
    split at hm
    · exact h1 i p hm
    · exact h.procSeen b i p hm
  · intro b hb
    simp only [Cluster.setObj]
    split
    · rename_i he; exact h2 (he ▸ hb)
    · exact h.pend b hb
  · intro b hb
    simp only [Cluster.setObj] at hb ⊢
    split at hb
    · simp_all
    · simp_all [h.runWatched b]
  · intro b hb
    simp only [Cluster.setObj] at hb ⊢
    split at hb
    · simp_all
    · rename_i hne; simp only [if_neg hne]; exact h.unwatched b hb
  · intro b hb i p hm
    simp only [Cluster.setObj] at hb hm
    split at hb
    · rename_i he; simp only [if_pos he] at hm; exact h5 hb i p hm
    · rename_i he; simp only [if_neg he] at hm; exact h.afterDead b hb i p hm
  · intro b hb
    simp only [Cluster.setObj] at hb ⊢
    split at hb
    · rename_i he; simp only [if_pos he]; exact h6 hb
    · rename_i he; simp only [if_neg he]; exact h.single b hb
  · intro b hb
    have hb' : s.next ≤ b := hb
    simp only [Cluster.setObj]
    rw [if_neg (by omega)]
    exact h.fresh b hb

theorem Wf.alloc {s : St} (h : Wf s) : Wf { s with next := s.next + 1 } :=
  { h with
    ltEng := fun e he => Nat.lt_succ_of_lt (h.ltEng e he)
    ltCtl := fun a ha => Nat.lt_succ_of_lt (h.ltCtl a ha)
    ltPend := fun a ha => Nat.lt_succ_of_lt (h.ltPend a ha)
    fresh := fun a ha => h.fresh a (by simp only at ha; omega) }

theorem noticed_procs {i p : Nat} {l : Launcher} {e : Nat × Option Nat} (h : e ∈ (noticed i p l).procs) : e ∈ l.procs := by
  unfold noticed at h
  split at h
  · exact (List.mem_filter.1 h).1
  · exact h

theorem dpop_sub {k : String} {d : List (String × Nat)} {e : String × Nat} (h : e ∈ dpop k d) : e ∈ d := (mem_dpop.1 h).1

theorem Wf.step {c : Cfg} {s : St} (h : Wf s) (e : Ev) : Wf (step c s e) := by
  cases e with
  | startCtl r =>
    simp only [Cluster.step]
    split
    · exact h
    · cases r with
      | none =>
        have := h.alloc.setObj (a := s.next) (l := { watched := true }) (by simp) (by intro hp; exact absurd (h.ltPend _ hp) (by omega)) (by simp) (by simp) (by simp) (by simp)
          (Nat.lt_succ_self _)
        exact { this with ltCtl := fun a ha => by cases ha; exact Nat.lt_succ_self _ }
      | some p =>
        simp only
        split
        · rename_i hs
          have hsp := (spawnable_spec hs).1
          have h0 := h.spawn (ps := [p]) (fun q hq => (hsp q hq).1)
          have := h0.alloc.setObj (a := s.next) (l := { state := .running, procs := [(0, some p)], watched := true })
            (by intro i q hm; simp only [List.mem_singleton, Prod.mk.injEq, Option.some.injEq] at hm; simp [Cluster.spawn, hm.2])
            (by intro hp; exact absurd (h.ltPend _ hp) (by omega)) (by simp) (by simp) (by simp) (by simp) (Nat.lt_succ_self _)
          refine Wf.update ?_
          exact { this with ltCtl := fun a ha => by cases ha; exact Nat.lt_succ_self _ }
        · exact h
  | createSet id t =>
    simp only [Cluster.step]
    have := h.alloc.setObj (a := s.next) (l := { multi := c.multi }) (by simp) (by simp) (by simp) (by simp) (by simp) (by simp) (Nat.lt_succ_self _)
    refine { this with ltEng := ?_, ltPend := ?_, pend := ?_, keys := dset_nodup h.keys }
    · intro e he
      rcases mem_dset he with he | ⟨he, _⟩
      · subst he; exact Nat.lt_succ_self _
      · exact Nat.lt_succ_of_lt (h.ltEng e he)
    · intro a ha
      simp only [List.mem_append, List.mem_singleton] at ha
      rcases ha with ha | ha
      · exact Nat.lt_succ_of_lt (h.ltPend a ha)
      · subst ha; exact Nat.lt_succ_self _
    · intro a ha
      simp only [List.mem_append, List.mem_singleton] at ha
      simp only [Cluster.setObj]
      split
      · exact ⟨rfl, rfl⟩
      · rcases ha with ha | ha
        · exact h.pend a ha
        · contradiction
  | startSet a n ps ok =>
    simp only [Cluster.step]
    split
    · rename_i hc
      obtain ⟨hpend, hs, hcount⟩ := hc
      have hsp := (spawnable_spec hs).1
      have hp := h.pend a hpend
      have h0 : Wf { s with pending := s.pending.filter (· ≠ a) } :=
        { h with ltPend := fun b hb => h.ltPend b (List.mem_filter.1 hb).1, pend := fun b hb => h.pend b (List.mem_filter.1 hb).1 }
      have h1 := h0.spawn (ps := ps) (fun q hq => (hsp q hq).1)
      have h2 := h1.setObj (a := a) (l := startLauncher n ps ok (s.objs a))
        (by intro i q hm; simp only [Cluster.spawn, List.mem_append]; exact .inr (startLauncher_procs hm))
        (by intro hb; simp [Cluster.spawn] at hb)
        (by unfold startLauncher; cases ok <;> cases hm : (s.objs a).multi <;> simp [hp.1])
        (by
          unfold startLauncher
          cases ok
          · intro _
            cases hm : (s.objs a).multi
            · simp only [startCount, hm] at hcount
              simp at hcount
              simp [hcount]
            · right; simp only [if_true]; exact ⟨by simp, ps.length, by simp⟩
          · cases hm : (s.objs a).multi <;> simp)
        (by unfold startLauncher; cases ok <;> cases hm : (s.objs a).multi <;> simp [hp.1])
        (by
          intro hm
          have hm' : (s.objs a).multi = false := by unfold startLauncher at hm; split at hm <;> exact hm
          unfold startLauncher
          simp only [hm', startCount] at hcount ⊢
          cases ok <;> simp at hcount <;> simp [hcount])
        (h.ltPend a hpend)
      cases ok
      · exact h2
      · exact Wf.update h2
    · exact h
  | abandon a =>
    exact { h with ltPend := fun b hb => h.ltPend b (List.mem_filter.1 hb).1, pend := fun b hb => h.pend b (List.mem_filter.1 hb).1 }
  | exit p =>
    exact { h with
      liveSeen := fun q hq => h.liveSeen q (List.mem_filter.1 hq).1
      afterDead := fun a ha i q hm hq => h.afterDead a ha i q hm (List.mem_filter.1 hq).1 }
  | other p =>
    simp only [Cluster.step]
    split
    · rename_i hs
      have := h.spawn (ps := [p]) (fun q hq => ((spawnable_spec hs).1 q hq).1)
      exact { this with }
    · exact h
  | notice a i =>
    simp only [Cluster.step]
    split
    · rename_i j p hf
      split
      · exact h
      · rename_i hl
        simp only [not_or] at hl
        have hmem : (j, some p) ∈ (s.objs a).procs := List.mem_of_find?_eq_some hf
        have hji : j = i := by have := List.find?_some hf; simpa using this
        subst hji
        have hpn : a ∉ s.pending := fun hp => by rw [(h.pend a hp).2] at hmem; exact absurd hmem (by simp)
        have hw := h.setObj (a := a) (l := noticed j p (s.objs a))
          (fun k q hm => h.procSeen a k q (noticed_procs hm)) (fun hp => absurd hp hpn)
          (by
            intro hr
            unfold noticed at hr ⊢
            split at hr
            · rename_i hm
              simp only [hm, if_true]
              split at hr
              · cases hr
              · exact h.runWatched a hr
            · cases hr)
          (by
            intro hwf
            have hwf' : (s.objs a).watched = false := by unfold noticed at hwf; split at hwf <;> exact hwf
            rcases h.unwatched a hwf' with hu | ⟨hm, k, hk⟩
            · rw [hu] at hmem; exact absurd hmem (by simp)
            · right
              unfold noticed
              simp only [hm, if_true, true_and]
              exact ⟨k, List.mem_filter.2 ⟨hk, by simp⟩⟩)
          (by
            intro hr k q hm
            unfold noticed at hr hm
            split at hr
            · rename_i hmu
              simp only [hmu, if_true] at hm
              split at hr
              · rename_i he; rw [he] at hm; exact absurd hm (by simp)
              · exact absurd hr hl.2
            · rename_i hmu
              simp only [hmu] at hm
              have hs := h.single a (by simpa using hmu)
              have : (k, some q) = (j, some p) := by
                match hps : (s.objs a).procs, hs with
                | [], _ => rw [hps] at hmem; exact absurd hmem (by simp)
                | [x], _ =>
                  rw [hps] at hmem
                  have h2 : (k, some q) ∈ (s.objs a).procs := hm
                  rw [hps] at h2
                  rw [List.mem_singleton.1 hmem, List.mem_singleton.1 h2]
              cases this
              exact hl.1)
          (by
            intro hm
            have hm' : (s.objs a).multi = false := by unfold noticed at hm; split at hm <;> exact hm
            unfold noticed
            simp only [hm']
            exact h.single a hm')
          (by
            rcases Nat.lt_or_ge a s.next with hlt | hge
            · exact hlt
            · rw [(h.fresh a hge).2] at hmem; exact absurd hmem (by simp))
        split
        · exact Wf.update hw
        · exact hw
    · exact h
  | stopBegin id =>
    simp only [Cluster.step]
    split
    · exact { h with }
    · exact h
  | stopEnd k =>
    simp only [Cluster.step]
    split
    · split
      · split
        · refine Wf.update ?_
          exact { h with ltEng := fun e he => h.ltEng e (dpop_sub he), keys := dpop_nodup h.keys }
        · exact { h with }
      · exact h
    · exact h
  | stopFail k => exact { h with }
  | stopCtlBegin =>
    simp only [Cluster.step]
    split
    · split
      · exact { h with }
      · exact Wf.update { h with ltCtl := by simp }
    · exact Wf.update { h with ltCtl := by simp }
  | stopCtlEnd k =>
    simp only [Cluster.step]
    split
    · split
      · exact Wf.update { h with ltCtl := by simp }
      · exact h
    · exact h
  | stopCtlFail k => exact { h with }

end IPP.Cluster
