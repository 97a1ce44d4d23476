import Verif.DB.Lemmas
/-!
# C33–C35: the in-memory database
-/
namespace IPP.DB

/-! ## invariants of every history -/

structure Inv (s : State) : Prop where
  uniq : Uniq s
  size : SizeOk s
  own : ∀ x ∈ s.records, x.2.get "msg_id" = .text x.1

theorem inv_init : Inv init := ⟨by simp [Uniq, init], by simp [SizeOk, realSize, init], by simp [init]⟩

theorem Inv.cull {s s' : State} (h : Inv s) (r : CullRel s s') : Inv s' := ⟨r.uniq, r.size, fun x hx => h.own x (r.oldest.1 x hx)⟩

theorem get_append (a b : Rec) (k : Key) : Rec.get (a ++ b) k = if ∃ kv ∈ a, kv.1 = k then Rec.get a k else Rec.get b k := by
  unfold Rec.get
  rw [List.find?_append]
  cases h : a.find? (fun kv => kv.1 = k) with
  | none =>
    rw [List.find?_eq_none] at h
    rw [if_neg]
    · simp
    · rintro ⟨kv, hm, e⟩; exact h kv hm (by simpa using e)
  | some x =>
    have h1 := List.mem_of_find?_eq_some h
    have h2 := List.find?_some h
    rw [if_pos ⟨x, h1, by simpa using h2⟩]
    simp

/-- the state right after a record was appended -/
theorem inv_append {s : State} (h : Inv s) {i : Id} {r : Rec} (hn : lookup s i = none) (ho : r.get "msg_id" = .text i) :
    Inv { s with records := s.records ++ [(i, r)], bytes := s.bytes + recBytes r } where
  uniq := by
    unfold Uniq
    rw [lookup_none] at hn
    simp only [List.map_append, List.map_cons, List.map_nil, List.nodup_append]
    refine ⟨h.uniq, by simp, ?_⟩
    intro a ha b hb
    simp only [List.mem_singleton] at hb
    subst hb
    rcases List.mem_map.1 ha with ⟨x, hx, rfl⟩
    exact hn x hx
  size := by
    have := h.size
    unfold SizeOk realSize at *
    simp [this]
  own := by
    intro x hx
    rcases List.mem_append.1 hx with hx | hx
    · exact h.own x hx
    · simp only [List.mem_singleton] at hx
      subst hx; exact ho

theorem uniq_map {l : List (Id × Rec)} {i : Id} {r : Rec} : (l.map (fun x => if x.1 = i then (i, r) else x)).map Prod.fst = l.map Prod.fst := by
  rw [List.map_map]
  apply List.map_congr_left
  intro x _
  by_cases h : x.1 = i <;> simp [h]

theorem sum_map_replace {l : List (Id × Rec)} (hu : (l.map Prod.fst).Nodup) {i : Id} {old r : Rec} (h : (i, old) ∈ l) :
    ((l.map (fun x => if x.1 = i then (i, r) else x)).map (fun x => recBytes x.2)).sum + recBytes old = (l.map (fun x => recBytes x.2)).sum + recBytes r := by
  induction l with
  | nil => cases h
  | cons a l ih =>
    simp only [List.map_cons, List.nodup_cons] at hu
    rcases List.mem_cons.1 h with rfl | h
    · have : l.map (fun x => if x.1 = i then (i, r) else x) = l.map id := by
        apply List.map_congr_left
        intro x hx
        have : x.1 ≠ i := by rintro rfl; exact hu.1 (List.mem_map.2 ⟨_, hx, rfl⟩)
        simp [this]
      rw [List.map_cons, this, List.map_id]
      simp
      omega
    · have hne : a.1 ≠ i := by rintro rfl; exact hu.1 (List.mem_map.2 ⟨_, h, rfl⟩)
      have := ih hu.2 h
      rw [List.map_cons, if_neg hne, List.map_cons, List.sum_cons, List.map_cons, List.sum_cons]
      omega

theorem inv_replace {s : State} (h : Inv s) {i : Id} {old r : Rec} (hn : lookup s i = some old) (ho : r.get "msg_id" = .text i) :
    Inv { s with records := s.records.map (fun x => if x.1 = i then (i, r) else x), bytes := s.bytes - recBytes old + recBytes r } where
  uniq := by
    have := h.uniq
    unfold Uniq at *
    rw [uniq_map]; exact this
  size := by
    have h1 := h.size
    have h2 := sum_map_replace (r := r) h.uniq (lookup_mem hn)
    unfold SizeOk realSize at *
    simp only
    omega
  own := by
    intro x hx
    rcases List.mem_map.1 hx with ⟨y, hy, rfl⟩
    by_cases e : y.1 = i
    · simp [e, ho]
    · simp [e]; exact h.own y hy

theorem matchAll_eq {check : Check} {l ms : List (Id × Rec)} (h : matchAll check l = some ms) :
    ms = l.filter (fun x => matchOne (lastPlain check) x.2 check = some true) ∧ ∀ x ∈ l, (matchOne (lastPlain check) x.2 check).isSome := by
  induction l generalizing ms with
  | nil => simp [matchAll] at h; subst h; simp
  | cons a l ih =>
    rcases a with ⟨i, r⟩
    unfold matchAll at h
    cases e : matchOne (lastPlain check) r check with
    | none => simp [e] at h
    | some b =>
      simp only [e] at h
      cases e2 : matchAll check l with
      | none => simp [e2] at h
      | some ms' =>
        simp only [e2, Option.some.injEq] at h
        have := ih e2
        subst h
        constructor
        · rw [this.1]
          cases b <;> simp [e]
        · intro x hx
          rcases List.mem_cons.1 hx with rfl | hx
          · simp [e]
          · exact this.2 x hx

theorem dropAll_ok {s : State} (h : Inv s) : ∀ (ms : List (Id × Rec)), (ms.map Prod.fst).Nodup → (∀ x ∈ ms, x ∈ s.records) →
    (dropAll s ms).2 = .ok ∧ Inv (dropAll s ms).1 ∧ (dropAll s ms).1.records = s.records.filter (fun x => x.1 ∉ ms.map Prod.fst) ∧
      (dropAll s ms).1.culled = s.culled := by
  intro ms
  induction ms generalizing s with
  | nil =>
    intro _ _
    exact ⟨rfl, h, (List.filter_eq_self.2 (by simp)).symm, rfl⟩
  | cons a ms ih =>
    rcases a with ⟨i, r⟩
    intro hn hm
    simp only [List.map_cons, List.nodup_cons] at hn
    have hi := hm (i, r) (List.mem_cons_self ..)
    have ho := h.own _ hi
    simp only at ho
    have hl := lookup_of_mem h.uniq hi
    unfold dropAll
    simp only [ho, hl, Option.isSome_some, if_true]
    have hz := size_erase h.uniq h.size i
    have heq : ({ s with records := s.records.filter (fun x => x.1 ≠ i), bytes := s.bytes - recBytes r } : State) = erase s i := by
      simp [erase, hl]
    rw [heq]
    have hInv : Inv (erase s i) := by
      refine ⟨uniq_erase h.uniq i, hz, ?_⟩
      intro x hx
      rw [erase_records] at hx
      exact h.own x (List.mem_filter.1 hx).1
    have := ih hInv hn.2 (by
      intro x hx
      rw [erase_records]
      refine List.mem_filter.2 ⟨hm x (List.mem_cons_of_mem _ hx), ?_⟩
      simp only [decide_eq_true_eq]
      rintro rfl
      exact hn.1 (List.mem_map.2 ⟨_, hx, rfl⟩))
    refine ⟨this.1, this.2.1, ?_, by rw [this.2.2.2, erase_culled]⟩
    rw [this.2.2.1, erase_records, List.filter_filter]
    apply List.filter_congr
    intro x _
    by_cases h : x.1 = i <;> by_cases h2 : x.1 ∈ ms.map Prod.fst <;> simp [h, h2]
    all_goals simp_all

theorem lookup_append {s : State} {i j : Id} {r : Rec} (hn : lookup s i = none) (b : Int) :
    lookup { s with records := s.records ++ [(i, r)], bytes := b } j = if j = i then some r else lookup s j := by
  unfold lookup at *
  simp only [List.find?_append]
  by_cases e : j = i
  · subst e
    rw [Option.map_eq_none_iff] at hn
    simp [hn]
  · have : ¬ i = j := fun h => e h.symm
    simp [e, this]

theorem lookup_replace {s : State} {i j : Id} {r old : Rec} (hn : lookup s i = some old) (b : Int) :
    lookup { s with records := s.records.map (fun x => if x.1 = i then (i, r) else x), bytes := b } j = if j = i then some r else lookup s j := by
  unfold lookup at *
  simp only
  generalize s.records = l at *
  clear b
  induction l with
  | nil => simp at hn
  | cons a l ih =>
    by_cases ha : a.1 = i
    · by_cases e : j = i
      · subst e; simp [ha]
      · have h1 : ¬ i = j := fun h => e h.symm
        have h2 : ¬ a.1 = j := by rw [ha]; exact h1
        simp only [List.map_cons, ha, if_true]
        rw [List.find?_cons_of_neg (by simpa using h1), List.find?_cons_of_neg (by simpa using h2), if_neg e]
        clear ih hn
        induction l with
        | nil => rfl
        | cons c l ih =>
          by_cases hc : c.1 = i
          · have h3 : ¬ c.1 = j := by rw [hc]; exact h1
            simp only [List.map_cons, hc, if_true]
            rw [List.find?_cons_of_neg (by simpa using h1), List.find?_cons_of_neg (by simpa using h3)]
            exact ih
          · simp only [List.map_cons, hc, if_false]
            by_cases h4 : c.1 = j
            · rw [List.find?_cons_of_pos (by simpa using h4), List.find?_cons_of_pos (by simpa using h4)]
            · rw [List.find?_cons_of_neg (by simpa using h4), List.find?_cons_of_neg (by simpa using h4)]
              exact ih
    · rw [List.find?_cons_of_neg (by simpa using ha)] at hn
      simp only [List.map_cons, ha, if_false]
      by_cases h4 : a.1 = j
      · have e : ¬ j = i := by rw [← h4]; exact ha
        rw [List.find?_cons_of_pos (by simpa using h4), List.find?_cons_of_pos (by simpa using h4), if_neg e]
      · rw [List.find?_cons_of_neg (by simpa using h4), List.find?_cons_of_neg (by simpa using h4)]
        exact ih hn

/-- the calls that a step makes, as relations -/
inductive StepRel (c : Cfg) (s : State) : Op → State → Res → Prop
  | raise (op : Op) (r : Res) (h : r.raised = true) : StepRel c s op s r
  | add (i : Id) (r : Rec) (s' : State) (res : Res) (hn : lookup s i = none) (hr : res.raised = false)
      (hc : ∀ s1 : State, s1 = { s with records := s.records ++ [(i, r)], bytes := s.bytes + recBytes r } → Inv s1 →
        (res = .ok → s' = (maybeCull c (maybeCull c s1).1).1 ∧ (maybeCull c s1).2 = false ∧ (maybeCull c (maybeCull c s1).1).2 = false) ∧
        (res ≠ .ok → (maybeCull c s1).2 = true ∨ (maybeCull c (maybeCull c s1).1).2 = true) ∧ CullRel s1 s') : StepRel c s (.add i r) s' res
  | update (i : Id) (old new : Rec) (s' : State) (res : Res) (hn : lookup s i = some old) (hcul : i ∉ s.culled) (hr : res.raised = false)
      (hc : ∀ s1 : State, s1 = { s with records := s.records.map (fun x => if x.1 = i then (i, old.update new) else x), bytes := s.bytes - recBytes old + recBytes (old.update new) } →
        Inv s1 → (res = .ok → s' = (maybeCull c s1).1 ∧ (maybeCull c s1).2 = false) ∧ (res ≠ .ok → (maybeCull c s1).2 = true) ∧ CullRel s1 s') :
      StepRel c s (.update i new) s' res
  | drop (i : Id) (r : Rec) (hn : lookup s i = some r) : StepRel c s (.drop i) (erase s i) .ok
  | dropM (check : Check) (ms : List (Id × Rec)) (h : matchAll check s.records = some ms) :
      StepRel c s (.dropMatching check) (dropAll s ms).1 (dropAll s ms).2

theorem step_rel (c : Cfg) (s : State) (op : Op) : StepRel c s op (step c s op).1 (step c s op).2 := by
  cases op with
  | add i r =>
    unfold step
    simp only
    split
    · exact .raise _ _ rfl
    · rename_i hl
      split
      · exact .raise _ _ rfl
      · have hn : lookup s i = none := by
          cases e : lookup s i with
          | none => rfl
          | some r => simp [e] at hl
        generalize hs1 : ({ s with records := s.records ++ [(i, r)], bytes := s.bytes + recBytes r } : State) = s1
        rcases e1 : maybeCull c s1 with ⟨s2, b⟩
        cases b with
        | true =>
          refine .add i r _ _ hn rfl ?_
          rintro _ rfl hI
          rw [hs1] at hI ⊢
          have := cullRel_maybe c hI.uniq hI.size
          rw [e1] at this
          exact ⟨by simp, by simp [e1], this⟩
        | false =>
          simp only
          rcases e2 : maybeCull c s2 with ⟨s3, b⟩
          have main : ∀ hI : Inv s1, CullRel s1 s3 := by
            intro hI
            have r1 := cullRel_maybe c hI.uniq hI.size
            rw [e1] at r1
            have r2 := cullRel_maybe c r1.uniq r1.size
            rw [e2] at r2
            exact cullRel_trans r1 r2
          cases b with
          | true =>
            refine .add i r _ _ hn rfl ?_
            rintro _ rfl hI
            rw [hs1] at hI ⊢
            refine ⟨by simp, ?_, main hI⟩
            intro _; right; rw [e1, e2]
          | false =>
            refine .add i r _ _ hn rfl ?_
            rintro _ rfl hI
            rw [hs1] at hI ⊢
            refine ⟨?_, by simp, main hI⟩
            intro _; rw [e1, e2]; exact ⟨rfl, rfl, rfl⟩
  | update i new =>
    unfold step
    simp only
    split
    · exact .raise _ _ rfl
    · rename_i hcul
      split
      · exact .raise _ _ rfl
      · cases hn : lookup s i with
        | none => exact .raise _ _ rfl
        | some old =>
          simp only
          generalize hs1 : ({ s with records := s.records.map (fun x => if x.1 = i then (i, old.update new) else x), bytes := s.bytes - recBytes old + recBytes (old.update new) } : State) = s1
          rcases e1 : maybeCull c s1 with ⟨s2, b⟩
          have main : ∀ hI : Inv s1, CullRel s1 s2 := by
            intro hI
            have r1 := cullRel_maybe c hI.uniq hI.size
            rw [e1] at r1
            exact r1
          cases b with
          | true =>
            refine .update i old new _ _ hn hcul rfl ?_
            rintro _ rfl hI
            rw [hs1] at hI ⊢
            exact ⟨by simp, by simp [e1], main hI⟩
          | false =>
            refine .update i old new _ _ hn hcul rfl ?_
            rintro _ rfl hI
            rw [hs1] at hI ⊢
            refine ⟨?_, by simp, main hI⟩
            intro _; rw [e1]; exact ⟨rfl, rfl⟩
  | drop i =>
    unfold step
    simp only
    cases hn : lookup s i with
    | none => exact .raise _ _ rfl
    | some r => exact .drop i r hn
  | dropMatching check =>
    unfold step
    simp only
    cases h : matchAll check s.records with
    | none => exact .raise _ _ rfl
    | some ms => exact .dropM check ms h

theorem own_update {i : Id} {old new : Rec} (ho : Rec.get old "msg_id" = .text i)
    (h : Rec.get new "msg_id" = .text i ∨ ∀ kv ∈ new, kv.1 ≠ "msg_id") : (old.update new).get "msg_id" = .text i := by
  unfold Rec.update
  rw [get_append]
  split
  · rename_i hk
    rcases h with h | h
    · exact h
    · rcases hk with ⟨kv, hm, e⟩; exact absurd e (h kv hm)
  · exact ho

/-- C33/C35 common invariant: after any call -/
theorem inv_step {c : Cfg} {s s' : State} {op : Op} {res : Res} (h : Inv s) (ho : op.Own) (r : StepRel c s op s' res) : Inv s' := by
  cases r with
  | raise => exact h
  | add i r _ _ hn hr hc =>
    have h1 := inv_append h hn ho
    exact h1.cull (hc _ rfl h1).2.2
  | update i old new _ _ hn hcul hr hc =>
    have h1 := inv_replace (r := old.update new) h hn (own_update (h.own _ (lookup_mem hn)) ho)
    exact h1.cull (hc _ rfl h1).2.2
  | drop i r hn =>
    refine ⟨uniq_erase h.uniq i, size_erase h.uniq h.size i, ?_⟩
    intro x hx
    rw [erase_records] at hx
    exact h.own x (List.mem_filter.1 hx).1
  | dropM check ms hm =>
    have hf := (matchAll_eq hm).1
    refine (dropAll_ok h ms ?_ ?_).2.1
    · rw [hf]; exact h.uniq.sublist ((List.filter_sublist).map _)
    · rw [hf]; intro x hx; exact (List.mem_filter.1 hx).1

/-- agreement with the plain map, except for evicted ids -/
def Agree (s : State) (m : Id → Option Rec) : Prop := ∀ i, i ∉ s.culled → lookup s i = m i

theorem agree_step {c : Cfg} {s s' : State} {op : Op} {res : Res} {m : Id → Option Rec} (h : Inv s) (ho : op.Own) (r : StepRel c s op s' res)
    (ha : Agree s m) : Agree s' (mapStep m op res.raised) := by
  cases r with
  | raise _ _ hr => intro i hi; simp only [mapStep, hr, if_true]; exact ha i hi
  | add i r _ _ hn hr hc =>
    have h1 := inv_append h hn ho
    have hcr := (hc _ rfl h1).2.2
    intro j hj
    have := hcr.look j hj
    rw [this.2, lookup_append hn]
    simp only [mapStep, hr]
    by_cases e : j = i
    · simp [e]
    · simp [e]; exact ha j this.1
  | update i old new _ _ hn hcul hr hc =>
    have h1 := inv_replace (r := old.update new) h hn (own_update (h.own _ (lookup_mem hn)) ho)
    have hcr := (hc _ rfl h1).2.2
    intro j hj
    have := hcr.look j hj
    rw [this.2, lookup_replace hn]
    simp only [mapStep, hr]
    by_cases e : j = i
    · subst e
      have := ha j hcul
      simp [← this, hn, Rec.update]
    · simp [e]; exact ha j this.1
  | drop i r hn =>
    intro j hj
    rw [erase_culled] at hj
    rw [lookup_filter h.uniq _ (erase_records s i)]
    simp only [mapStep, Res.raised]
    rw [← ha j hj]
    by_cases e : j = i
    · subst e; cases lookup s j <;> simp
    · cases lookup s j <;> simp [e]
  | dropM check ms hm =>
    have hf := (matchAll_eq hm).1
    have hd := dropAll_ok h ms (by rw [hf]; exact h.uniq.sublist ((List.filter_sublist).map _))
      (by rw [hf]; intro x hx; exact (List.mem_filter.1 hx).1)
    intro j hj
    rw [hd.2.2.2] at hj
    rw [lookup_filter h.uniq _ hd.2.2.1, hd.1]
    simp only [mapStep, Res.raised]
    rw [← ha j hj]
    cases e : lookup s j with
    | none => simp
    | some r =>
      have hmem : j ∈ ms.map Prod.fst ↔ matchOne (lastPlain check) r check = some true := by
        rw [hf]
        constructor
        · intro hx
          rcases List.mem_map.1 hx with ⟨⟨j', r'⟩, hy, rfl⟩
          rw [List.mem_filter] at hy
          have := lookup_of_mem h.uniq hy.1
          simp only at e
          rw [e] at this; cases this
          simpa using hy.2
        · intro hx
          exact List.mem_map.2 ⟨(j, r), List.mem_filter.2 ⟨lookup_mem e, by simpa using hx⟩, rfl⟩
      simp only [Option.filter_some, hmem]
      by_cases hx : matchOne (lastPlain check) r check = some true <;> simp [hx]

/-! ## C33 -/

theorem both_inv (c : Cfg) (ops : List Op) (ho : ∀ op ∈ ops, op.Own) : Inv (both c ops).1 ∧ Agree (both c ops).1 (both c ops).2 := by
  unfold both
  have gen : ∀ (ops : List Op), (∀ op ∈ ops, op.Own) → ∀ sm : State × (Id → Option Rec), Inv sm.1 → Agree sm.1 sm.2 →
      Inv (ops.foldl (fun sm op => ((step c sm.1 op).1, mapStep sm.2 op (step c sm.1 op).2.raised)) sm).1 ∧
      Agree (ops.foldl (fun sm op => ((step c sm.1 op).1, mapStep sm.2 op (step c sm.1 op).2.raised)) sm).1
        (ops.foldl (fun sm op => ((step c sm.1 op).1, mapStep sm.2 op (step c sm.1 op).2.raised)) sm).2 := by
    intro ops
    induction ops with
    | nil => intro _ sm h1 h2; exact ⟨h1, h2⟩
    | cons op ops ih =>
      intro ho sm h1 h2
      have o := ho op (List.mem_cons_self ..)
      exact ih (fun o h => ho o (List.mem_cons_of_mem _ h)) _ (inv_step h1 o (step_rel c sm.1 op)) (agree_step h1 o (step_rel c sm.1 op) h2)
  exact gen ops ho _ inv_init (by intro i _; rfl)

theorem both_fst (c : Cfg) (ops : List Op) : (both c ops).1 = run c ops := by
  unfold both run
  generalize (fun _ => none : Id → Option Rec) = m
  generalize init = s
  induction ops generalizing s m with
  | nil => rfl
  | cons op ops ih => exact ih _ _

/-- **C33** After any history of calls, reading an id that was not evicted gives exactly what a plain map would: the record last added under this id with all later
updates merged over it, or KeyError if there is none. -/
theorem get_like_map (c : Cfg) (ops : List Op) (ho : ∀ op ∈ ops, op.Own) (i : Id) (hi : i ∉ (run c ops).culled) :
    get (run c ops) i = (both c ops).2 i := by
  have := (both_inv c ops ho).2 i
  rw [both_fst] at this
  simp [get, hi, this hi]

/-- An evicted id reads as KeyError (never as stale data). -/
theorem get_culled (c : Cfg) (ops : List Op) (i : Id) (hi : i ∈ (run c ops).culled) : get (run c ops) i = none := by
  simp [get, hi]

/-- **C33 (errors)** Which calls raise. -/
theorem add_raises_iff (c : Cfg) (s : State) (i : Id) (r : Rec) : (step c s (.add i r)).2.raised = true ↔ (lookup s i).isSome ∨ datesOk r = false := by
  unfold step
  simp only
  split
  · rename_i h; simp [Res.raised, h]
  · rename_i h
    split
    · rename_i h2; simp only [Bool.not_eq_true] at h2; simp [Res.raised, h2]
    · rename_i h2
      simp only [Bool.not_eq_true, Bool.not_eq_false] at h2
      have h3 : ((lookup s i).isSome = true ∨ datesOk r = false) ↔ False := by
        simp [h2]
        cases e : lookup s i <;> simp_all
      rw [h3]
      split
      · simp [Res.raised]
      · split <;> simp [Res.raised]

theorem update_raises_iff (c : Cfg) (s : State) (i : Id) (r : Rec) :
    (step c s (.update i r)).2.raised = true ↔ get s i = none ∨ datesOk r = false := by
  unfold step get
  simp only
  split
  · simp [Res.raised]
  · split
    · rename_i h2; simp only [Bool.not_eq_true] at h2; simp [Res.raised, h2]
    · rename_i h2
      simp only [Bool.not_eq_true, Bool.not_eq_false] at h2
      cases e : lookup s i with
      | none => simp [Res.raised]
      | some old =>
        simp only
        split <;> simp [Res.raised, h2]

theorem drop_raises_iff (c : Cfg) (s : State) (i : Id) : (step c s (.drop i)).2.raised = true ↔ lookup s i = none := by
  unfold step
  simp only
  cases e : lookup s i <;> simp [Res.raised]

/-- a history used as an example: limits of 2 records / 100 bytes -/
def exCfg : Cfg := { recordLimit := 2, toCull := 1, sizeLimit := 100, sizeTarget := 90 }
def exRec (i : Id) (t : Int) (n : Nat) : Rec := [("msg_id", .text i), ("submitted", .date t), ("buffers", .bufs [n]), ("completed", .null)]
def exOps : List Op :=
  [.add "a" (exRec "a" 1 10), .add "b" (exRec "b" 2 20), .update "a" [("completed", .date 5), ("result_buffers", .bufs [7])], .add "c" (exRec "c" 3 30),
   .update "b" [("completed", .date 6)], .drop "x"]

example : (∀ op ∈ exOps, op.Own) ∧ (∀ op ∈ exOps, op.Stamped) := by
  refine ⟨?_, ?_⟩ <;> intro op h <;> simp only [exOps, List.mem_cons, List.not_mem_nil, or_false] at h <;>
    rcases h with rfl | rfl | rfl | rfl | rfl | rfl <;> simp [Op.Own, Op.Stamped, exRec, Rec.get]

example : (run exCfg exOps).culled = ["a"] ∧ ((get (run exCfg exOps) "b").map (fun r => Rec.get r "completed")) = some (.date 6) ∧
    get (run exCfg exOps) "a" = none ∧ (run exCfg exOps).bytes = 50 := by decide

/-! ## C35 -/

theorem run_inv (c : Cfg) (ops : List Op) (ho : ∀ op ∈ ops, op.Own) : Inv (run c ops) := by
  have := (both_inv c ops ho).1
  rwa [both_fst] at this

/-- **C35 (accounting)** The accounted size is the real size of the stored buffers, after every history. -/
theorem bytes_exact (c : Cfg) (ops : List Op) (ho : ∀ op ∈ ops, op.Own) : (run c ops).bytes = realSize (run c ops) := (run_inv c ops ho).size

theorem stamped_append {s : State} (h : AllStamped s) {i : Id} {r : Rec} (hr : ∃ d, r.get "submitted" = .date d) (b : Int) :
    AllStamped { s with records := s.records ++ [(i, r)], bytes := b } := by
  intro x hx
  rcases List.mem_append.1 hx with hx | hx
  · exact h x hx
  · simp only [List.mem_singleton] at hx
    subst hx
    rcases hr with ⟨d, hd⟩
    simp [submitted, hd]

theorem stamped_replace {s : State} (h : AllStamped s) {i : Id} {old new : Rec} (hl : lookup s i = some old)
    (hr : (∃ d, new.get "submitted" = .date d) ∨ ∀ kv ∈ new, kv.1 ≠ "submitted") (b : Int) :
    AllStamped { s with records := s.records.map (fun x => if x.1 = i then (i, old.update new) else x), bytes := b } := by
  intro x hx
  rcases List.mem_map.1 hx with ⟨y, hy, rfl⟩
  by_cases e : y.1 = i
  · have ho := h _ (lookup_mem hl)
    simp only [e, if_true]
    have hg : (old.update new).get "submitted" = new.get "submitted" ∧ (∃ kv ∈ new, kv.1 = "submitted") ∨
        (old.update new).get "submitted" = old.get "submitted" := by
      unfold Rec.update
      rw [get_append]
      by_cases hk : ∃ kv ∈ new, kv.1 = "submitted"
      · rw [if_pos hk]; exact Or.inl ⟨rfl, hk⟩
      · rw [if_neg hk]; exact Or.inr rfl
    rcases hg with ⟨hg, hk⟩ | hg
    · rcases hr with ⟨d, hd⟩ | hr
      · simp [submitted, hg, hd]
      · rcases hk with ⟨kv, hm, e⟩; exact absurd e (hr kv hm)
    · simp only [submitted, hg]; exact ho
  · simp only [e, if_false]; exact h y hy

/-- limits are respected -/
structure Lim (c : Cfg) (s : State) : Prop where
  stamped : AllStamped s
  bytes : s.bytes ≤ c.sizeLimit
  count : 0 < c.toCull → s.records.length ≤ c.recordLimit

theorem lim_shrink {c : Cfg} {s s' : State} (h : Lim c s) (I' : SizeOk s') (Is : SizeOk s) (hsub : s'.records.Sublist s.records) : Lim c s' where
  stamped := fun x hx => h.stamped x (hsub.mem hx)
  bytes := by
    have h1 := h.bytes
    unfold SizeOk realSize at *
    have : ∀ {a b : List (Id × Rec)}, a.Sublist b → (a.map (fun x => recBytes x.2)).sum ≤ (b.map (fun x => recBytes x.2)).sum := by
      intro a b hs
      induction hs with
      | slnil => exact Nat.le_refl _
      | cons x _ ih => simp only [List.map_cons, List.sum_cons]; omega
      | cons_cons x _ ih => simp only [List.map_cons, List.sum_cons]; omega
    have := this hsub
    omega
  count := fun hc => Nat.le_trans hsub.length_le (h.count hc)

/-- after any call: it returns, and the limits hold -/
theorem lim_step {c : Cfg} (hc : c.Ok) {s s' : State} {op : Op} {res : Res} (h : Inv s) (hl : Lim c s) (ho : op.Own) (hst : op.Stamped)
    (r : StepRel c s op s' res) : Lim c s' ∧ res ≠ .hang := by
  cases r with
  | raise _ _ hr => exact ⟨hl, by rintro rfl; simp [Res.raised] at hr⟩
  | add i r _ _ hn hr hcc =>
    have h1 := inv_append h hn ho
    have hs := stamped_append (i := i) hl.stamped hst (s.bytes + recBytes r)
    have hh := hcc _ rfl h1
    have t1 := maybeCull_terminates hc h1.uniq h1.size hs
    have r1 := cullRel_maybe c h1.uniq h1.size
    have hs2 := stamped_of_oldest hs r1.oldest
    have t2 := maybeCull_terminates hc r1.uniq r1.size hs2
    have hok : res = .ok := by
      apply Classical.byContradiction
      intro hne
      rcases hh.2.1 hne with e | e
      · rw [t1] at e; cases e
      · rw [t2] at e; cases e
    subst hok
    have e := (hh.1 rfl).1
    subst e
    refine ⟨⟨?_, ?_, ?_⟩, by simp⟩
    · exact stamped_of_oldest hs2 (cullRel_maybe c r1.uniq r1.size).oldest
    · exact maybeCull_bytes hc t2
    · intro hp
      have := maybeCull_count hp h1.uniq h1.size hs (by simp; exact hl.count hp)
      exact Nat.le_trans (cullRel_maybe c r1.uniq r1.size).len this
  | update i old new _ _ hn hcul hr hcc =>
    have h1 := inv_replace (r := old.update new) h hn (own_update (h.own _ (lookup_mem hn)) ho)
    have hs := stamped_replace hl.stamped hn hst (s.bytes - recBytes old + recBytes (old.update new))
    have hh := hcc _ rfl h1
    have t1 := maybeCull_terminates hc h1.uniq h1.size hs
    have r1 := cullRel_maybe c h1.uniq h1.size
    have hok : res = .ok := by
      apply Classical.byContradiction
      intro hne
      rw [hh.2.1 hne] at t1; cases t1
    subst hok
    have e := (hh.1 rfl).1
    subst e
    refine ⟨⟨stamped_of_oldest hs r1.oldest, maybeCull_bytes hc t1, ?_⟩, by simp⟩
    intro hp
    exact maybeCull_count hp h1.uniq h1.size hs (by simp; have := hl.count hp; omega)
  | drop i r hn =>
    refine ⟨lim_shrink hl (size_erase h.uniq h.size i) h.size ?_, by simp⟩
    rw [erase_records]; exact List.filter_sublist
  | dropM check ms hm =>
    have hf := (matchAll_eq hm).1
    have hd := dropAll_ok h ms (by rw [hf]; exact h.uniq.sublist ((List.filter_sublist).map _))
      (by rw [hf]; intro x hx; exact (List.mem_filter.1 hx).1)
    refine ⟨lim_shrink hl hd.2.1.size h.size ?_, by rw [hd.1]; simp⟩
    rw [hd.2.2.1]; exact List.filter_sublist

theorem run_lim {c : Cfg} (hc : c.Ok) (ops : List Op) (ho : ∀ op ∈ ops, op.Own) (hs : ∀ op ∈ ops, op.Stamped) : Lim c (run c ops) := by
  have gen : ∀ (ops : List Op), (∀ op ∈ ops, op.Own) → (∀ op ∈ ops, op.Stamped) → ∀ s, Inv s → Lim c s →
      Lim c (ops.foldl (fun s op => (step c s op).1) s) := by
    intro ops
    induction ops with
    | nil => intro _ _ s _ h; exact h
    | cons op ops ih =>
      intro ho hs s h1 h2
      have o := ho op (List.mem_cons_self ..)
      exact ih (fun o h => ho o (List.mem_cons_of_mem _ h)) (fun o h => hs o (List.mem_cons_of_mem _ h)) _ (inv_step h1 o (step_rel c s op))
        (lim_step hc h1 h2 o (hs op (List.mem_cons_self ..)) (step_rel c s op)).1
  exact gen ops ho hs init inv_init ⟨by simp [AllStamped, init], by simp [init]; have := hc.pos; have := hc.target; omega, by simp [init]⟩

/-- **C35 (size limit)** With a submission time on every record, after any history the buffers fit in `size_limit`. -/
theorem size_limit_kept {c : Cfg} (hc : c.Ok) (ops : List Op) (ho : ∀ op ∈ ops, op.Own) (hs : ∀ op ∈ ops, op.Stamped) :
    realSize (run c ops) ≤ c.sizeLimit := by
  rw [← bytes_exact c ops ho]; exact (run_lim hc ops ho hs).bytes

/-- **C35 (record limit, partial)** … and there are at most `record_limit` records, *provided* `int(cull_fraction * record_limit) ≥ 1`; without this proviso see
`record_limit_violated`. -/
theorem record_limit_kept_partial {c : Cfg} (hc : c.Ok) (hp : 0 < c.toCull) (ops : List Op) (ho : ∀ op ∈ ops, op.Own) (hs : ∀ op ∈ ops, op.Stamped) :
    (run c ops).records.length ≤ c.recordLimit := (run_lim hc ops ho hs).count hp

/-- **C35 (returns)** … and every call returns. -/
theorem calls_return {c : Cfg} (hc : c.Ok) (ops : List Op) (ho : ∀ op ∈ ops, op.Own) (hs : ∀ op ∈ ops, op.Stamped) (op : Op) (o : op.Own) (st : op.Stamped) :
    (step c (run c ops) op).2 ≠ .hang :=
  (lim_step hc (run_inv c ops ho) (run_lim hc ops ho hs) o st (step_rel c _ op)).2

/-- **C35 (oldest first)** Adding a record evicts only the oldest ones (the new record competes as well). -/
theorem evicts_oldest (c : Cfg) (ops : List Op) (ho : ∀ op ∈ ops, op.Own) (i : Id) (r : Rec) (hi : r.get "msg_id" = .text i)
    (h : (step c (run c ops) (.add i r)).2.raised = false) :
    OldestFirst { run c ops with records := (run c ops).records ++ [(i, r)], bytes := (run c ops).bytes + recBytes r } (step c (run c ops) (.add i r)).1 := by
  have rel := step_rel c (run c ops) (.add i r)
  generalize (step c (run c ops) (.add i r)).1 = s' at *
  generalize (step c (run c ops) (.add i r)).2 = res at *
  cases rel with
  | raise _ _ hr => rw [hr] at h; cases h
  | add _ _ _ _ hn hr hc =>
    exact (hc _ rfl (inv_append (run_inv c ops ho) hn hi)).2.2.oldest

/-- Without evictions nothing is ever lost: an add that fits in the limits evicts nothing. -/
theorem no_eviction_below_limits (c : Cfg) (s : State) (i : Id) (r : Rec) (h1 : s.records.length + 1 ≤ c.recordLimit) (h2 : s.bytes + recBytes r ≤ c.sizeLimit) :
    (step c s (.add i r)).1.culled = s.culled := by
  have m : ∀ s1 : State, s1.records.length ≤ c.recordLimit → s1.bytes ≤ c.sizeLimit → maybeCull c s1 = (s1, false) := by
    intro s1 a b
    unfold maybeCull
    simp only
    have n : ¬ s1.records.length > c.recordLimit := by omega
    simp only [if_neg n]
    rw [if_neg (by omega)]
  unfold step
  simp only
  split
  · rfl
  · split
    · rfl
    · rw [m _ (by simpa using h1) h2]
      simp only
      rw [m _ (by simpa using h1) h2]

example : exCfg.Ok ∧ 0 < exCfg.toCull := ⟨⟨by decide, by decide⟩, by decide⟩

/-- **C35 is violated** when `int(cull_fraction * record_limit) = 0`, e.g. `record_limit = 5` with the default fraction 0.1: nothing is ever culled. -/
theorem record_limit_violated :
    let c : Cfg := { recordLimit := 5, toCull := 0, sizeLimit := 1000, sizeTarget := 900 }
    let ops := ["a", "b", "c", "d", "e", "f", "g"].map (fun i => Op.add i (exRec i 1 0))
    (run c ops).records.length = 7 := by decide

/-- **C35 (returns) is violated** for records without submission time: a call spins for ever once their buffers exceed the size limit. -/
theorem unstamped_hangs_violated :
    (step exCfg init (.add "a" [("msg_id", .text "a"), ("buffers", .bufs [101])])).2 = .hang := by decide

/-- An id that was evicted stays unreadable even when it is added again successfully. -/
theorem readd_after_eviction_violated :
    (step exCfg (run exCfg exOps) (.add "a" (exRec "a" 9 1))).2 = .ok ∧
    get (step exCfg (run exCfg exOps) (.add "a" (exRec "a" 9 1))).1 "a" = none ∧ (lookup (step exCfg (run exCfg exOps) (.add "a" (exRec "a" 9 1))).1 "a").isSome := by
  decide

/-! ## C34 -/

/-- no `$gt` -/
def NoGt (check : Check) : Prop := ∀ kc ∈ check, ∀ ts, kc.2 = .ops ts → ∀ v, Test.gt v ∉ ts

/-- plain conditions all have the value of the last condition (in particular: one plain condition, at the end) -/
def PlainLast (check : Check) : Prop := ∀ kc ∈ check, ∀ v, kc.2 = .plain v → ∃ k, check.getLast? = some (k, .plain v)

theorem lastPlain_of_last {check : Check} {k : Key} {v : Val} (h : check.getLast? = some (k, .plain v)) : lastPlain check = some v := by
  induction check with
  | nil => simp at h
  | cons x check ih =>
    cases check with
    | nil => simp only [List.getLast?_singleton, Option.some.injEq] at h; subst h; rfl
    | cons y check =>
      rw [List.getLast?_cons_cons] at h
      obtain ⟨a, c⟩ := x
      cases c <;> (rw [lastPlain]; exact ih h)

theorem PlainLast.model {check : Check} (h : PlainLast check) : ∀ kc ∈ check, ∀ v, kc.2 = .plain v → lastPlain check = some v := by
  intro kc hm v hv
  obtain ⟨k, hk⟩ := h kc hm v hv
  exact lastPlain_of_last hk

theorem pyLt_less {a b : Val} {x : Bool} (h : pyLt a b = some x) : x = true ↔ Less a b := by
  unfold pyLt at h
  split at h <;> simp only [Option.some.injEq, reduceCtorEq] at h
  all_goals (subst h; simp [Less])

theorem pyLe_lessEq {a b : Val} {x : Bool} (h : pyLe a b = some x) : x = true ↔ LessEq a b := by
  unfold pyLe at h
  split at h <;> simp only [Option.some.injEq, reduceCtorEq] at h
  all_goals (subst h; simp [LessEq])

theorem test_sat {a : Val} {t : Test} {x : Bool} (h : t.run a = some x) (hg : ∀ v, t ≠ .gt v) : x = true ↔ t.Sat a := by
  cases t with
  | lt b => exact pyLt_less h
  | gt b => exact absurd rfl (hg b)
  | eq b => simp [Test.run] at h; subst h; simp [Test.Sat]
  | ne b => simp only [Test.run, Option.some.injEq] at h; subst h; simp [Test.Sat]
  | lte b => exact pyLe_lessEq h
  | gte b => exact pyLe_lessEq h
  | isin b => simp [Test.run] at h; subst h; simp [Test.Sat]
  | nin b => simp only [Test.run, Option.some.injEq] at h; subst h; simp [Test.Sat]
  | mod m r =>
    simp only [Test.run] at h
    split at h
    · split at h
      · cases h
      · simp only [Option.some.injEq] at h; subst h
        rename_i hm
        simp [Test.Sat, hm]
    · cases h
  | exist b =>
    simp only [Test.run, Option.some.injEq] at h
    subst h
    cases b <;> simp [Test.Sat]

theorem runTests_sat {a : Val} {ts : List Test} {x : Bool} (h : runTests a ts = some x) (hg : ∀ v, Test.gt v ∉ ts) : x = true ↔ ∀ t ∈ ts, t.Sat a := by
  induction ts generalizing x with
  | nil => simp [runTests] at h; subst h; simp
  | cons t ts ih =>
    unfold runTests at h
    have hg1 : ∀ v, t ≠ .gt v := fun v e => hg v (by simp [e])
    cases e : t.run a with
    | none => simp [e] at h
    | some b =>
      have ht := test_sat e hg1
      cases b with
      | false =>
        simp [e] at h; subst h
        have : ¬ t.Sat a := fun hs => by have := ht.2 hs; cases this
        simp [this]
      | true =>
        simp only [e] at h
        have := ih h (fun v hv => hg v (List.mem_cons_of_mem _ hv))
        rw [this]
        simp [ht.1 rfl]

theorem matchOne_sat {last : Option Val} {r : Rec} {check : Check} {x : Bool} (h : matchOne last r check = some x) (hg : NoGt check)
    (hp : ∀ kc ∈ check, ∀ v, kc.2 = .plain v → last = some v) : x = true ↔ Sat r check := by
  induction check generalizing x with
  | nil => simp [matchOne] at h; subst h; simp [Sat]
  | cons kc check ih =>
    rcases kc with ⟨k, c⟩
    unfold matchOne at h
    have hc : ∀ b, c.run last (r.get k) = some b → (b = true ↔ c.Sat (r.get k)) := by
      intro b hb
      cases c with
      | plain v =>
        have := hp _ (List.mem_cons_self ..) v rfl
        simp only [Cond.run, this, Option.some.injEq] at hb
        subst hb
        simp [Cond.Sat]
      | ops ts => exact runTests_sat hb (hg _ (List.mem_cons_self ..) ts rfl)
    cases e : c.run last (r.get k) with
    | none => simp [e] at h
    | some b =>
      have ht := hc b e
      cases b with
      | false =>
        simp [e] at h; subst h
        have : ¬ c.Sat (r.get k) := fun hs => by have := ht.2 hs; cases this
        simp [Sat, this]
      | true =>
        simp only [e] at h
        have := ih h (fun x hx => hg x (List.mem_cons_of_mem _ hx)) (fun x hx => hp x (List.mem_cons_of_mem _ hx))
        rw [this]
        simp [Sat, ht.1 rfl]

open Classical in
/-- **C34 (partial)** A query without `$gt` whose plain conditions all have the value of the last condition, if it does not raise, returns exactly the records satisfying all its
conditions, in insertion order. The missing queries are answered wrongly: `gt_violated`, `two_plain_violated`, `plain_not_last_violated`; and comparisons with `None` raise: `null_compare_raises`. -/
theorem find_exact_partial (s : State) (check : Check) (rs : List Rec) (hg : NoGt check) (hp : PlainLast check) (h : find s check none = some rs) :
    rs = (s.records.map Prod.snd).filter (fun r => Sat r check) := by
  unfold find at h
  rw [Option.map_eq_some_iff] at h
  rcases h with ⟨ms, hm, rfl⟩
  have hh := matchAll_eq hm
  show ms.map Prod.snd = _
  rw [hh.1, List.filter_map]
  congr 1
  apply List.filter_congr
  intro x hx
  have hsome := hh.2 x hx
  rw [Option.isSome_iff_exists] at hsome
  rcases hsome with ⟨b, hb⟩
  have := matchOne_sat hb hg hp.model
  rw [Bool.eq_iff_iff]
  simp only [hb, Option.some.injEq, decide_eq_true_eq, Function.comp_apply]
  exact this

/-- A query of equality/membership/existence conditions never raises. -/
def Total (check : Check) : Prop := ∀ kc ∈ check, ∀ ts, kc.2 = .ops ts → ∀ t ∈ ts, match t with
  | .eq _ | .ne _ | .isin _ | .nin _ | .exist _ => True
  | _ => False

theorem find_total (s : State) (check : Check) (keys : Option (List Key)) (h : Total check) : (find s check keys).isSome := by
  have h1 : ∀ (a : Val) (ts : List Test), (∀ t ∈ ts, match t with
      | .eq _ | .ne _ | .isin _ | .nin _ | .exist _ => True
      | _ => False) → (runTests a ts).isSome := by
    intro a ts
    induction ts with
    | nil => intro _; rfl
    | cons t ts ih =>
      intro h
      have ht := h t (List.mem_cons_self ..)
      have ih := ih (fun t hm => h t (List.mem_cons_of_mem _ hm))
      have hsome : (t.run a).isSome := by cases t <;> simp [Test.run] at ht ⊢
      rw [Option.isSome_iff_exists] at hsome
      rcases hsome with ⟨b, hb⟩
      unfold runTests
      rw [hb]
      cases b
      · rfl
      · exact ih
  have h2 : ∀ (last : Option Val) (r : Rec) (check : Check), Total check → (matchOne last r check).isSome := by
    intro last r check
    induction check with
    | nil => intro _; rfl
    | cons kc check ih =>
      intro h
      rcases kc with ⟨k, c⟩
      have ih := ih (fun kc hm => h kc (List.mem_cons_of_mem _ hm))
      have hsome : (c.run last (r.get k)).isSome := by
        cases c with
        | plain v => rfl
        | ops ts => exact h1 _ _ (h _ (List.mem_cons_self ..) ts rfl)
      rw [Option.isSome_iff_exists] at hsome
      rcases hsome with ⟨b, hb⟩
      unfold matchOne
      simp only [hb]
      cases b
      · rfl
      · exact ih
  have h3 : (matchAll check s.records).isSome := by
    generalize s.records = l
    induction l with
    | nil => rfl
    | cons x l ih =>
      rcases x with ⟨i, r⟩
      have := h2 (lastPlain check) r check h
      rw [Option.isSome_iff_exists] at this ih
      rcases this with ⟨b, hb⟩
      rcases ih with ⟨ms, hm⟩
      unfold matchAll
      rw [hb, hm]
      rfl
  simpa [find] using h3

/-- **C34 (keys)** With `keys`, each matching record is cut down to `msg_id` and the requested keys, with its own values. -/
theorem find_keys (s : State) (check : Check) (k : Key) (ks : List Key) (rs : List Rec) (h : find s check none = some rs) :
    find s check (some (k :: ks)) = some (rs.map (fun r => ("msg_id" :: k :: ks).map (fun k => (k, r.get k)))) := by
  unfold find at *
  rw [Option.map_eq_some_iff] at h
  rcases h with ⟨ms, hm, rfl⟩
  simp [hm, extract]

/-- a query the client uses: the unfinished tasks of a client -/
def exCheck : Check := [("completed", .ops [.eq .null]), ("msg_id", .plain (.text "c"))]
example : NoGt exCheck ∧ PlainLast exCheck ∧ Total exCheck ∧ (find (run exCfg exOps) exCheck none) = some [exRec "c" 3 30] := by
  refine ⟨?_, ?_, ?_, by decide⟩
  · intro kc h ts e v hv
    simp only [exCheck, List.mem_cons, List.not_mem_nil, or_false] at h
    rcases h with rfl | rfl <;> simp at e
    subst e; simp at hv
  · intro kc h v e
    simp only [exCheck, List.mem_cons, List.not_mem_nil, or_false] at h
    rcases h with rfl | rfl <;> simp at e
    subst e; exact ⟨_, rfl⟩
  · intro kc h ts e
    simp only [exCheck, List.mem_cons, List.not_mem_nil, or_false] at h
    rcases h with rfl | rfl <;> simp at e
    subst e; simp

/-- **C34 is violated** by `$gt`: it returns the records that are *less* (here: asked for `submitted > 2`, gets the record submitted at 1, not the one at 3). -/
theorem gt_violated :
    let s : State := run { exCfg with recordLimit := 10 } [.add "a" (exRec "a" 1 0), .add "b" (exRec "b" 3 0)]
    find s [("submitted", .ops [.gt (.date 2)])] none = some [exRec "a" 1 0] ∧ ¬ Sat (exRec "a" 1 0) [("submitted", .ops [.gt (.date 2)])] ∧
      Sat (exRec "b" 3 0) [("submitted", .ops [.gt (.date 2)])] := by
  refine ⟨by decide, ?_, ?_⟩ <;> simp [Sat, Cond.Sat, Test.Sat, Less, exRec, Rec.get]

/-- **C34 is violated** by two plain conditions: both are compared with the value of the second. -/
theorem two_plain_violated :
    let s : State := run { exCfg with recordLimit := 10 } [.add "a" (exRec "a" 1 0), .add "b" (exRec "b" 3 0)]
    let check : Check := [("msg_id", .plain (.text "a")), ("submitted", .plain (.date 1))]
    find s check none = some [] ∧ Sat (exRec "a" 1 0) check := by
  refine ⟨by decide, ?_⟩
  simp [Sat, Cond.Sat, exRec, Rec.get]

/-- **C34 is violated** by a plain condition followed by an operator condition (this is the query of `purge_results` by engine, hub.py:1253-1258). -/
theorem plain_not_last_violated :
    let s : State := run { exCfg with recordLimit := 10 } [.add "a" (exRec "a" 1 0)]
    let check : Check := [("msg_id", .plain (.text "a")), ("submitted", .ops [.ne .null])]
    find s check none = some [] ∧ Sat (exRec "a" 1 0) check := by
  refine ⟨by decide, ?_⟩
  simp [Sat, Cond.Sat, Test.Sat, exRec, Rec.get]

/-- Ordering a field that is `None` in some record raises (TypeError) instead of not matching. -/
theorem null_compare_raises :
    find (run exCfg [.add "a" (exRec "a" 1 0)]) [("completed", .ops [.lt (.date 5)])] none = none := by decide

end IPP.DB
