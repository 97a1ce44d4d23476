import Verif.DB.Spec
/-!
# Lemmas for the task database
-/
namespace IPP.DB

/-- keys are unique -/
def Uniq (s : State) : Prop := (s.records.map Prod.fst).Nodup

theorem lookup_mem {s : State} {i : Id} {r : Rec} (h : lookup s i = some r) : (i, r) ∈ s.records := by
  unfold lookup at h
  rw [Option.map_eq_some_iff] at h
  rcases h with ⟨⟨j, r'⟩, hf, rfl⟩
  have h1 := List.mem_of_find?_eq_some hf
  have h2 := List.find?_some hf
  simp only [decide_eq_true_eq] at h2
  subst h2; exact h1

theorem lookup_none {s : State} {i : Id} : lookup s i = none ↔ ∀ x ∈ s.records, x.1 ≠ i := by
  unfold lookup
  simp [List.find?_eq_none]

theorem find_of_mem {l : List (Id × Rec)} (hu : (l.map Prod.fst).Nodup) {i : Id} {r : Rec} (h : (i, r) ∈ l) :
    l.find? (fun x => x.1 = i) = some (i, r) := by
  induction l with
  | nil => cases h
  | cons a l ih =>
    simp only [List.map_cons, List.nodup_cons] at hu
    rcases List.mem_cons.1 h with rfl | h
    · simp
    · have : a.1 ≠ i := by
        rintro rfl; exact hu.1 (List.mem_map.2 ⟨_, h, rfl⟩)
      rw [List.find?_cons_of_neg (by simpa using this)]
      exact ih hu.2 h

theorem lookup_of_mem {s : State} (hu : Uniq s) {i : Id} {r : Rec} (h : (i, r) ∈ s.records) : lookup s i = some r := by
  unfold lookup; rw [find_of_mem hu h]; rfl

theorem lookup_iff {s : State} (hu : Uniq s) {i : Id} {r : Rec} : lookup s i = some r ↔ (i, r) ∈ s.records :=
  ⟨lookup_mem, lookup_of_mem hu⟩

theorem lookup_filter {s : State} {p : Id × Rec → Bool} {i : Id} (hu : Uniq s) (s' : State) (h : s'.records = s.records.filter p) :
    lookup s' i = (lookup s i).filter (fun r => p (i, r)) := by
  have hu' : Uniq s' := by
    unfold Uniq; rw [h]; exact hu.sublist ((List.filter_sublist).map _)
  cases e : lookup s i with
  | none =>
    rw [lookup_none] at e
    simp only [Option.filter_none]
    rw [lookup_none, h]
    intro x hx
    exact e x (List.mem_filter.1 hx).1
  | some r =>
    have hm := lookup_mem e
    by_cases hp : p (i, r) = true
    · simp only [Option.filter_some, hp, if_true]
      rw [lookup_iff hu', h]
      exact List.mem_filter.2 ⟨hm, hp⟩
    · simp only [Option.filter_some, hp, if_false]
      rw [if_neg (by simp), lookup_none, h]
      intro x hx e2
      rw [List.mem_filter] at hx
      subst e2
      have h2 := lookup_of_mem hu (i := x.1) (r := x.2) hx.1
      rw [e] at h2
      cases h2
      exact hp hx.2

/-! ### erase -/

theorem erase_records (s : State) (i : Id) : (erase s i).records = s.records.filter (fun x => x.1 ≠ i) := by
  unfold erase
  cases e : lookup s i with
  | none =>
    rw [lookup_none] at e
    symm
    rw [List.filter_eq_self]
    simpa using e
  | some r => rfl

theorem erase_culled (s : State) (i : Id) : (erase s i).culled = s.culled := by
  unfold erase; cases lookup s i <;> rfl

theorem uniq_erase {s : State} (h : Uniq s) (i : Id) : Uniq (erase s i) := by
  unfold Uniq; rw [erase_records]; exact h.sublist ((List.filter_sublist).map _)

theorem sum_filter_ne {l : List (Id × Rec)} (hu : (l.map Prod.fst).Nodup) {i : Id} {r : Rec} (h : (i, r) ∈ l) :
    (l.map (fun x => recBytes x.2)).sum = ((l.filter (fun x => x.1 ≠ i)).map (fun x => recBytes x.2)).sum + recBytes r := by
  induction l with
  | nil => cases h
  | cons a l ih =>
    simp only [List.map_cons, List.nodup_cons] at hu
    rcases List.mem_cons.1 h with rfl | h
    · have : l.filter (fun x => x.1 ≠ i) = l := by
        rw [List.filter_eq_self]
        intro x hx
        simp only [decide_eq_true_eq]
        rintro rfl; exact hu.1 (List.mem_map.2 ⟨_, hx, rfl⟩)
      have e : ((i, r) :: l).filter (fun x => x.1 ≠ i) = l.filter (fun x => x.1 ≠ i) := by
        simp
      rw [e, this]
      simp [Nat.add_comm]
    · have hne : a.1 ≠ i := by
        rintro rfl; exact hu.1 (List.mem_map.2 ⟨_, h, rfl⟩)
      have e : (a :: l).filter (fun x => x.1 ≠ i) = a :: l.filter (fun x => x.1 ≠ i) := by
        simp [hne]
      rw [e, List.map_cons, List.map_cons, List.sum_cons, List.sum_cons, ih hu.2 h]
      omega

/-- the running total is right -/
def SizeOk (s : State) : Prop := s.bytes = realSize s

theorem size_erase {s : State} (hu : Uniq s) (h : SizeOk s) (i : Id) : SizeOk (erase s i) := by
  unfold SizeOk realSize at *
  rw [erase_records]
  cases e : lookup s i with
  | none =>
    have e' := e
    rw [lookup_none] at e
    have : s.records.filter (fun x => x.1 ≠ i) = s.records := by
      rw [List.filter_eq_self]; simpa using e
    rw [this, ← h]
    simp [erase, e']
  | some r =>
    have hs := sum_filter_ne hu (lookup_mem e)
    simp only [erase, e]
    rw [h]
    omega

/-! ### sorting -/

theorem insertBy_perm (a : Int × Id) (l : List (Int × Id)) : (insertBy a l).Perm (a :: l) := by
  induction l with
  | nil => exact .refl _
  | cons b l ih =>
    unfold insertBy
    split
    · exact .refl _
    · exact (List.Perm.cons b ih).trans (.swap a b l)

theorem sortBy_perm (l : List (Int × Id)) : (sortBy l).Perm l := by
  induction l with
  | nil => exact .refl _
  | cons a l ih =>
    show (insertBy a (sortBy l)).Perm _
    exact (insertBy_perm _ _).trans (.cons a ih)

theorem insertBy_sorted (a : Int × Id) (l : List (Int × Id)) (h : l.Pairwise (fun x y => x.1 ≤ y.1)) :
    (insertBy a l).Pairwise (fun x y => x.1 ≤ y.1) := by
  induction l with
  | nil => simp [insertBy]
  | cons b l ih =>
    rw [List.pairwise_cons] at h
    unfold insertBy
    split
    · rename_i hle
      rw [List.pairwise_cons]
      refine ⟨?_, List.pairwise_cons.2 h⟩
      intro x hx
      rcases List.mem_cons.1 hx with rfl | hx
      · exact hle
      · exact Int.le_trans hle (h.1 x hx)
    · rename_i hle
      rw [List.pairwise_cons]
      refine ⟨?_, ih h.2⟩
      intro x hx
      rw [(insertBy_perm a l).mem_iff] at hx
      rcases List.mem_cons.1 hx with rfl | hx
      · omega
      · exact h.1 x hx

theorem sortBy_sorted (l : List (Int × Id)) : (sortBy l).Pairwise (fun x y => x.1 ≤ y.1) := by
  induction l with
  | nil => exact .nil
  | cons a l ih => exact insertBy_sorted a _ ih

theorem mem_stamped {s : State} {d : Int} {i : Id} : (d, i) ∈ stamped s ↔ ∃ r, (i, r) ∈ s.records ∧ submitted r = some d := by
  unfold stamped
  simp only [List.mem_filterMap, Option.map_eq_some_iff, Prod.mk.injEq]
  constructor
  · rintro ⟨⟨j, r⟩, hm, d', hd, rfl, rfl⟩; exact ⟨r, hm, hd⟩
  · rintro ⟨r, hm, hd⟩; exact ⟨(i, r), hm, d, hd, rfl, rfl⟩

theorem mem_history {s : State} {i : Id} : i ∈ history s ↔ ∃ r d, (i, r) ∈ s.records ∧ submitted r = some d := by
  unfold history
  rw [((sortBy_perm (stamped s)).map Prod.snd).mem_iff]
  simp only [List.mem_map]
  constructor
  · rintro ⟨⟨d, j⟩, hm, rfl⟩
    rcases mem_stamped.1 hm with ⟨r, h1, h2⟩
    exact ⟨r, d, h1, h2⟩
  · rintro ⟨r, d, h1, h2⟩
    exact ⟨(d, i), mem_stamped.2 ⟨r, h1, h2⟩, rfl⟩

theorem stamped_snd_sublist (l : List (Id × Rec)) :
    ((l.filterMap (fun x => (submitted x.2).map (fun d => (d, x.1)))).map Prod.snd).Sublist (l.map Prod.fst) := by
  induction l with
  | nil => simp
  | cons a l ih =>
    cases h : submitted a.2 with
    | none => simp [List.filterMap_cons, h]; exact List.Sublist.cons _ (by simpa using ih)
    | some d => simp [List.filterMap_cons, h]; simpa using ih

theorem history_nodup {s : State} (hu : Uniq s) : (history s).Nodup := by
  unfold history
  rw [((sortBy_perm (stamped s)).map Prod.snd).nodup_iff]
  exact hu.sublist (stamped_snd_sublist _)

/-! ### culling -/

theorem cullOne_records (s : State) (i : Id) : (cullOne s i).records = s.records.filter (fun x => x.1 ≠ i) := erase_records s i

theorem foldl_cullOne_records (l : List Id) : ∀ s : State, (l.foldl cullOne s).records = s.records.filter (fun x => x.1 ∉ l) := by
  induction l with
  | nil => intro s; exact (List.filter_eq_self.2 (by simp)).symm
  | cons i l ih =>
    intro s
    rw [List.foldl_cons, ih, cullOne_records, List.filter_filter]
    apply List.filter_congr
    intro x _
    by_cases h : x.1 = i <;> by_cases h2 : x.1 ∈ l <;> simp [h, h2]

theorem foldl_cullOne_culled (l : List Id) : ∀ (s : State) (j : Id), j ∈ (l.foldl cullOne s).culled ↔ j ∈ s.culled ∨ j ∈ l := by
  induction l with
  | nil => intro s j; simp
  | cons i l ih =>
    intro s j
    rw [List.foldl_cons, ih]
    simp only [cullOne, erase_culled, List.mem_cons]
    by_cases a : j = i <;> by_cases b : j ∈ s.culled <;> by_cases c : j ∈ l <;> simp [a, b, c]

theorem foldl_cullOne_inv (l : List Id) : ∀ s : State, Uniq s → SizeOk s → Uniq (l.foldl cullOne s) ∧ SizeOk (l.foldl cullOne s) := by
  induction l with
  | nil => intro s h1 h2; exact ⟨h1, h2⟩
  | cons i l ih =>
    intro s h1 h2
    rw [List.foldl_cons]
    exact ih _ (uniq_erase h1 i) (size_erase h1 h2 i)

theorem cullOldest_records (n : Nat) (s : State) : (cullOldest n s).records = s.records.filter (fun x => x.1 ∉ (history s).take n) :=
  foldl_cullOne_records _ s

theorem oldestFirst_refl (s : State) : OldestFirst s s := ⟨fun _ h => h, fun _ h h2 => absurd h h2⟩

theorem oldestFirst_trans {a b c : State} (h1 : OldestFirst a b) (h2 : OldestFirst b c) : OldestFirst a c := by
  refine ⟨fun x hx => h1.1 x (h2.1 x hx), fun x hx hn => ?_⟩
  by_cases hb : x ∈ b.records
  · exact h2.2 x hb hn
  · rcases h1.2 x hx hb with ⟨d, hd, hh⟩
    exact ⟨d, hd, fun y hy e he => hh y (h2.1 y hy) e he⟩

theorem cullOldest_oldest {s : State} (hu : Uniq s) (n : Nat) : OldestFirst s (cullOldest n s) := by
  unfold OldestFirst
  rw [cullOldest_records]
  refine ⟨fun x hx => (List.mem_filter.1 hx).1, ?_⟩
  intro x hx hn
  rw [List.mem_filter] at hn
  have hxt : x.1 ∈ (history s).take n := by
    apply Classical.byContradiction
    intro h; exact hn ⟨hx, by simpa using h⟩
  rw [history, ← List.map_take] at hxt
  rcases List.mem_map.1 hxt with ⟨⟨d, i⟩, hdi, hxi⟩
  simp only at hxi
  have hst := (sortBy_perm (stamped s)).mem_iff.1 (List.mem_of_mem_take hdi)
  rcases mem_stamped.1 hst with ⟨r, hr, hd⟩
  have : x.2 = r := by
    have h1 := lookup_of_mem hu hr
    have h2 := lookup_of_mem hu (i := x.1) (r := x.2) hx
    rw [← hxi] at h2
    rw [h1] at h2; cases h2; rfl
  refine ⟨d, by rw [this]; exact hd, ?_⟩
  intro y hy e he
  rw [List.mem_filter] at hy
  have hyn : y.1 ∉ (history s).take n := by simpa using hy.2
  have hys : (e, y.1) ∈ sortBy (stamped s) := (sortBy_perm (stamped s)).mem_iff.2 (mem_stamped.2 ⟨y.2, hy.1, he⟩)
  have hsorted := sortBy_sorted (stamped s)
  rw [← List.take_append_drop n (sortBy (stamped s))] at hys hsorted
  rcases List.mem_append.1 hys with h | h
  · exfalso; apply hyn
    rw [history, ← List.map_take]
    exact List.mem_map.2 ⟨_, h, rfl⟩
  · exact (List.pairwise_append.1 hsorted).2.2 _ hdi _ h

theorem cullOldest_length {s : State} (hu : Uniq s) (n : Nat) : (cullOldest n s).records.length + min n (history s).length = s.records.length := by
  rw [cullOldest_records]
  have hnd : ((history s).take n).Nodup := (history_nodup hu).sublist (List.take_sublist ..)
  have hsub : ∀ i ∈ (history s).take n, i ∈ s.records.map Prod.fst := by
    intro i hi
    rcases mem_history.1 (List.mem_of_mem_take hi) with ⟨r, d, h, _⟩
    exact List.mem_map.2 ⟨_, h, rfl⟩
  have hlen : ((history s).take n).length = min n (history s).length := List.length_take
  rw [← hlen]
  generalize (history s).take n = t at *
  have gen : ∀ (t : List Id) (l : List (Id × Rec)), (l.map Prod.fst).Nodup → t.Nodup → (∀ i ∈ t, i ∈ l.map Prod.fst) →
      (l.filter (fun x => x.1 ∉ t)).length + t.length = l.length := by
    intro t
    induction t with
    | nil => intro l _ _ _; simp
    | cons i t ih =>
      intro l h1 h2 h3
      rw [List.nodup_cons] at h2
      have e : l.filter (fun x => x.1 ∉ i :: t) = (l.filter (fun x => x.1 ≠ i)).filter (fun x => x.1 ∉ t) := by
        rw [List.filter_filter]
        apply List.filter_congr
        intro x _
        by_cases h : x.1 = i <;> by_cases h2 : x.1 ∈ t <;> simp [h, h2]
      rw [e, List.length_cons]
      have h4 := ih (l.filter (fun x => x.1 ≠ i)) (h1.sublist ((List.filter_sublist).map _)) h2.2 (by
        intro j hj
        rcases List.mem_map.1 (h3 j (List.mem_cons_of_mem _ hj)) with ⟨x, hx, rfl⟩
        refine List.mem_map.2 ⟨x, List.mem_filter.2 ⟨hx, ?_⟩, rfl⟩
        simp only [decide_eq_true_eq]
        rintro rfl; exact h2.1 hj)
      rcases List.mem_map.1 (h3 i (List.mem_cons_self ..)) with ⟨⟨i', r⟩, hx, rfl⟩
      have h5 : (l.filter (fun x => x.1 ≠ i')).length + 1 = l.length := by
        clear h4 e ih h3 h2
        induction l with
        | nil => cases hx
        | cons a l ih =>
          simp only [List.map_cons, List.nodup_cons] at h1
          rcases List.mem_cons.1 hx with rfl | hx
          · have : l.filter (fun x => x.1 ≠ i') = l := by
              rw [List.filter_eq_self]
              intro x hy
              simp only [decide_eq_true_eq]
              rintro rfl; exact h1.1 (List.mem_map.2 ⟨_, hy, rfl⟩)
            have e : ((i', r) :: l).filter (fun x => x.1 ≠ i') = l.filter (fun x => x.1 ≠ i') := by simp
            rw [e, this]; rfl
          · have hne : a.1 ≠ i' := by
              intro h; exact h1.1 (List.mem_map.2 ⟨_, hx, h.symm⟩)
            have e : (a :: l).filter (fun x => x.1 ≠ i') = a :: l.filter (fun x => x.1 ≠ i') := by simp [hne]
            rw [e]
            simp only [List.length_cons]
            rw [ih h1.2 hx]
      simp only at h4 h5 ⊢
      omega
  exact gen t s.records hu hnd hsub

/-- what culling keeps -/
structure CullRel (s s' : State) : Prop where
  uniq : Uniq s'
  size : SizeOk s'
  oldest : OldestFirst s s'
  look : ∀ i, i ∉ s'.culled → i ∉ s.culled ∧ lookup s' i = lookup s i
  len : s'.records.length ≤ s.records.length

theorem cullRel_refl {s : State} (h1 : Uniq s) (h2 : SizeOk s) : CullRel s s :=
  ⟨h1, h2, oldestFirst_refl s, fun _ h => ⟨h, rfl⟩, Nat.le_refl _⟩

theorem cullRel_trans {a b c : State} (h1 : CullRel a b) (h2 : CullRel b c) : CullRel a c where
  uniq := h2.uniq
  size := h2.size
  oldest := oldestFirst_trans h1.oldest h2.oldest
  look := fun i h => ⟨(h1.look i (h2.look i h).1).1, ((h2.look i h).2).trans (h1.look i (h2.look i h).1).2⟩
  len := Nat.le_trans h2.len h1.len

theorem cullRel_oldest {s : State} (h1 : Uniq s) (h2 : SizeOk s) (n : Nat) : CullRel s (cullOldest n s) where
  uniq := (foldl_cullOne_inv _ s h1 h2).1
  size := (foldl_cullOne_inv _ s h1 h2).2
  oldest := cullOldest_oldest h1 n
  look := by
    intro i hi
    unfold cullOldest at hi
    rw [foldl_cullOne_culled] at hi
    refine ⟨fun h => hi (Or.inl h), ?_⟩
    rw [lookup_filter h1 _ (cullOldest_records n s)]
    cases lookup s i with
    | none => rfl
    | some r => simp; exact fun h => hi (Or.inr h)
  len := by
    have := cullOldest_length h1 n
    omega

theorem cullRel_size (limit : Int) (n : Nat) : ∀ s, Uniq s → SizeOk s → CullRel s (cullSize limit n s).1 := by
  induction n with
  | zero => intro s h1 h2; exact cullRel_refl h1 h2
  | succ n ih =>
    intro s h1 h2
    unfold cullSize
    split
    · split
      · exact cullRel_refl h1 h2
      · have r := cullRel_oldest h1 h2 1
        exact cullRel_trans r (ih _ r.uniq r.size)
    · exact cullRel_refl h1 h2

theorem cullSize_bound (limit : Int) (n : Nat) : ∀ s, (cullSize limit n s).2 = false → (cullSize limit n s).1.bytes ≤ limit := by
  induction n with
  | zero => intro s h; simp [cullSize] at h ⊢; exact h
  | succ n ih =>
    intro s h
    unfold cullSize at h ⊢
    split at h
    · split at h
      · simp at h
      · rename_i h1 h2
        simp only [if_pos h1, if_neg h2]
        exact ih _ h
    · rename_i h1
      simp only [if_neg h1]
      omega

/-- every record has a submission time -/
def AllStamped (s : State) : Prop := ∀ x ∈ s.records, (submitted x.2).isSome

theorem history_length {s : State} (h : AllStamped s) : (history s).length = s.records.length := by
  unfold history
  rw [List.length_map, (sortBy_perm _).length_eq]
  unfold stamped AllStamped at *
  generalize s.records = l at *
  induction l with
  | nil => rfl
  | cons a l ih =>
    have ha := h a (List.mem_cons_self ..)
    rw [Option.isSome_iff_exists] at ha
    rcases ha with ⟨d, hd⟩
    simp only [List.filterMap_cons, hd, Option.map_some, List.length_cons]
    rw [ih (fun x hx => h x (List.mem_cons_of_mem _ hx))]

theorem stamped_of_oldest {s s' : State} (h : AllStamped s) (o : OldestFirst s s') : AllStamped s' := fun x hx => h x (o.1 x hx)

theorem size_nonneg_of_empty {s : State} (h : SizeOk s) (he : s.records = []) : s.bytes = 0 := by
  unfold SizeOk realSize at h; rw [h, he]; rfl

theorem cullSize_terminates (limit : Int) (hl : 0 ≤ limit) (n : Nat) : ∀ s, Uniq s → SizeOk s → AllStamped s → s.records.length ≤ n →
    (cullSize limit n s).2 = false := by
  induction n with
  | zero =>
    intro s h1 h2 h3 h4
    have := size_nonneg_of_empty h2 (List.length_eq_zero_iff.1 (by omega))
    simp [cullSize, this]; exact hl
  | succ n ih =>
    intro s h1 h2 h3 h4
    unfold cullSize
    split
    · rename_i hb
      have hne : history s ≠ [] := by
        intro he
        have := history_length h3
        rw [he] at this
        have h0 : s.records = [] := List.length_eq_zero_iff.1 (by simpa using this.symm)
        have := size_nonneg_of_empty h2 h0
        omega
      rw [if_neg hne]
      have r := cullRel_oldest h1 h2 1
      refine ih _ r.uniq r.size (stamped_of_oldest h3 r.oldest) ?_
      have h5 := cullOldest_length h1 1
      have : 0 < (history s).length := List.length_pos_iff.2 hne
      omega
    · rfl

theorem cullRel_maybe (c : Cfg) {s : State} (h1 : Uniq s) (h2 : SizeOk s) : CullRel s (maybeCull c s).1 := by
  unfold maybeCull
  have key : ∀ s1, CullRel s s1 → CullRel s (if s1.bytes > c.sizeLimit then cullSize c.sizeTarget s1.records.length s1 else (s1, false)).1 := by
    intro s1 r
    split
    · exact cullRel_trans r (cullRel_size _ _ _ r.uniq r.size)
    · exact r
  simp only
  split
  · exact key _ (cullRel_oldest h1 h2 _)
  · exact key _ (cullRel_refl h1 h2)

/-- configuration that makes sense: `0 ≤ cull_fraction ≤ 1`, limits not negative -/
structure Cfg.Ok (c : Cfg) : Prop where
  target : c.sizeTarget ≤ c.sizeLimit
  pos : 0 ≤ c.sizeTarget

theorem maybeCull_bytes {c : Cfg} (hc : c.Ok) {s : State} (h : (maybeCull c s).2 = false) : (maybeCull c s).1.bytes ≤ c.sizeLimit := by
  unfold maybeCull at *
  have key : ∀ s1 : State, (if s1.bytes > c.sizeLimit then cullSize c.sizeTarget s1.records.length s1 else (s1, false)).2 = false →
      (if s1.bytes > c.sizeLimit then cullSize c.sizeTarget s1.records.length s1 else (s1, false)).1.bytes ≤ c.sizeLimit := by
    intro s1 h
    split
    · rename_i hb
      rw [if_pos hb] at h
      exact Int.le_trans (cullSize_bound _ _ _ h) hc.target
    · rename_i hb
      show s1.bytes ≤ _; omega
  exact key _ h

theorem maybeCull_terminates {c : Cfg} (hc : c.Ok) {s : State} (h1 : Uniq s) (h2 : SizeOk s) (h3 : AllStamped s) : (maybeCull c s).2 = false := by
  unfold maybeCull
  have key : ∀ s1, CullRel s s1 → (if s1.bytes > c.sizeLimit then cullSize c.sizeTarget s1.records.length s1 else (s1, false)).2 = false := by
    intro s1 r
    split
    · exact cullSize_terminates _ hc.pos _ _ r.uniq r.size (stamped_of_oldest h3 r.oldest) (Nat.le_refl _)
    · rfl
  simp only
  split
  · exact key _ (cullRel_oldest h1 h2 _)
  · exact key _ (cullRel_refl h1 h2)

theorem maybeCull_count {c : Cfg} (hc : 0 < c.toCull) {s : State} (h1 : Uniq s) (h2 : SizeOk s) (h3 : AllStamped s)
    (hl : s.records.length ≤ c.recordLimit + 1) : (maybeCull c s).1.records.length ≤ c.recordLimit := by
  unfold maybeCull
  have key : ∀ s1, Uniq s1 → SizeOk s1 → s1.records.length ≤ c.recordLimit →
      (if s1.bytes > c.sizeLimit then cullSize c.sizeTarget s1.records.length s1 else (s1, false)).1.records.length ≤ c.recordLimit := by
    intro s1 u z h
    split
    · exact Nat.le_trans (cullRel_size _ _ _ u z).len h
    · exact h
  simp only
  split
  · have r := cullRel_oldest h1 h2 c.toCull
    apply key _ r.uniq r.size
    have := cullOldest_length h1 c.toCull
    have h5 := history_length h3
    omega
  · exact key _ h1 h2 (by omega)

end IPP.DB
