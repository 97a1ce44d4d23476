import Verif.Client.Props

/-! # C41: what happens to the requests of an engine that dies -/
namespace IPP.Client
open IPP.Hub (getKey setKey delKey)
open IPP.Util

/-! ## Specification vocabulary -/

/-- The engines a client knows after a history of notifications. -/
def Reg (evs : List Ev) : List (Eid × Uuid) := evs.foldl (fun l e => match e with
  | .register i u => if (i, u) ∈ l then l else l ++ [(i, u)]
  | .unregister i => l.filter (fun x => x.1 ≠ i)
  | _ => l) []

/-- Notifications as the hub sends them (C28): a registered engine has an id and a uuid that no other registered engine has; the same notification may come twice. -/
def Proper (evs : List Ev) : Prop := ∀ pre i u post, evs = pre ++ .register i u :: post → (i, u) ∈ Reg pre ∨ ∀ x ∈ Reg pre, x.1 ≠ i ∧ x.2 ≠ u

/-- Replies are to requests that were made. -/
def NoForgery (evs : List Ev) : Prop := ∀ pre m v us post, evs = pre ++ .reply m v us :: post → m ∈ created pre

/-- The event makes a request `m` that the engine `u` should answer (alone, or together with others). -/
def Addressed : Ev → Mid → Uuid → Prop
  | .send m (some u), x, w => x = m ∧ w = u
  | .broadcast n ts true, x, w => x = .msg n ∧ w ∈ ts
  | .broadcast n ts false, x, w => x = .part n w ∧ w ∈ ts
  | _, _, _ => False

/-! ## the tables -/

theorem settle_out (s : Client) (m : Mid) : (∀ x u, x ∈ (settle s m).out u → x ∈ s.out u) ∧ (∀ x u, x ≠ m → x ∈ s.out u → x ∈ (settle s m).out u) ∧
    (value s m = none → (settle s m).out = s.out) ∧ (∀ x, (settle s m).results x = s.results x ∨ x = m ∧ (settle s m).results x = none) := by
  unfold settle
  cases hf : s.futs m with
  | none => exact ⟨fun _ _ h => h, fun _ _ _ h => h, fun _ => rfl, fun _ => .inl rfl⟩
  | some f =>
    dsimp only
    have d1 : ∀ x u, x ∈ (if u ∈ f.coal then discard (s.out u) m else s.out u) → x ∈ s.out u := by
      intro x u hx
      split at hx
      · exact (mem_discard.1 hx).1
      · exact hx
    have d2 : ∀ x u, x ≠ m → x ∈ s.out u → x ∈ (if u ∈ f.coal then discard (s.out u) m else s.out u) := by
      intro x u hx h
      split
      · exact mem_discard.2 ⟨h, hx⟩
      · exact h
    by_cases h1 : f.value.isSome = true
    · have hv : value s m ≠ none := by
        simp only [value, hf, Option.bind_some]
        intro hc; simp [hc] at h1
      by_cases h2 : f.output = true ∧ f.cleanup = true
      · simp only [h1, h2, and_self, if_true]
        refine ⟨d1, d2, fun h => absurd h hv, ?_⟩
        intro x
        by_cases hx : x = m
        · subst hx; exact .inr ⟨rfl, updF_same _ _ _⟩
        · exact .inl (updF_ne _ hx _)
      · simp only [h1, if_true, true_and, if_neg h2]
        exact ⟨d1, d2, fun h => absurd h hv, fun x => .inl trivial⟩
    · simp only [h1, Bool.false_eq_true, if_false, false_and]
      exact ⟨fun _ _ h => h, fun _ _ _ h => h, fun _ => trivial, fun _ => .inl trivial⟩

theorem handleReply_out (s : Client) (m : Mid) (v : Val) (us : List Uuid) : (∀ x u, x ∈ (handleReply s m v us).out u → x ∈ s.out u) ∧
    (∀ x u, x ≠ m → x ∈ s.out u → x ∈ (handleReply s m v us).out u) ∧ (∀ x, x ≠ m → (handleReply s m v us).results x = s.results x) := by
  have d1 : ∀ x u, x ∈ (if u ∈ us then discard (s.out u) m else s.out u) → x ∈ s.out u := by
    intro x u hx
    split at hx
    · exact (mem_discard.1 hx).1
    · exact hx
  have d2 : ∀ x u, x ≠ m → x ∈ s.out u → x ∈ (if u ∈ us then discard (s.out u) m else s.out u) := by
    intro x u hx h
    split
    · exact mem_discard.2 ⟨h, hx⟩
    · exact h
  unfold handleReply
  dsimp only
  cases hf : s.futs m with
  | none => exact ⟨d1, d2, fun x hx => updF_ne _ hx _⟩
  | some f =>
    dsimp only
    split
    · obtain ⟨k1, k2, -, k4⟩ := settle_out { s with
          outstanding := discard s.outstanding m
          metas := setKey s.metas m us.head?
          out := fun u => if u ∈ us then discard (s.out u) m else s.out u
          results := updF s.results m (some v)
          futs := updF s.futs m (some { f with value := if f.value.isSome then f.value else some v
                                               output := f.output || v.noOutput }) } m
      refine ⟨fun x u h => d1 x u (k1 x u h), fun x u hx h => k2 x u hx (d2 x u hx h), ?_⟩
      intro x hx
      rcases k4 x with h | ⟨h, -⟩
      · rw [h]; exact updF_ne _ hx _
      · exact absurd h hx
    · exact ⟨d1, d2, fun x hx => updF_ne _ hx _⟩

theorem strand_out {K : List Mid} (e : Eid) (w : Uuid) (ms : List Mid) : ∀ {s : Client}, Inv K s → (∀ x u, x ∈ (strand e w ms s).out u → x ∈ s.out u) ∧
    (∀ x u, x ∈ s.out u → x ∈ s.outstanding → x ∈ (strand e w ms s).outstanding → x ∈ (strand e w ms s).out u) ∧
    (∀ x, x ∈ (strand e w ms s).outstanding → x ∈ s.outstanding) ∧
    (∀ x, (strand e w ms s).results x ≠ none → s.results x ≠ none ∨ x ∈ ms) := by
  induction ms with
  | nil => intro s h; exact ⟨fun _ _ h => h, fun _ _ h _ _ => h, fun _ h => h, fun _ h => .inl h⟩
  | cons m ms ih =>
    intro s h
    unfold strand
    split
    · obtain ⟨a, b, c, d⟩ := ih h
      refine ⟨a, b, c, ?_⟩
      intro x hx
      rcases d x hx with h' | h'
      · exact .inl h'
      · exact .inr (by simp [h'])
    · obtain ⟨k1, -, -, k4, -⟩ := handleReply_facts h m (.died e) [w]
      obtain ⟨j1, j2, j3⟩ := handleReply_out s m (.died e) [w]
      obtain ⟨a, b, c, d⟩ := ih k1
      refine ⟨fun x u hx => j1 x u (a x u hx), ?_, ?_, ?_⟩
      · intro x u hx ho ho'
        have hc := c x ho'
        rw [k4, mem_discard] at hc
        exact b x u (j2 x u hc.2 hx) (by rw [k4, mem_discard]; exact hc) ho'
      · intro x hx
        have hc := c x hx
        rw [k4, mem_discard] at hc
        exact hc.1
      · intro x hx
        rcases d x hx with h' | h'
        · by_cases hxm : x = m
          · exact .inr (by simp [hxm])
          · rw [j3 x hxm] at h'; exact .inl h'
        · exact .inr (by simp [h'])

theorem parts_out (n : Nat) (ts : List Uuid) : ∀ (s : Client), (∀ x u, x ∈ (ts.foldl (addPart n) s).out u ↔ x ∈ s.out u ∨ x = .part n u ∧ u ∈ ts) ∧
    (ts.foldl (addPart n) s).results = s.results ∧ (ts.foldl (addPart n) s).engines = s.engines ∧ (ts.foldl (addPart n) s).ids = s.ids := by
  induction ts with
  | nil => intro s; simp
  | cons t ts ih =>
    intro s
    obtain ⟨a, b, c, d⟩ := ih (addPart n s t)
    rw [List.foldl_cons]
    refine ⟨?_, b, c, d⟩
    intro x u
    rw [a]
    have : x ∈ (addPart n s t).out u ↔ x ∈ s.out u ∨ x = .part n u ∧ u = t := by
      simp only [addPart]
      by_cases hu : u = t
      · subst hu; rw [updF_same, mem_add]; simp
      · rw [updF_ne _ hu]; simp [hu]
    rw [this]
    simp only [List.mem_cons]
    constructor
    · rintro ((h | ⟨h1, h2⟩) | ⟨h1, h2⟩)
      · exact .inl h
      · exact .inr ⟨h1, .inl h2⟩
      · exact .inr ⟨h1, .inr h2⟩
    · rintro (h | ⟨h1, h2 | h2⟩)
      · exact .inl (.inl h)
      · exact .inl (.inr ⟨h1, h2⟩)
      · exact .inr ⟨h1, h2⟩

/-! ## sorted ids -/

theorem mem_insertNat (n x : Nat) (l : List Nat) : x ∈ insertNat n l ↔ x = n ∨ x ∈ l := by
  induction l with
  | nil => simp [insertNat]
  | cons a l ih =>
    unfold insertNat
    split
    · simp
    · simp only [List.mem_cons, ih]
      constructor
      · rintro (h | h | h)
        · exact .inr (.inl h)
        · exact .inl h
        · exact .inr (.inr h)
      · rintro (h | h | h)
        · exact .inr (.inl h)
        · exact .inl h
        · exact .inr (.inr h)

theorem mem_sortNat (x : Nat) (l : List Nat) : x ∈ sortNat l ↔ x ∈ l := by
  induction l with
  | nil => simp [sortNat]
  | cons a l ih =>
    have : sortNat (a :: l) = insertNat a (sortNat l) := rfl
    rw [this, mem_insertNat, ih]
    simp

theorem insertNat_sorted (n : Nat) (l : List Nat) (h : l.Pairwise (· < ·)) (hn : n ∉ l) : (insertNat n l).Pairwise (· < ·) := by
  induction l with
  | nil => simp [insertNat]
  | cons a l ih =>
    rw [List.pairwise_cons] at h
    simp only [List.mem_cons, not_or] at hn
    unfold insertNat
    split
    · rename_i hle
      rw [List.pairwise_cons]
      refine ⟨?_, List.pairwise_cons.2 h⟩
      intro b hb
      rcases List.mem_cons.1 hb with rfl | hb
      · omega
      · have := h.1 b hb; omega
    · rename_i hle
      rw [List.pairwise_cons]
      refine ⟨?_, ih h.2 hn.2⟩
      intro b hb
      rcases (mem_insertNat n b l).1 hb with rfl | hb
      · omega
      · exact h.1 b hb

theorem sortNat_sorted (l : List Nat) (h : l.Nodup) : (sortNat l).Pairwise (· < ·) := by
  induction l with
  | nil => simp [sortNat]
  | cons a l ih =>
    rw [List.nodup_cons] at h
    exact insertNat_sorted a _ (ih h.2) (fun hc => h.1 ((mem_sortNat a l).1 hc))

theorem nodup_of_sorted {l : List Nat} (h : l.Pairwise (· < ·)) : l.Nodup := by
  rw [List.nodup_iff_pairwise_ne]
  exact h.imp (fun hlt => by omega)

/-! ## the invariant -/

structure TabInv (R : List (Eid × Uuid)) (s : Client) : Prop where
  fwd : s.engines.fwd = R.map (fun x => (Key.id x.1, Key.uuid x.2))
  rev : s.engines.rev = R.map (fun x => (Key.uuid x.2, Key.id x.1))
  sorted : s.ids.Pairwise (· < ·)
  ids : ∀ e, e ∈ s.ids ↔ e ∈ R.map Prod.fst
  nodup1 : (R.map Prod.fst).Nodup
  nodup2 : (R.map Prod.snd).Nodup

theorem TabInv.same {R : List (Eid × Uuid)} {s s' : Client} (h : TabInv R s) (h1 : s'.engines = s.engines) (h2 : s'.ids = s.ids) : TabInv R s' :=
  ⟨by rw [h1]; exact h.fwd, by rw [h1]; exact h.rev, by rw [h2]; exact h.sorted, by rw [h2]; exact h.ids, h.nodup1, h.nodup2⟩

/-- the pair stored for an id -/
theorem TabInv.unique1 {R : List (Eid × Uuid)} {s : Client} (h : TabInv R s) {i : Eid} {u w : Uuid} (h1 : (i, u) ∈ R) (h2 : (i, w) ∈ R) : u = w := by
  have := h.nodup1
  clear h
  induction R with
  | nil => cases h1
  | cons a R ih =>
    simp only [List.map_cons, List.nodup_cons, List.mem_map, not_exists, not_and] at this
    rcases List.mem_cons.1 h1 with h1 | h1 <;> rcases List.mem_cons.1 h2 with h2 | h2
    · rw [← h1] at h2; cases h2; rfl
    · exact absurd (by rw [← h1]) (this.1 _ h2)
    · exact absurd (by rw [← h2]) (this.1 _ h1)
    · exact ih h1 h2 this.2

theorem getKey_map_id (R : List (Eid × Uuid)) (i : Eid) (u : Uuid) (hn : (R.map Prod.fst).Nodup) (h : (i, u) ∈ R) :
    getKey (R.map (fun x => (Key.id x.1, Key.uuid x.2))) (Key.id i) = some (Key.uuid u) := by
  induction R with
  | nil => cases h
  | cons a R ih =>
    simp only [List.map_cons, List.nodup_cons, List.mem_map, not_exists, not_and] at hn
    simp only [getKey, List.map_cons, List.find?_cons] at ih ⊢
    rcases List.mem_cons.1 h with h | h
    · subst h; simp
    · have : a.1 ≠ i := fun hc => hn.1 _ h hc.symm
      simp only [Key.id.injEq, this, decide_false]
      exact ih hn.2 h

theorem getKey_map_uuid (R : List (Eid × Uuid)) (i : Eid) (u : Uuid) (hn : (R.map Prod.snd).Nodup) (h : (i, u) ∈ R) :
    getKey (R.map (fun x => (Key.uuid x.2, Key.id x.1))) (Key.uuid u) = some (Key.id i) := by
  induction R with
  | nil => cases h
  | cons a R ih =>
    simp only [List.map_cons, List.nodup_cons, List.mem_map, not_exists, not_and] at hn
    simp only [getKey, List.map_cons, List.find?_cons] at ih ⊢
    rcases List.mem_cons.1 h with h | h
    · subst h; simp
    · have : a.2 ≠ u := fun hc => hn.1 _ h hc.symm
      simp only [Key.uuid.injEq, this, decide_false]
      exact ih hn.2 h

theorem getKey_map_none (R : List (Eid × Uuid)) (k : Key) (h : ∀ x ∈ R, Key.id x.1 ≠ k) : getKey (R.map (fun x => (Key.id x.1, Key.uuid x.2))) k = none := by
  induction R with
  | nil => rfl
  | cons a R ih =>
    simp only [getKey, List.map_cons, List.find?_cons] at ih ⊢
    simp only [h a (by simp), decide_false]
    exact ih (fun x hx => h x (by simp [hx]))

theorem getKey_rev_id (R : List (Eid × Uuid)) (i : Eid) : getKey (R.map (fun x => (Key.uuid x.2, Key.id x.1))) (Key.id i) = none := by
  induction R with
  | nil => rfl
  | cons a R ih =>
    simp only [getKey, List.map_cons, List.find?_cons] at ih ⊢
    simp only [reduceCtorEq, decide_false]
    exact ih

theorem setKey_map (R : List (Eid × Uuid)) {i : Eid} {u : Uuid} (hn : (R.map Prod.fst).Nodup) (h : (i, u) ∈ R) :
    setKey (R.map (fun x => (Key.id x.1, Key.uuid x.2))) (Key.id i) (Key.uuid u) = R.map (fun x => (Key.id x.1, Key.uuid x.2)) := by
  unfold setKey
  rw [if_pos (by simp only [List.map_map, List.mem_map, Function.comp_apply]; exact ⟨_, h, rfl⟩), List.map_map]
  apply List.map_congr_left
  intro x hx
  simp only [Function.comp_apply, Key.id.injEq]
  split
  · rename_i hxi
    have : x = (i, u) := by
      have hx' : (i, x.2) ∈ R := by rw [← hxi]; exact hx
      have : x.2 = u := by
        have g1 := getKey_map_id R i x.2 hn hx'
        have g2 := getKey_map_id R i u hn h
        rw [g1] at g2
        simpa using g2
      cases x; simp_all
    rw [this]
  · rfl

theorem setKey_map_rev (R : List (Eid × Uuid)) {i : Eid} {u : Uuid} (hn : (R.map Prod.snd).Nodup) (h : (i, u) ∈ R) :
    setKey (R.map (fun x => (Key.uuid x.2, Key.id x.1))) (Key.uuid u) (Key.id i) = R.map (fun x => (Key.uuid x.2, Key.id x.1)) := by
  unfold setKey
  rw [if_pos (by simp only [List.map_map, List.mem_map, Function.comp_apply]; exact ⟨_, h, rfl⟩), List.map_map]
  apply List.map_congr_left
  intro x hx
  simp only [Function.comp_apply, Key.uuid.injEq]
  split
  · rename_i hxi
    have hx' : (x.1, u) ∈ R := by rw [← hxi]; exact hx
    have g1 := getKey_map_uuid R x.1 u hn hx'
    have g2 := getKey_map_uuid R i u hn h
    rw [g1] at g2
    have : x.1 = i := by simpa using g2
    rw [this, hxi]
  · rfl

/-- registration -/
theorem TabInv.register {R : List (Eid × Uuid)} {s : Client} (h : TabInv R s) (i : Eid) (u : Uuid) (hp : (i, u) ∈ R ∨ ∀ x ∈ R, x.1 ≠ i ∧ x.2 ≠ u) :
    TabInv (if (i, u) ∈ R then R else R ++ [(i, u)]) (updateEngine s i u) := by
  by_cases hm : (i, u) ∈ R
  · rw [if_pos hm]
    have g : getKey s.engines.fwd (.id i) = some (.uuid u) := by rw [h.fwd]; exact getKey_map_id R i u h.nodup1 hm
    have gr : getKey s.engines.rev (.id i) = none := by rw [h.rev]; exact getKey_rev_id R i
    refine ⟨?_, ?_, ?_, ?_, h.nodup1, h.nodup2⟩
    · simp only [updateEngine, RDict.set, gr, Option.isSome_none, Bool.false_eq_true, if_false]
      rw [h.fwd]; exact setKey_map R h.nodup1 hm
    · simp only [updateEngine, RDict.set, gr, Option.isSome_none, Bool.false_eq_true, if_false]
      rw [h.rev]; exact setKey_map_rev R h.nodup2 hm
    · simp only [updateEngine, g, Option.isSome_some, if_true]
      exact sortNat_sorted _ (nodup_of_sorted h.sorted)
    · intro e
      simp only [updateEngine, g, Option.isSome_some, if_true]
      rw [mem_sortNat, h.ids]
  · rw [if_neg hm]
    have hf := hp.resolve_left hm
    have g : getKey s.engines.fwd (.id i) = none := by
      rw [h.fwd]
      exact getKey_map_none R _ (fun x hx hc => (hf x hx).1 (Key.id.inj hc))
    have gr : getKey s.engines.rev (.id i) = none := by rw [h.rev]; exact getKey_rev_id R i
    have hi : i ∉ s.ids := by
      rw [h.ids, List.mem_map]
      rintro ⟨x, hx, hxi⟩
      exact (hf x hx).1 hxi
    refine ⟨?_, ?_, ?_, ?_, ?_, ?_⟩
    · simp only [updateEngine, RDict.set, gr, Option.isSome_none, Bool.false_eq_true, if_false]
      rw [h.fwd]
      unfold setKey
      rw [if_neg]
      · simp
      · simp only [List.map_map, List.mem_map, Function.comp_apply, not_exists, not_and]
        intro x hx hc
        exact (hf x hx).1 (Key.id.inj hc)
    · simp only [updateEngine, RDict.set, gr, Option.isSome_none, Bool.false_eq_true, if_false]
      rw [h.rev]
      unfold setKey
      rw [if_neg]
      · simp
      · simp only [List.map_map, List.mem_map, Function.comp_apply, not_exists, not_and]
        intro x hx hc
        exact (hf x hx).2 (Key.uuid.inj hc)
    · simp only [updateEngine, g, Option.isSome_none, Bool.false_eq_true, if_false]
      apply sortNat_sorted
      rw [List.nodup_append]
      exact ⟨nodup_of_sorted h.sorted, by simp, by simp; intro a ha hc; exact hi (hc ▸ ha)⟩
    · intro e
      simp only [updateEngine, g, Option.isSome_none, Bool.false_eq_true, if_false]
      rw [mem_sortNat]
      simp [h.ids]
    · rw [List.map_append, List.nodup_append]
      refine ⟨h.nodup1, by simp, ?_⟩
      simp only [List.mem_map, List.map_cons, List.map_nil, List.mem_singleton]
      rintro a ⟨x, hx, rfl⟩ b rfl
      exact (hf x hx).1
    · rw [List.map_append, List.nodup_append]
      refine ⟨h.nodup2, by simp, ?_⟩
      simp only [List.mem_map, List.map_cons, List.map_nil, List.mem_singleton]
      rintro a ⟨x, hx, rfl⟩ b rfl
      exact (hf x hx).2

/-- removal of a known engine -/
theorem TabInv.pop {R : List (Eid × Uuid)} {s : Client} (h : TabInv R s) {i : Eid} {u : Uuid} (hm : (i, u) ∈ R) :
    ∃ d, s.engines.pop (.id i) = (d, some (.uuid u)) ∧ ∀ s' : Client, s'.engines = d → s'.ids = s.ids.erase i → TabInv (R.filter (fun x => x.1 ≠ i)) s' := by
  have g1 : getKey s.engines.fwd (.id i) = some (.uuid u) := by rw [h.fwd]; exact getKey_map_id R i u h.nodup1 hm
  have g2 : getKey s.engines.rev (.uuid u) = some (.id i) := by rw [h.rev]; exact getKey_map_uuid R i u h.nodup2 hm
  refine ⟨{ fwd := delKey s.engines.fwd (.id i), rev := delKey s.engines.rev (.uuid u) }, by simp [RDict.pop, g1, g2], ?_⟩
  intro s' h1 h2
  refine ⟨?_, ?_, ?_, ?_, ?_, ?_⟩
  · rw [h1, h.fwd]
    simp only [delKey, List.filter_map]
    congr 1
    apply List.filter_congr
    intro x hx
    simp
  · rw [h1, h.rev]
    simp only [delKey, List.filter_map]
    congr 1
    apply List.filter_congr
    intro x hx
    simp only [Function.comp_apply, ne_eq, Key.uuid.injEq, decide_not]
    have : x.2 = u ↔ x.1 = i := by
      constructor
      · intro hc
        have a1 := getKey_map_uuid R x.1 u h.nodup2 (by rw [← hc]; exact hx)
        have a2 := getKey_map_uuid R i u h.nodup2 hm
        rw [a1] at a2; simpa using a2
      · intro hc
        exact h.unique1 (i := i) (by rw [← hc]; exact hx) hm
    simp [this]
  · rw [h2]; exact h.sorted.sublist List.erase_sublist
  · intro e
    rw [h2, (nodup_of_sorted h.sorted).mem_erase_iff, h.ids]
    simp only [List.mem_map, List.mem_filter, decide_eq_true_eq]
    constructor
    · rintro ⟨h1, x, hx, rfl⟩; exact ⟨x, ⟨hx, h1⟩, rfl⟩
    · rintro ⟨x, ⟨hx, h1⟩, rfl⟩; exact ⟨h1, x, hx, rfl⟩
  · exact h.nodup1.sublist (List.filter_sublist.map _)
  · exact h.nodup2.sublist (List.filter_sublist.map _)

theorem Reg_snoc (evs : List Ev) (e : Ev) : Reg (evs ++ [e]) = match e with
  | .register i u => if (i, u) ∈ Reg evs then Reg evs else Reg evs ++ [(i, u)]
  | .unregister i => (Reg evs).filter (fun x => x.1 ≠ i)
  | _ => Reg evs := by
  simp only [Reg, List.foldl_append, List.foldl_cons, List.foldl_nil]
  rfl

theorem Proper.prefix {pre post : List Ev} (h : Proper (pre ++ post)) : Proper pre := by
  intro p i u q hp
  exact h p i u (q ++ post) (by rw [hp]; simp)

theorem NoForgery.prefix {pre post : List Ev} (h : NoForgery (pre ++ post)) : NoForgery pre := by
  intro p m v us q hp
  exact h p m v us (q ++ post) (by rw [hp]; simp)

theorem idle_same (s : Client) (m : Mid) : (idle s m).engines = s.engines ∧ (idle s m).ids = s.ids := by
  unfold idle
  split
  · exact ⟨rfl, rfl⟩
  · split
    · have := settle_facts { s with futs := updF s.futs m (some { (‹Fut› : Fut) with output := true }) } m
      exact ⟨this.2.2.1, this.2.2.2.1⟩
    · exact ⟨rfl, rfl⟩

theorem handleReply_same (s : Client) (m : Mid) (v : Val) (us : List Uuid) : (handleReply s m v us).engines = s.engines ∧ (handleReply s m v us).ids = s.ids := by
  unfold handleReply
  dsimp only
  split
  · exact ⟨rfl, rfl⟩
  · split
    · constructor
      · exact (settle_facts _ m).2.2.1
      · exact (settle_facts _ m).2.2.2.1
    · exact ⟨rfl, rfl⟩

theorem strand_same (e : Eid) (u : Uuid) (ms : List Mid) : ∀ s, (strand e u ms s).engines = s.engines ∧ (strand e u ms s).ids = s.ids := by
  induction ms with
  | nil => intro s; exact ⟨rfl, rfl⟩
  | cons m ms ih =>
    intro s
    unfold strand
    split
    · exact ih s
    · obtain ⟨a, b⟩ := ih (handleReply s m (.died e) [u])
      obtain ⟨c, d⟩ := handleReply_same s m (.died e) [u]
      exact ⟨a.trans c, b.trans d⟩

theorem purgeIds_same (s : Client) (ms : List Mid) : (purgeIds s ms).1.engines = s.engines ∧ (purgeIds s ms).1.ids = s.ids ∧ (purgeIds s ms).1.out = s.out ∧
    (∀ x, (purgeIds s ms).1.results x ≠ none → s.results x ≠ none) := by
  unfold purgeIds
  split
  · exact ⟨rfl, rfl, rfl, fun _ h => h⟩
  · refine ⟨rfl, rfl, rfl, ?_⟩
    intro x h
    simp only at h
    split at h
    · exact absurd rfl h
    · exact h

theorem purgeAll_same (s : Client) : (purgeAll s).1.engines = s.engines ∧ (purgeAll s).1.ids = s.ids ∧ (purgeAll s).1.out = s.out ∧
    (∀ x, (purgeAll s).1.results x ≠ none → s.results x ≠ none) := by
  unfold purgeAll
  split
  · exact ⟨rfl, rfl, rfl, fun _ h => h⟩
  · exact ⟨rfl, rfl, rfl, fun x h => absurd rfl h⟩

/-- the client's tables describe the engines it was told about -/
theorem tab_run (evs : List Ev) (hp : Proper evs) : TabInv (Reg evs) (run evs) := by
  induction evs using snoc_induction with
  | h0 => exact ⟨rfl, rfl, by simp [run, init], by simp [run, init, Reg], by simp [Reg], by simp [Reg]⟩
  | h1 evs e ih =>
    have h := ih hp.prefix
    rw [run_snoc, Reg_snoc]
    cases e with
    | register i u => exact h.register i u (hp evs i u [] rfl)
    | unregister i =>
      simp only [step, unregister]
      by_cases hi : i ∈ (run evs).ids
      · rw [if_pos hi]
        obtain ⟨x, hx, rfl⟩ := List.mem_map.1 ((h.ids i).1 hi)
        obtain ⟨d, hd, hT⟩ := h.pop (i := x.1) (u := x.2) hx
        rw [hd]
        simp only
        exact hT _ (strand_same _ _ _ _).1 (strand_same _ _ _ _).2
      · rw [if_neg hi]
        have : (Reg evs).filter (fun x => decide (x.1 ≠ i)) = Reg evs := by
          rw [List.filter_eq_self]
          intro x hx
          simp only [decide_eq_true_eq]
          rintro rfl
          exact hi ((h.ids _).2 (List.mem_map.2 ⟨x, hx, rfl⟩))
        rw [this]
        exact h
    | send m i => exact h.same rfl rfl
    | broadcast n ts c =>
      cases c with
      | true => exact h.same rfl rfl
      | false =>
        have := parts_out n ts (sendFinish (sendBegin (run evs) (.msg n) none) (.msg n) [])
        exact h.same this.2.2.1 this.2.2.2
    | reply m v us => exact h.same (handleReply_same _ _ _ _).1 (handleReply_same _ _ _ _).2
    | idle m => exact h.same (idle_same _ _).1 (idle_same _ _).2
    | purge ms => exact h.same (purgeIds_same _ _).1 (purgeIds_same _ _).2.1
    | purgeAll => exact h.same (purgeAll_same _).1 (purgeAll_same _).2.1

structure SInv (evs : List Ev) (s : Client) : Prop where
  res : ∀ x, s.results x ≠ none → x ∈ created evs ∧ x ∉ s.outstanding
  only : ∀ x u, x ∈ s.out u → ∃ e ∈ evs, Addressed e x u
  has : ∀ pre a post x u, evs = pre ++ a :: post → Addressed a x u → u ∈ (Reg pre).map Prod.snd → x ∈ s.outstanding → x ∈ s.out u

theorem addressed_creates {e : Ev} {x : Mid} {u : Uuid} (h : Addressed e x u) : x ∈ e.creates := by
  cases e with
  | send m i =>
    cases i with
    | none => exact h.elim
    | some w => simp [Ev.creates, h.1]
  | broadcast n ts c =>
    cases c with
    | true => simp [Ev.creates, h.1]
    | false =>
      simp only [Ev.creates, Bool.false_eq_true, if_false, List.mem_cons, mem_eraseDups_parts, List.mem_map]
      exact .inr ⟨u, h.2, h.1.symm⟩
  | _ => exact h.elim

/-- A step that changes the three tables in the expected way keeps the invariant. -/
theorem SInv.step {evs : List Ev} {s : Client} (I : Inv (created evs) s) (T : TabInv (Reg evs) s) (h : SInv evs s) (e : Ev) (hfr : ∀ m ∈ e.creates, m ∉ created evs)
    (hr : ∀ m v us, e = .reply m v us → m ∈ created evs) : SInv (evs ++ [e]) (Client.step s e) := by
  have I' := (step_facts I e hfr).1
  -- three facts about the step
  have A : ∀ x, (Client.step s e).results x ≠ none → s.results x ≠ none ∨ x ∈ created evs ∧ x ∉ (Client.step s e).outstanding := by
    intro x hx
    cases e with
    | register i u => exact .inl hx
    | unregister i =>
      simp only [Client.step, unregister] at hx ⊢
      split at hx
      · rename_i hi
        rw [if_pos hi]
        cases hp : s.engines.pop (.id i) with
        | mk d r =>
          rw [hp] at hx
          cases r with
          | none => exact .inl hx
          | some k =>
            cases k with
            | id j => exact .inl hx
            | uuid u =>
              simp only at hx ⊢
              have I2 : Inv (created evs) { s with ids := s.ids.erase i, engines := d } := I.same rfl rfl
              by_cases hs : s.results x = none
              · rcases (strand_out i u (s.out u) I2).2.2.2 x hx with h' | h'
                · exact .inl h'
                · obtain ⟨a, ha, hadd⟩ := h.only x u h'
                  have hk : x ∈ created evs := List.mem_flatMap.2 ⟨a, ha, addressed_creates hadd⟩
                  refine .inr ⟨hk, ?_⟩
                  intro ho
                  obtain ⟨k1, -, -, -, k5⟩ := strand_facts i u (s.out u) I2
                  have ho' := (strand_out i u (s.out u) I2).2.2.1 x ho
                  have := k5 x h' hs ho'
                  obtain ⟨f, hf, hv⟩ := (k1.out x).1 ho
                  simp [value, hf, hv] at this
              · exact .inl hs
      · exact .inl hx
    | send m i => exact .inl hx
    | broadcast n ts c =>
      cases c with
      | true => exact .inl hx
      | false =>
        have := (parts_out n ts (sendFinish (sendBegin s (.msg n) none) (.msg n) [])).2.1
        simp only [Client.step, broadcast, Bool.false_eq_true, if_false] at hx
        rw [this] at hx
        exact .inl hx
    | reply m v us =>
      by_cases hxm : x = m
      · subst hxm
        refine .inr ⟨hr x v us rfl, ?_⟩
        have := (handleReply_facts I x v us).2.2.2.1
        simp only [Client.step]
        rw [this, mem_discard]
        exact fun hc => hc.2 rfl
      · simp only [Client.step] at hx
        rw [(handleReply_out s m v us).2.2 x hxm] at hx
        exact .inl hx
    | idle m =>
      simp only [Client.step, idle] at hx
      split at hx
      · exact .inl hx
      · split at hx
        · rcases (settle_out _ m).2.2.2 x with h' | ⟨-, h'⟩
          · rw [h'] at hx; exact .inl hx
          · exact absurd h' hx
        · exact .inl hx
    | purge ms => exact .inl ((purgeIds_same s ms).2.2.2 x hx)
    | purgeAll => exact .inl ((purgeAll_same s).2.2.2 x hx)
  have B : ∀ x u, x ∈ (Client.step s e).out u → x ∈ s.out u ∨ Addressed e x u := by
    intro x u hx
    cases e with
    | register i w => exact .inl hx
    | unregister i =>
      simp only [Client.step, unregister] at hx
      split at hx
      · cases hp : s.engines.pop (.id i) with
        | mk d r =>
          rw [hp] at hx
          cases r with
          | none => exact .inl hx
          | some k =>
            cases k with
            | id j => exact .inl hx
            | uuid w =>
              have I2 : Inv (created evs) { s with ids := s.ids.erase i, engines := d } := I.same rfl rfl
              exact .inl ((strand_out i w (s.out w) I2).1 x u hx)
      · exact .inl hx
    | send m i =>
      simp only [Client.step, send, sendFinish, sendBegin, List.not_mem_nil, if_false] at hx
      cases i with
      | none => exact .inl hx
      | some w =>
        simp only at hx
        split at hx
        · by_cases hu : u = w
          · subst hu
            rw [updF_same, mem_add] at hx
            rcases hx with h' | h'
            · exact .inl h'
            · exact .inr ⟨h', rfl⟩
          · rw [updF_ne _ hu] at hx; exact .inl hx
        · exact .inl hx
    | broadcast n ts c =>
      cases c with
      | true =>
        simp only [Client.step, broadcast, if_true, sendFinish, sendBegin] at hx
        split at hx
        · rename_i hu
          rcases mem_add.1 hx with h' | h'
          · exact .inl h'
          · exact .inr ⟨h', hu⟩
        · exact .inl hx
      | false =>
        simp only [Client.step, broadcast, Bool.false_eq_true, if_false] at hx
        rcases ((parts_out n ts (sendFinish (sendBegin s (.msg n) none) (.msg n) [])).1 x u).1 hx with h' | h'
        · simp only [sendFinish, sendBegin, List.not_mem_nil, if_false] at h'
          exact .inl h'
        · exact .inr h'
    | reply m v us => exact .inl ((handleReply_out s m v us).1 x u hx)
    | idle m =>
      simp only [Client.step, idle] at hx
      split at hx
      · exact .inl hx
      · split at hx
        · have := (settle_out _ m).1 x u hx
          exact .inl this
        · exact .inl hx
    | purge ms => simp only [Client.step] at hx; rw [(purgeIds_same s ms).2.2.1] at hx; exact .inl hx
    | purgeAll => simp only [Client.step] at hx; rw [(purgeAll_same s).2.2.1] at hx; exact .inl hx
  have C : ∀ x u, x ∈ s.out u → x ∈ s.outstanding → x ∈ (Client.step s e).outstanding → x ∈ (Client.step s e).out u := by
    intro x u hx ho ho'
    cases e with
    | register i w => exact hx
    | unregister i =>
      simp only [Client.step, unregister] at ho' ⊢
      split at ho'
      · rename_i hi
        rw [if_pos hi]
        cases hp : s.engines.pop (.id i) with
        | mk d r =>
          rw [hp] at ho'
          cases r with
          | none => exact hx
          | some k =>
            cases k with
            | id j => exact hx
            | uuid w =>
              have I2 : Inv (created evs) { s with ids := s.ids.erase i, engines := d } := I.same rfl rfl
              exact (strand_out i w (s.out w) I2).2.1 x u hx ho ho'
      · rename_i hi
        rw [if_neg hi]
        exact hx
    | send m i =>
      simp only [Client.step, send, sendFinish, sendBegin, List.not_mem_nil, if_false]
      cases i with
      | none => exact hx
      | some w =>
        simp only
        split
        · by_cases hu : u = w
          · subst hu; rw [updF_same, mem_add]; exact .inl hx
          · rw [updF_ne _ hu]; exact hx
        · exact hx
    | broadcast n ts c =>
      cases c with
      | true =>
        simp only [Client.step, broadcast, if_true, sendFinish, sendBegin]
        split
        · exact mem_add.2 (.inl hx)
        · exact hx
      | false =>
        simp only [Client.step, broadcast, Bool.false_eq_true, if_false]
        refine ((parts_out n ts (sendFinish (sendBegin s (.msg n) none) (.msg n) [])).1 x u).2 (.inl ?_)
        simp only [sendFinish, sendBegin, List.not_mem_nil, if_false]
        exact hx
    | reply m v us =>
      simp only [Client.step] at ho' ⊢
      rw [(handleReply_facts I m v us).2.2.2.1, mem_discard] at ho'
      exact (handleReply_out s m v us).2.1 x u ho'.2 hx
    | idle m =>
      simp only [Client.step, idle]
      cases hf : s.futs m with
      | none => exact hx
      | some f =>
        simp only
        split
        · by_cases hxm : x = m
          · subst hxm
            obtain ⟨g, hg, hv⟩ := (I.out x).1 ho
            rw [hf] at hg
            cases hg
            rw [(settle_out _ x).2.2.1 (by simp [value, updF_same, hv])]
            exact hx
          · exact (settle_out _ m).2.1 x u hxm hx
        · exact hx
    | purge ms => simp only [Client.step]; rw [(purgeIds_same s ms).2.2.1]; exact hx
    | purgeAll => simp only [Client.step]; rw [(purgeAll_same s).2.2.1]; exact hx
  have D : ∀ x u, Addressed e x u → u ∈ (Reg evs).map Prod.snd → x ∈ (Client.step s e).out u := by
    intro x u ha hu
    cases e with
    | send m i =>
      cases i with
      | none => exact ha.elim
      | some w =>
        obtain ⟨rfl, rfl⟩ := ha
        have hmem : Key.uuid u ∈ s.engines.fwd.map Prod.snd := by
          rw [T.fwd]
          simp only [List.map_map, List.mem_map, Function.comp_apply, Key.uuid.injEq]
          obtain ⟨y, hy, h1⟩ := List.mem_map.1 hu
          exact ⟨y, hy, h1⟩
        simp only [Client.step, send, sendFinish, sendBegin, List.not_mem_nil, if_false, if_pos hmem, updF_same]
        exact mem_add.2 (.inr rfl)
    | broadcast n ts c =>
      cases c with
      | true =>
        obtain ⟨rfl, hu'⟩ := ha
        simp only [Client.step, broadcast, if_true, sendFinish, sendBegin, if_pos hu']
        exact mem_add.2 (.inr rfl)
      | false =>
        simp only [Client.step, broadcast, Bool.false_eq_true, if_false]
        exact ((parts_out n ts _).1 x u).2 (.inr ha)
    | _ => exact ha.elim
  -- old requests are outstanding after the step only if they were before
  have E : ∀ x, x ∈ created evs → x ∈ (Client.step s e).outstanding → x ∈ s.outstanding := by
    intro x hk ho
    obtain ⟨f, hf⟩ := I.has x hk
    obtain ⟨f', hf', hv'⟩ := (I'.out x).1 ho
    rcases (step_facts I e hfr).2 x with h' | ⟨h', -⟩
    · rw [I.out]
      refine ⟨f, hf, ?_⟩
      simpa [value, hf, hf', hv'] using h'.symm
    · exact h'
  refine ⟨?_, ?_, ?_⟩
  · intro x hx
    rcases A x hx with h' | ⟨h1, h2⟩
    · obtain ⟨h1, h2⟩ := h.res x h'
      exact ⟨by rw [created_snoc]; simp [h1], fun ho => h2 (E x h1 ho)⟩
    · exact ⟨by rw [created_snoc]; simp [h1], h2⟩
  · intro x u hx
    rcases B x u hx with h' | h'
    · obtain ⟨a, ha, hadd⟩ := h.only x u h'
      exact ⟨a, by simp [ha], hadd⟩
    · exact ⟨e, by simp, h'⟩
  · intro pre a post x u hev hadd hu ho
    rcases List.eq_nil_or_concat post with rfl | ⟨post', b, rfl⟩
    · obtain ⟨rfl, h2⟩ := List.append_inj' hev rfl
      simp only [List.cons.injEq, and_true] at h2
      subst h2
      exact D x u hadd hu
    · have hev' : evs ++ [e] = (pre ++ a :: post') ++ [b] := by rw [hev]; simp
      obtain ⟨rfl, h2⟩ := List.append_inj' hev' rfl
      have hk : x ∈ created (pre ++ a :: post') := List.mem_flatMap.2 ⟨a, by simp, addressed_creates hadd⟩
      have ho' := E x hk ho
      exact C x u (h.has pre a post' x u rfl hadd hu ho') ho' ho

theorem sinv_run (evs : List Ev) (hf : FreshIds evs) (hp : Proper evs) (hn : NoForgery evs) : SInv evs (run evs) := by
  induction evs using snoc_induction with
  | h0 => exact ⟨by simp [run, init], by simp [run, init], by simp [run, init]⟩
  | h1 evs e ih =>
    rw [run_snoc]
    exact SInv.step (inv_run evs hf.prefix) (tab_run evs hp.prefix) (ih hf.prefix hp.prefix hn.prefix) e hf.snoc.2
      (fun m v us h => hn evs m v us [] (by rw [h]))

/-! ## C41 -/

/-- C41: when an engine is removed, every request that was addressed to it while it was registered and has no outcome yet, gets an `EngineError`. -/
theorem stranded_resolved_partial (pre post : List Ev) (a : Ev) (m : Mid) (u : Uuid) (e : Eid) (hf : FreshIds (pre ++ a :: post)) (hp : Proper (pre ++ a :: post))
    (hn : NoForgery (pre ++ a :: post)) (ha : Addressed a m u) (hreg : u ∈ (Reg pre).map Prod.snd) (he : (e, u) ∈ Reg (pre ++ a :: post))
    (hv : value (run (pre ++ a :: post)) m = none) : value (run (pre ++ a :: post ++ [.unregister e])) m = some (.died e) := by
  have I := inv_run _ hf
  have S := sinv_run _ hf hp hn
  have T := tab_run _ hp
  have hk : m ∈ created (pre ++ a :: post) := List.mem_flatMap.2 ⟨a, by simp, addressed_creates ha⟩
  have ho := (outstanding_iff _ hf m).2 ⟨hk, hv⟩
  have hout := S.has pre a post m u rfl ha hreg ho
  rw [run_snoc]
  generalize run (pre ++ a :: post) = s at *
  obtain ⟨d, hd, -⟩ := T.pop he
  simp only [step, unregister]
  rw [if_pos ((T.ids e).2 (List.mem_map.2 ⟨_, he, rfl⟩)), hd]
  simp only
  have I2 : Inv (created (pre ++ a :: post)) { s with ids := s.ids.erase e, engines := d } := I.same rfl rfl
  refine (strand_facts e u (s.out u) I2).2.2.2.2 m hout ?_ ho
  cases hr : s.results m with
  | none => rfl
  | some r => exact absurd ho (S.res m (by rw [hr]; simp)).2

/-- C41: the removal of an engine changes nothing for a request that has an outcome or was not addressed to that engine. -/
theorem others_untouched (evs : List Ev) (m : Mid) (e : Eid) (u : Uuid) (hf : FreshIds evs) (hp : Proper evs) (hn : NoForgery evs) (he : (e, u) ∈ Reg evs)
    (h : value (run evs) m ≠ none ∨ ∀ a ∈ evs, ¬ Addressed a m u) : value (run (evs ++ [.unregister e])) m = value (run evs) m := by
  have I := inv_run _ hf
  have S := sinv_run _ hf hp hn
  have T := tab_run _ hp
  rw [run_snoc]
  rcases (step_facts I (.unregister e) (by simp [Ev.creates])).2 m with h' | ⟨ho, h'⟩
  · exact h'
  · rcases h' with ⟨v, us, hc, -⟩ | ⟨i, w, hc, hi, hw, hout, -⟩
    · cases hc
    · cases hc
      obtain ⟨d, hd, -⟩ := T.pop he
      rw [hd] at hw
      cases hw
      rcases h with h | h
      · exact absurd ((outstanding_iff _ hf m).1 ho).2 h
      · obtain ⟨a, ha, hadd⟩ := S.only m u hout
        exact absurd hadd (h a ha)

/-- The removal of an engine the client does not know changes nothing. -/
theorem unknown_unregister (evs : List Ev) (hp : Proper evs) (e : Eid) (h : e ∉ (Reg evs).map Prod.fst) : run (evs ++ [.unregister e]) = run evs := by
  rw [run_snoc]
  simp only [step, unregister]
  rw [if_neg (fun hc => h (((tab_run evs hp).ids e).1 hc))]

def exDeath : List Ev := [.register 0 7, .register 1 8, .register 0 7, .send (.msg 1) (some 7), .send (.msg 2) (some 8), .broadcast 3 [7, 8] false, .reply (.part 3 7) (.ok 1) [7]]

example : FreshIds exDeath ∧ value (run exDeath) (.msg 1) = none ∧ (0, 7) ∈ Reg exDeath ∧
    (run (exDeath ++ [.unregister 0])).outstanding = [.msg 2, .msg 3, .part 3 8] ∧ value (run (exDeath ++ [.unregister 0])) (.msg 1) = some (.died 0) ∧
    value (run (exDeath ++ [.unregister 0])) (.part 3 7) = some (.ok 1) := by decide

/-- C41, violated: a request sent to an engine that was removed just before (the view still names it) never gets an outcome, and `wait()` hangs. -/
theorem sent_after_death_violated (post : List Ev) (hp : ∀ v us, Ev.reply (.msg 1) v us ∉ post) (hd : ∀ i, Ev.unregister i ∉ post)
    (hf : FreshIds ([.register 0 7, .unregister 0, .send (.msg 1) (some 7)] ++ post)) :
    waitReturns (run ([.register 0 7, .unregister 0, .send (.msg 1) (some 7)] ++ post)) = false := by
  have hnone : value (run ([.register 0 7, .unregister 0, .send (.msg 1) (some 7)] ++ post)) (.msg 1) = none := by
    induction post using snoc_induction with
    | h0 => decide
    | h1 post e ih =>
      rw [← List.append_assoc] at hf ⊢
      have ih' := ih (fun v us hm => hp v us (by simp [hm])) (fun i hm => hd i (by simp [hm])) hf.prefix
      rcases value_step _ e hf (.msg 1) with h' | ⟨-, -, hc⟩
      · rw [h', ih']
      · rcases hc with ⟨v, us, rfl, -⟩ | ⟨i, rfl, -⟩
        · exact absurd (by simp) (hp v us)
        · exact absurd (by simp) (hd i)
  cases hw : waitReturns (run ([.register 0 7, .unregister 0, .send (.msg 1) (some 7)] ++ post)) with
  | false => rfl
  | true =>
    refine absurd hnone ((wait_returns_iff _ hf).1 hw (.msg 1) ?_)
    simp [created, Ev.creates]

/-- C41, violated: the user's thread sends (client.py:1276-1288), the IO thread handles the death of the engine before the future exists (1290): the request is lost. -/
theorem death_during_send_violated :
    let s0 := run [.register 0 7]
    let s := sendFinish (unregister (sendBegin s0 (.msg 1) (some 7)) 0) (.msg 1) []
    value s (.msg 1) = none ∧ s.results (.msg 1) = some (.died 0) ∧ s.outstanding = [] ∧ waitReturns s = true := by decide

end IPP.Client
