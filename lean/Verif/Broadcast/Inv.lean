import Verif.Broadcast.Lemmas
/-!
# Invariant of the tree during a coalescing broadcast
-/
namespace IPP.Broadcast

/-- the reply of `w` has been handled by its parent -/
def Got (s : State) (w : Path) : Prop := s.acc w = none ∧ s.up w = []

instance (s : State) (w : Path) : Decidable (Got s w) := by unfold Got; infer_instance

/-- `broadcast_targets` of the reply of `v` -/
def tgt (D : Nat) (targets : List Target) (v : Path) : List Target :=
  if v.length = D then targetsAt D targets v else targetsAt D targets (0 :: v) ++ targetsAt D targets (1 :: v)

structure Inv (D : Nat) (targets : List Target) (ans : Uuid → List Buf) (S : List Uuid) (s : State) : Prop where
  invalid : ∀ v, ¬ (Bits v ∧ v.length ≤ D) → s.up v = []
  upNil : ∀ v tbl, s.acc v = some tbl → s.up v = []
  upMsg : ∀ v, ∀ m ∈ s.up v, m.bufs = order D targets ans (D - v.length) v ∧ m.targets = tgt D targets v
  upLen : ∀ v, (s.up v).length ≤ 1
  root : s.acc [] = none → s.up [] ≠ []
  leaf : ∀ v, Bits v → v.length = D → s.acc v =
    if targetsAt D targets v ≠ [] ∧ ∀ t ∈ targetsAt D targets v, t.uuid ∈ S then none
    else some ((targetsAt D targets v).map (fun t => (t.uuid, if t.uuid ∈ S then some (ans t.uuid) else none)))
  inner : ∀ v, Bits v → v.length < D → s.acc v =
    if kids D targets v ≠ [] ∧ ∀ b ∈ kids D targets v, Got s (b :: v) then none
    else some ((kids D targets v).map (fun b => (b, if Got s (b :: v) then some (order D targets ans (D - v.length - 1) (b :: v)) else none)))
  sound : ∀ v, Bits v → v.length ≤ D → s.acc v = none → ∀ t ∈ targetsAt D targets v, t.uuid ∈ S

theorem kids_ne {D : Nat} {targets : List Target} {v : Path} (hl : v.length < D) : kids D targets v ≠ [] ↔ targetsAt D targets v ≠ [] := by
  rw [Ne, Ne, targetsAt_nil_kids hl]
  unfold kids
  by_cases h0 : targetsAt D targets (0 :: v) = [] <;> by_cases h1 : targetsAt D targets (1 :: v) = [] <;> simp [h0, h1]

theorem mem_kids {D : Nat} {targets : List Target} {v : Path} {b : Nat} : b ∈ kids D targets v ↔ b < 2 ∧ targetsAt D targets (b :: v) ≠ [] := by
  unfold kids
  simp only [List.mem_filter, decide_eq_true_eq, List.mem_cons, List.not_mem_nil, or_false]
  constructor
  · rintro ⟨h | h, h2⟩ <;> subst h <;> exact ⟨by omega, h2⟩
  · rintro ⟨h, h2⟩; exact ⟨by omega, h2⟩

theorem Inv.none_ne {D targets ans S s} (I : Inv D targets ans S s) {v : Path} (hb : Bits v) (hl : v.length ≤ D) (h : s.acc v = none) :
    targetsAt D targets v ≠ [] := by
  rcases Nat.lt_or_eq_of_le hl with hl | hl
  · have := I.inner v hb hl
    rw [h] at this
    split at this
    · rename_i hc; exact (kids_ne hl).1 hc.1
    · simp at this
  · have := I.leaf v hb hl
    rw [h] at this
    split at this
    · rename_i hc; exact hc.1
    · simp at this

theorem inv_submitted (D : Nat) (targets : List Target) (ans : Uuid → List Buf) : Inv D targets ans [] (submitted D targets) := by
  have ng : ∀ v : Path, v.length ≤ D → ¬ Got (submitted D targets) v := by
    intro v h hg
    have := hg.1
    simp [submitted, h] at this
  constructor
  · intro v _; rfl
  · intro v _ _; rfl
  · intro v m hm; simp [submitted] at hm
  · intro v; simp [submitted]
  · intro h; simp [submitted] at h
  · intro v hb hl
    rw [if_neg]
    · simp [submitted, hl, initialAcc]
    · rintro ⟨h1, h2⟩
      rcases List.exists_mem_of_ne_nil _ h1 with ⟨t, ht⟩
      exact absurd (h2 t ht) (by simp)
  · intro v hb hl
    have h0 : ∀ b, ¬ Got (submitted D targets) (b :: v) := fun b => ng _ (by simp; omega)
    rw [if_neg]
    · have : v.length ≠ D := by omega
      have e : (submitted D targets).acc v = some ((kids D targets v).map (fun b => (b, none))) := by
        simp only [submitted, initialAcc, if_pos (Nat.le_of_lt hl), if_neg this, kids]
      rw [e]
      congr 1
      apply List.map_congr_left
      intro b _
      rw [if_neg (h0 b)]
    · rintro ⟨h1, h2⟩
      rcases List.exists_mem_of_ne_nil _ h1 with ⟨b, hb⟩
      exact h0 b (h2 b hb)
  · intro v hb hl h; simp [submitted, hl] at h

theorem leafIdx_inj : ∀ {v w : Path}, Bits v → Bits w → v.length = w.length → leafIdx v = leafIdx w → v = w
  | [], [], _, _, _, _ => rfl
  | b :: v, c :: w, hv, hw, hl, h => by
    rw [bits_cons] at hv hw
    simp only [leafIdx] at h
    simp only [List.length_cons, Nat.add_right_cancel_iff] at hl
    have hb := hv.1
    have hc := hw.1
    rw [leafIdx_inj hv.2 hw.2 hl (by omega)]
    congr 1
    omega

theorem inj_of_nodup : ∀ {l : List Target}, (l.map Target.uuid).Nodup → ∀ a ∈ l, ∀ b ∈ l, a.uuid = b.uuid → a = b
  | [], _, a, ha, _, _, _ => by simp at ha
  | c :: l, h, a, ha, b, hb, e => by
    simp only [List.map_cons, List.nodup_cons, List.mem_map, not_exists, not_and] at h
    simp only [List.mem_cons] at ha hb
    rcases ha with rfl | ha <;> rcases hb with rfl | hb
    · rfl
    · exact absurd e.symm (h.1 b hb)
    · exact absurd e (h.1 a ha)
    · exact inj_of_nodup h.2 a ha b hb e

/-- one scheduler (`v`) handled a reply: the parts of the invariant that do not depend on what it is -/
theorem inv_update {D targets ans S s S'} {s' : State} (I : Inv D targets ans S s) {v : Path} (hb : Bits v) (hl : v.length ≤ D)
    (h1 : ∀ w, w ≠ v → s'.acc w = s.acc w) (h2 : ∀ w, w ≠ v → s'.up w = s.up w ∨ (s'.up w = [] ∧ w ≠ []))
    (hv : (s'.acc v ≠ none ∧ s'.up v = []) ∨
      (s'.acc v = none ∧ ∃ m, s'.up v = [m] ∧ m.bufs = order D targets ans (D - v.length) v ∧ m.targets = tgt D targets v))
    (leaf : ∀ v, Bits v → v.length = D → s'.acc v =
      if targetsAt D targets v ≠ [] ∧ ∀ t ∈ targetsAt D targets v, t.uuid ∈ S' then none
      else some ((targetsAt D targets v).map (fun t => (t.uuid, if t.uuid ∈ S' then some (ans t.uuid) else none))))
    (inner : ∀ v, Bits v → v.length < D → s'.acc v =
      if kids D targets v ≠ [] ∧ ∀ b ∈ kids D targets v, Got s' (b :: v) then none
      else some ((kids D targets v).map (fun b => (b, if Got s' (b :: v) then some (order D targets ans (D - v.length - 1) (b :: v)) else none))))
    (sound : ∀ v, Bits v → v.length ≤ D → s'.acc v = none → ∀ t ∈ targetsAt D targets v, t.uuid ∈ S') :
    Inv D targets ans S' s' where
  invalid := by
    intro w hw
    have hne : w ≠ v := by rintro rfl; exact hw ⟨hb, hl⟩
    rcases h2 w hne with h | h
    · rw [h]; exact I.invalid w hw
    · exact h.1
  upNil := by
    intro w tbl h
    by_cases e : w = v
    · subst e
      rcases hv with hv | hv
      · exact hv.2
      · rw [hv.1] at h; cases h
    · rcases h2 w e with h' | h'
      · rw [h']; rw [h1 w e] at h; exact I.upNil w _ h
      · exact h'.1
  upMsg := by
    intro w m hm
    by_cases e : w = v
    · subst e
      rcases hv with hv | ⟨_, m', hm', hh⟩
      · rw [hv.2] at hm; cases hm
      · rw [hm'] at hm
        simp only [List.mem_singleton] at hm
        rw [hm]; exact hh
    · rcases h2 w e with h' | h'
      · rw [h'] at hm; exact I.upMsg w m hm
      · rw [h'.1] at hm; cases hm
  upLen := by
    intro w
    by_cases e : w = v
    · subst e
      rcases hv with hv | ⟨_, m', hm', hh⟩
      · simp [hv.2]
      · simp [hm']
    · rcases h2 w e with h' | h'
      · rw [h']; exact I.upLen w
      · simp [h'.1]
  root := by
    intro h
    by_cases e : [] = v
    · rw [e]; rw [e] at h
      rcases hv with hv | ⟨_, m', hm', hh⟩
      · exact absurd h hv.1
      · simp [hm']
    · rcases h2 [] e with h' | h'
      · rw [h']; rw [h1 _ e] at h; exact I.root h
      · exact absurd rfl h'.2
  leaf := leaf
  inner := inner
  sound := sound

/-- what `coalesce` does when there is a table -/
theorem coalesce_some {D targets} {s : State} {v k msg tbl} (h : s.acc v = some tbl) :
    coalesce D targets s v k msg =
    if (setKey tbl k msg.bufs).all (fun kv => kv.2.isSome) then
      { acc := fun w => if w = v then none else s.acc w
        up := fun w => if w = v then s.up v ++ [{ bufs := joinBufs (setKey tbl k msg.bufs), targets := joinTargets D targets v (setKey tbl k msg.bufs), ok := msg.ok }] else s.up w }
    else { s with acc := fun w => if w = v then some (setKey tbl k msg.bufs) else s.acc w } := by
  simp only [coalesce, h]

theorem inv_reply {D targets ans S s} (hu : (targets.map Target.uuid).Nodup) (I : Inv D targets ans S s) {v : Path} {t : Target} {ok : Bool}
    (hb : Bits v) (hl : v.length = D) (ht : t ∈ targets) (hlf : leafIdx v = engineLeaf D t.id) (hS : t.uuid ∉ S) :
    Inv D targets ans (t.uuid :: S) (step D targets s (.reply v t.uuid (ans t.uuid) ok)) := by
  have inj := inj_of_nodup hu
  have mem_leaf : ∀ w : Path, Bits w → w.length = D → ∀ a, a ∈ targetsAt D targets w ↔ a ∈ targets ∧ engineLeaf D a.id = leafIdx w := by
    intro w hw hwl a
    rw [targetsAt_eq targets w hw (by omega)]
    simp [hwl, engineLeaf]
  have htv : t ∈ targetsAt D targets v := (mem_leaf v hb hl t).2 ⟨ht, hlf.symm⟩
  have hacc := I.leaf v hb hl
  rw [if_neg (by rintro ⟨_, h⟩; exact hS (h t htv))] at hacc
  have hup := I.upNil v _ hacc
  have htbl : setKey ((targetsAt D targets v).map (fun t => (t.uuid, if t.uuid ∈ S then some (ans t.uuid) else none))) t.uuid (ans t.uuid) =
      (targetsAt D targets v).map (fun a => (a.uuid, if a.uuid ∈ t.uuid :: S then some (ans a.uuid) else none)) := by
    rw [setKey_map _ _ _ _ _ ⟨t, htv, rfl⟩]
    apply List.map_congr_left
    intro a ha
    by_cases e : a.uuid = t.uuid
    · simp [e]
    · simp [e]
  have other : ∀ w, Bits w → w.length = D → w ≠ v → ∀ a ∈ targetsAt D targets w, (a.uuid ∈ t.uuid :: S ↔ a.uuid ∈ S) := by
    intro w hw hwl hne a ha
    have hau : a.uuid ≠ t.uuid := by
      intro e
      have ha' := (mem_leaf w hw hwl a).1 ha
      have := inj a ha'.1 t ht e
      subst this
      exact hne (leafIdx_inj hw hb (by omega) (by rw [← ha'.2, hlf]))
    simp [hau]
  have hT : targetsAt D targets v ≠ [] := List.ne_nil_of_mem htv
  have hacc2 := hacc
  simp only [step]
  rw [coalesce_some hacc]
  simp only [htbl]
  -- the state after, abstractly
  have key : ∀ s' : State, (∀ w, w ≠ v → s'.acc w = s.acc w) → (∀ w, w ≠ v → s'.up w = s.up w) →
      ((s'.acc v = some ((targetsAt D targets v).map (fun a => (a.uuid, if a.uuid ∈ t.uuid :: S then some (ans a.uuid) else none))) ∧ s'.up v = [] ∧
          ¬ ∀ a ∈ targetsAt D targets v, a.uuid ∈ t.uuid :: S) ∨
        (s'.acc v = none ∧ (∃ m, s'.up v = [m] ∧ m.bufs = order D targets ans (D - v.length) v ∧ m.targets = tgt D targets v) ∧
          ∀ a ∈ targetsAt D targets v, a.uuid ∈ t.uuid :: S)) → Inv D targets ans (t.uuid :: S) s' := by
    intro s' h1 h2 hv
    have got : ∀ w, Got s' w ↔ Got s w := by
      intro w
      by_cases e : w = v
      · subst e
        simp only [Got, hacc]
        rcases hv with ⟨a, _⟩ | ⟨_, ⟨m, hm, _⟩, _⟩
        · simp [a]
        · simp [hm]
      · simp [Got, h1 w e, h2 w e]
    refine inv_update I hb (by omega) h1 (fun w hw => Or.inl (h2 w hw)) ?_ ?_ ?_ ?_
    · rcases hv with ⟨a, b, _⟩ | ⟨a, b, _⟩
      · exact Or.inl ⟨by simp [a], b⟩
      · exact Or.inr ⟨a, b⟩
    · intro w hwb hwl
      by_cases e : w = v
      · subst e
        rcases hv with ⟨a, b, c⟩ | ⟨a, b, c⟩
        · rw [if_neg (fun h => c h.2)]; exact a
        · rw [if_pos ⟨hT, c⟩]; exact a
      · rw [h1 w e, I.leaf w hwb hwl]
        have o := other w hwb hwl e
        have ec : (targetsAt D targets w ≠ [] ∧ ∀ t ∈ targetsAt D targets w, t.uuid ∈ S) ↔
            (targetsAt D targets w ≠ [] ∧ ∀ a ∈ targetsAt D targets w, a.uuid ∈ t.uuid :: S) := by
          constructor
          · rintro ⟨x, y⟩; exact ⟨x, fun a ha => (o a ha).2 (y a ha)⟩
          · rintro ⟨x, y⟩; exact ⟨x, fun a ha => (o a ha).1 (y a ha)⟩
        have em : (targetsAt D targets w).map (fun t => (t.uuid, if t.uuid ∈ S then some (ans t.uuid) else none)) =
            (targetsAt D targets w).map (fun a => (a.uuid, if a.uuid ∈ t.uuid :: S then some (ans a.uuid) else none)) := by
          apply List.map_congr_left
          intro a ha
          simp only [o a ha]
        rw [em]
        simp only [ec]
    · intro w hwb hwl
      have e : w ≠ v := by rintro rfl; omega
      rw [h1 w e, I.inner w hwb hwl]
      simp only [got]
    · intro w hwb hwl hn a ha
      by_cases e : w = v
      · subst e
        rcases hv with ⟨x, b, c⟩ | ⟨x, b, c⟩
        · rw [x] at hn; cases hn
        · exact c a ha
      · rw [h1 w e] at hn
        exact List.mem_cons_of_mem _ (I.sound w hwb hwl hn a ha)
  have hall : ((targetsAt D targets v).map (fun a => (a.uuid, if a.uuid ∈ t.uuid :: S then some (ans a.uuid) else none))).all (fun kv => kv.2.isSome) = true ↔
      ∀ a ∈ targetsAt D targets v, a.uuid ∈ t.uuid :: S := by
    simp only [List.all_map, List.all_eq_true, Function.comp_apply]
    constructor
    · intro h a ha
      have := h a ha
      by_cases e : a.uuid ∈ t.uuid :: S
      · exact e
      · simp only [e, if_false] at this; cases this
    · intro h a ha
      simp only [h a ha, if_true]; rfl
  by_cases hc : ∀ a ∈ targetsAt D targets v, a.uuid ∈ t.uuid :: S
  · rw [if_pos (hall.2 hc)]
    apply key
    · intro w hw; simp [hw]
    · intro w hw; simp [hw]
    · refine Or.inr ⟨by simp, ⟨_, by simp [hup]; rfl, ?_, ?_⟩, hc⟩
      · simp only [joinBufs_map, hl, Nat.sub_self, order]
        simp only [List.flatMap]
        congr 1
        apply List.map_congr_left
        intro a ha
        rw [if_pos (List.mem_cons.1 (hc a ha))]; rfl
      · simp [joinTargets, tgt, hl]
  · rw [if_neg (fun h => hc (hall.1 h))]
    apply key
    · intro w hw; simp [hw]
    · intro w hw; rfl
    · exact Or.inl ⟨by simp, by simp [hup], hc⟩

theorem inv_deliver {D targets ans S s} (I : Inv D targets ans S s) (b : Nat) (v : Path) :
    Inv D targets ans S (step D targets s (.deliver b v)) := by
  simp only [step]
  cases hq : s.up (b :: v) with
  | nil => exact I
  | cons m rest =>
    have hlen := I.upLen (b :: v)
    rw [hq] at hlen
    simp only [List.length_cons] at hlen
    have hrest : rest = [] := List.length_eq_zero_iff.1 (by omega)
    subst hrest
    have hval : Bits (b :: v) ∧ (b :: v).length ≤ D := by
      apply Classical.byContradiction
      intro h
      have := I.invalid _ h
      rw [hq] at this; cases this
    have hbv := hval.1
    rw [bits_cons] at hbv
    have hvl : v.length < D := by have := hval.2; simp at this; omega
    have hnone : s.acc (b :: v) = none := by
      cases h : s.acc (b :: v) with
      | none => rfl
      | some tbl => have := I.upNil _ _ h; rw [hq] at this; cases this
    have hbk : b ∈ kids D targets v := mem_kids.2 ⟨hbv.1, I.none_ne hval.1 hval.2 hnone⟩
    have hng : ¬ Got s (b :: v) := by intro h; have := h.2; rw [hq] at this; cases this
    have hacc := I.inner v hbv.2 hvl
    rw [if_neg (fun h => hng (h.2 b hbk))] at hacc
    have hup := I.upNil v _ hacc
    have hm := I.upMsg (b :: v) m (by simp [hq])
    have hm1 : m.bufs = order D targets ans (D - v.length - 1) (b :: v) := by
      have e2 : D - (b :: v).length = D - v.length - 1 := by simp; omega
      rw [hm.1, e2]
    have hkids : kids D targets v ≠ [] := List.ne_nil_of_mem hbk
    have hbne : ∀ w : Path, b :: w ≠ w := by
      intro w h; have := congrArg List.length h; simp at this
    have hbvne : b :: v ≠ v := hbne v
    show Inv D targets ans S (coalesce D targets { acc := s.acc, up := fun w => if w = b :: v then [] else s.up w } v b m)
    rw [coalesce_some (s := { acc := s.acc, up := fun w => if w = b :: v then [] else s.up w }) hacc]
    have htbl : ∀ s' : State, (Got s' (b :: v)) → (∀ c, c ≠ b → (Got s' (c :: v) ↔ Got s (c :: v))) →
      setKey ((kids D targets v).map (fun b => (b, if Got s (b :: v) then some (order D targets ans (D - v.length - 1) (b :: v)) else none))) b m.bufs =
      (kids D targets v).map (fun b => (b, if Got s' (b :: v) then some (order D targets ans (D - v.length - 1) (b :: v)) else none)) := by
      intro s' hg hg2
      rw [setKey_map _ (fun c => c) _ _ _ ⟨b, hbk, rfl⟩]
      apply List.map_congr_left
      intro c hc
      by_cases e : c = b
      · subst e
        simp [hg, hm1]
      · simp [e, hg2 c e]
    have key : ∀ s' : State, (∀ w, w ≠ v → s'.acc w = s.acc w) → (∀ w, w ≠ v → w ≠ b :: v → s'.up w = s.up w) → s'.up (b :: v) = [] →
        ((s'.acc v = some (setKey ((kids D targets v).map (fun b => (b, if Got s (b :: v) then some (order D targets ans (D - v.length - 1) (b :: v)) else none))) b m.bufs) ∧ s'.up v = [] ∧
            ¬ ∀ c ∈ kids D targets v, c = b ∨ Got s (c :: v)) ∨
          (s'.acc v = none ∧ (∃ m, s'.up v = [m] ∧ m.bufs = order D targets ans (D - v.length) v ∧ m.targets = tgt D targets v) ∧
            ∀ c ∈ kids D targets v, c = b ∨ Got s (c :: v))) → Inv D targets ans S s' := by
      intro s' h1 h2 h3 hv
      have gotb : Got s' (b :: v) := ⟨by rw [h1 _ hbvne]; exact hnone, h3⟩
      have got : ∀ w, w ≠ b :: v → (Got s' w ↔ Got s w) := by
        intro w hw
        by_cases e : w = v
        · subst e
          simp only [Got, hacc]
          rcases hv with ⟨a, _⟩ | ⟨_, ⟨m, hm, _⟩, _⟩
          · simp [a]
          · simp [hm]
        · simp [Got, h1 w e, h2 w e hw]
      have got2 : ∀ c, c ≠ b → (Got s' (c :: v) ↔ Got s (c :: v)) := by
        intro c hc
        apply got
        simp [hc]
      rw [htbl s' gotb got2] at hv
      have hcond : (∀ c ∈ kids D targets v, c = b ∨ Got s (c :: v)) ↔ ∀ c ∈ kids D targets v, Got s' (c :: v) := by
        constructor
        · intro h c hc
          by_cases e : c = b
          · subst e; exact gotb
          · exact (got2 c e).2 ((h c hc).resolve_left e)
        · intro h c hc
          by_cases e : c = b
          · exact Or.inl e
          · exact Or.inr ((got2 c e).1 (h c hc))
      rw [hcond] at hv
      refine inv_update I hbv.2 (by omega) h1 ?_ ?_ ?_ ?_ ?_
      · intro w hw
        by_cases e : w = b :: v
        · subst e; exact Or.inr ⟨h3, by simp⟩
        · exact Or.inl (h2 w hw e)
      · rcases hv with ⟨a, b, _⟩ | ⟨a, b, _⟩
        · exact Or.inl ⟨by simp [a], b⟩
        · exact Or.inr ⟨a, b⟩
      · intro w hwb hwl
        have e : w ≠ v := by rintro rfl; omega
        rw [h1 w e]; exact I.leaf w hwb hwl
      · intro w hwb hwl
        by_cases e : w = v
        · subst e
          rcases hv with ⟨a, _, c⟩ | ⟨a, _, c⟩
          · rw [if_neg (fun h => c h.2)]; exact a
          · rw [if_pos ⟨hkids, c⟩]; exact a
        · rw [h1 w e, I.inner w hwb hwl]
          have : ∀ c, Got s' (c :: w) ↔ Got s (c :: w) := fun c => got _ (by simp [e])
          simp only [this]
      · intro w hwb hwl hn a ha
        by_cases e : w = v
        · subst e
          rcases hv with ⟨x, _, c⟩ | ⟨x, _, c⟩
          · rw [x] at hn; cases hn
          · rw [mem_targetsAt_kids hvl] at ha
            have fin : ∀ c : Nat, c < 2 → a ∈ targetsAt D targets (c :: w) → a.uuid ∈ S := by
              intro d hd had
              have hk : d ∈ kids D targets w := mem_kids.2 ⟨hd, List.ne_nil_of_mem had⟩
              have g := (c d hk).1
              rw [h1 _ (by intro h; have := congrArg List.length h; simp at this)] at g
              exact I.sound (d :: w) (bits_cons.2 ⟨hd, hwb⟩) (by simp; omega) g a had
            rcases ha with ha | ha
            · exact fin 0 (by omega) ha
            · exact fin 1 (by omega) ha
        · rw [h1 w e] at hn
          exact I.sound w hwb hwl hn a ha
    have hall : (setKey ((kids D targets v).map (fun b => (b, if Got s (b :: v) then some (order D targets ans (D - v.length - 1) (b :: v)) else none))) b m.bufs).all (fun kv => kv.2.isSome) = true ↔
        ∀ c ∈ kids D targets v, c = b ∨ Got s (c :: v) := by
      rw [setKey_map _ (fun c => c) _ _ _ ⟨b, hbk, rfl⟩]
      simp only [List.all_map, List.all_eq_true, Function.comp_apply]
      constructor
      · intro h a ha
        have := h a ha
        by_cases e : a = b
        · exact Or.inl e
        · by_cases g : Got s (a :: v)
          · exact Or.inr g
          · simp [e, g] at this
      · intro h a ha
        rcases h a ha with e | e
        · simp [e]
        · by_cases e' : a = b <;> simp [e, e']
    by_cases hc : ∀ c ∈ kids D targets v, c = b ∨ Got s (c :: v)
    · rw [if_pos (hall.2 hc)]
      apply key
      · intro w hw; simp [hw]
      · intro w hw hw2; simp [hw, hw2]
      · simp
      · refine Or.inr ⟨by simp, ⟨_, by simp [hup]; rfl, ?_, ?_⟩, hc⟩
        · rw [setKey_map _ (fun c => c) _ _ _ ⟨b, hbk, rfl⟩]
          simp only [joinBufs_map]
          have er : D - v.length = (D - v.length - 1) + 1 := by omega
          rw [er, ← kids_flatMap_order (by omega)]
          simp only [List.flatMap]
          congr 1
          apply List.map_congr_left
          intro a ha
          by_cases e : a = b
          · subst e; simp [hm1]
          · simp [e, (hc a ha).resolve_left e]
        · rw [setKey_map _ (fun c => c) _ _ _ ⟨b, hbk, rfl⟩]
          have : v.length ≠ D := by omega
          simp only [joinTargets, tgt, this, if_false]
          rw [← kids_flatMap_targets]
          simp [List.flatMap_map]
    · rw [if_neg (fun h => hc (hall.1 h))]
      apply key
      · intro w hw; simp [hw]
      · intro w hw hw2; simp [hw2]
      · simp
      · refine Or.inl ⟨by simp, ?_, hc⟩
        simp [hup]

end IPP.Broadcast
