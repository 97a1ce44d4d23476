import Verif.Hub.RegProps

/-!
# Model of `util.ReverseDict` — util.py:58-92 (C49)

A dict of the code is an association list (first entry wins, at most one per key). Keys and values are of one type, as in the class (engine ids are ints, uuids strings).
-/
namespace IPP.Util
open IPP.Hub (getKey setKey delKey getKey_some getKey_none)

section assoc
variable {κ α : Type} [DecidableEq κ]

theorem getKey_append_new (d : List (κ × α)) (k j : κ) (v : α) (h : k ∉ d.map Prod.fst) : getKey (d ++ [(k, v)]) j = if j = k then some v else getKey d j := by
  unfold getKey
  rw [List.find?_append]
  by_cases hj : j = k
  · subst hj
    have : d.find? (fun x => decide (x.1 = j)) = none := by
      rw [List.find?_eq_none]
      intro x hx hc
      simp only [decide_eq_true_eq] at hc
      exact h (hc ▸ List.mem_map.2 ⟨x, hx, rfl⟩)
    simp [this]
  · have hk : ¬ k = j := fun h => hj h.symm
    simp [hj, hk]

theorem getKey_setKey (d : List (κ × α)) (k j : κ) (v : α) : getKey (setKey d k v) j = if j = k then some v else getKey d j := by
  unfold setKey
  by_cases hm : k ∈ d.map Prod.fst
  · rw [if_pos hm]
    induction d with
    | nil => simp at hm
    | cons a d ih =>
      by_cases ha : a.1 = k
      · by_cases hj : j = k
        · subst hj; simp [getKey, ha]
        · have hk : ¬ k = j := fun h => hj h.symm
          have e : ∀ (d : List (κ × α)), getKey (d.map (fun x => if x.1 = k then (k, v) else x)) j = getKey d j := by
            intro d
            induction d with
            | nil => rfl
            | cons b d ihd =>
              simp only [getKey, List.map_cons, List.find?_cons] at *
              by_cases hb : b.1 = k
              · have : ¬ b.1 = j := by rw [hb]; exact hk
                simp only [hb, if_true, hk, decide_false]
                exact ihd
              · by_cases hbj : b.1 = j
                · simp [hb, hbj, hj]
                · simp only [hb, if_false, hbj, decide_false]
                  exact ihd
          rw [e, if_neg hj]
      · have hm' : k ∈ d.map Prod.fst := by
          simp only [List.map_cons, List.mem_cons] at hm
          exact hm.resolve_left (fun h => ha h.symm)
        have := ih hm'
        simp only [getKey, List.map_cons, List.find?_cons, ha, if_false] at this ⊢
        by_cases haj : a.1 = j
        · have hjk : ¬ j = k := fun h => ha (haj.trans h)
          simp [haj, hjk]
        · simp only [haj, decide_false]
          exact this
  · rw [if_neg hm]
    exact getKey_append_new d k j v hm

theorem getKey_delKey (d : List (κ × α)) (k j : κ) : getKey (delKey d k) j = if j = k then none else getKey d j := by
  unfold delKey
  induction d with
  | nil => simp [getKey]
  | cons a d ih =>
    by_cases ha : a.1 = k
    · rw [List.filter_cons_of_neg (by simp [ha]), ih]
      by_cases hj : j = k
      · simp [hj]
      · have hk : ¬ k = j := fun h => hj h.symm
        simp [hj, getKey, ha, hk]
    · rw [List.filter_cons_of_pos (by simp [ha])]
      simp only [getKey, List.find?_cons] at ih ⊢
      by_cases haj : a.1 = j
      · have : ¬ j = k := fun h => ha (haj.trans h)
        simp [haj, this]
      · simp only [haj, decide_false]
        exact ih

end assoc

variable {K : Type} [DecidableEq K]

/-- `dict` part and `_reverse` — util.py:59-66 -/
structure RDict (K : Type) where
  fwd : List (K × K)
  rev : List (K × K)
  deriving DecidableEq, Repr

/-- util.py:59-66 -/
def RDict.empty : RDict K := { fwd := [], rev := [] }

/-- `__getitem__` — util.py:67-71; `none`: KeyError. -/
def RDict.item (d : RDict K) (k : K) : Option K := match getKey d.fwd k with
  | some v => some v
  | none => getKey d.rev k

/-- `__setitem__` — util.py:73-77. The flag: KeyError. -/
def RDict.set (d : RDict K) (k v : K) : RDict K × Bool :=
  if (getKey d.rev k).isSome then (d, true)
  else ({ fwd := setKey d.fwd k v, rev := setKey d.rev v k }, false)

/-- `pop` — util.py:79-82. `none`: KeyError. -/
def RDict.pop (d : RDict K) (k : K) : RDict K × Option K :=
  match getKey d.fwd k with
  | none => (d, none)
  | some v => match getKey d.rev v with
    | none => ({ d with fwd := delKey d.fwd k }, none)
    | some _ => ({ fwd := delKey d.fwd k, rev := delKey d.rev v }, some v)

/-- util.py:68-94 -/
inductive ROp (K : Type) where
  | set (k v : K)
  | pop (k : K)
  deriving DecidableEq, Repr

/-- util.py:68-94 -/
def RDict.step (d : RDict K) : ROp K → RDict K
  | .set k v => (d.set k v).1
  | .pop k => (d.pop k).1

/-- a sequence of calls of util.py:68-94 -/
def RDict.run (ops : List (ROp K)) : RDict K := ops.foldl RDict.step RDict.empty

/-! ## Specification -/

/-- What the map should be: a set of pairs, given by the operations that took effect. -/
def pairsStep (p : K → K → Prop) : ROp K → K → K → Prop
  | .set k v => fun k' v' => p k' v' ∨ (k' = k ∧ v' = v)
  | .pop k => fun k' v' => p k' v' ∧ k' ≠ k

/-- The operation does not re-bind a key or a value that is in use (setting the same pair again is fine), nor use something as key and as value. -/
def Proper (p : K → K → Prop) : ROp K → Prop
  | .set k v => k ≠ v ∧ (∀ v', p k v' → v' = v) ∧ (∀ k', p k' v → k' = k) ∧ (∀ k', ¬ p k' k) ∧ (∀ v', ¬ p v v')
  | .pop _ => True

/-- every operation of the history is proper in the map that the earlier ones made -/
def ProperRun : (K → K → Prop) → List (ROp K) → Prop
  | _, [] => True
  | p, op :: ops => Proper p op ∧ ProperRun (pairsStep p op) ops

def pairsRun (ops : List (ROp K)) : K → K → Prop := ops.foldl pairsStep (fun _ _ => False)

/-! ## Proof -/

structure Bij (d : RDict K) (p : K → K → Prop) : Prop where
  fwd : ∀ k v, getKey d.fwd k = some v ↔ p k v
  rev : ∀ k v, getKey d.rev v = some k ↔ p k v
  sides : ∀ k k' v, p k v → ¬ p k' k

theorem Bij.step {d : RDict K} {p : K → K → Prop} (h : Bij d p) (op : ROp K) (hp : Proper p op) : Bij (d.step op) (pairsStep p op) := by
  cases op with
  | set k v =>
    obtain ⟨h0, h1, h2, h3, h4⟩ := hp
    have hr : getKey d.rev k = none := by
      cases hk : getKey d.rev k with
      | none => rfl
      | some k' => exact absurd ((h.rev k' k).1 hk) (h3 k')
    simp only [RDict.step, RDict.set, hr, Option.isSome_none, Bool.false_eq_true, if_false]
    refine ⟨?_, ?_, ?_⟩
    · intro k' v'
      rw [getKey_setKey]
      simp only [pairsStep]
      by_cases hk : k' = k
      · subst hk
        simp only [if_true, Option.some.injEq]
        constructor
        · rintro rfl; simp
        · rintro (h' | ⟨-, h'⟩)
          · exact (h1 v' h').symm
          · exact h'.symm
      · simp [hk, h.fwd]
    · intro k' v'
      rw [getKey_setKey]
      simp only [pairsStep]
      by_cases hv : v' = v
      · subst hv
        simp only [if_true, Option.some.injEq]
        constructor
        · rintro rfl; simp
        · rintro (h' | ⟨h', -⟩)
          · exact (h2 k' h').symm
          · exact h'.symm
      · simp [hv, h.rev]
    · intro k1 k2 v1 hp1 hp2
      simp only [pairsStep] at hp1 hp2
      rcases hp1 with hp1 | ⟨rfl, rfl⟩
      · rcases hp2 with hp2 | ⟨rfl, rfl⟩
        · exact h.sides _ _ _ hp1 hp2
        · exact h4 _ hp1
      · rcases hp2 with hp2 | ⟨-, h5⟩
        · exact h3 _ hp2
        · exact h0 h5
  | pop k =>
    simp only [RDict.step, RDict.pop]
    cases hf : getKey d.fwd k with
    | none =>
      have hn : ∀ v, ¬ p k v := fun v hv => by rw [(h.fwd k v).2 hv] at hf; cases hf
      have : pairsStep p (.pop k) = p := by
        funext k' v'
        simp only [pairsStep, eq_iff_iff, and_iff_left_iff_imp]
        rintro hkv rfl
        exact hn _ hkv
      rw [this]; exact h
    | some v =>
      have hpv := (h.fwd k v).1 hf
      simp only [(h.rev k v).2 hpv]
      refine ⟨?_, ?_, ?_⟩
      · intro k' v'
        rw [getKey_delKey]
        simp only [pairsStep]
        by_cases hk : k' = k
        · simp [hk]
        · simp [hk, h.fwd]
      · intro k' v'
        rw [getKey_delKey]
        simp only [pairsStep]
        by_cases hv : v' = v
        · subst hv
          simp only [if_true, reduceCtorEq, false_iff, not_and, Decidable.not_not]
          intro hk
          have := (h.rev k' v').2 hk
          rw [(h.rev k v').2 hpv] at this
          exact (Option.some.inj this).symm
        · simp only [hv, if_false, h.rev]
          constructor
          · intro hk
            refine ⟨hk, ?_⟩
            rintro rfl
            have := (h.fwd _ _).2 hk
            rw [hf] at this
            exact hv (Option.some.inj this).symm
          · exact fun h' => h'.1
      · intro k1 k2 v1 h1 h2
        exact h.sides _ _ _ h1.1 h2.1

theorem bij_run (ops : List (ROp K)) : ∀ (d : RDict K) (p : K → K → Prop), Bij d p → ProperRun p ops → Bij (ops.foldl RDict.step d) (ops.foldl pairsStep p) := by
  induction ops with
  | nil => intro d p h _; exact h
  | cons op ops ih => intro d p h hp; exact ih _ _ (h.step op hp.1) hp.2

theorem bij_empty : Bij (RDict.empty : RDict K) (fun _ _ => False) := ⟨by simp [RDict.empty, getKey], by simp [RDict.empty, getKey], by simp⟩

theorem item_iff {d : RDict K} {p : K → K → Prop} (h : Bij d p) (a b : K) : d.item a = some b ↔ p a b ∨ p b a := by
  unfold RDict.item
  cases hf : getKey d.fwd a with
  | some v =>
    simp only [Option.some.injEq]
    have hpv := (h.fwd a v).1 hf
    constructor
    · rintro rfl; exact .inl hpv
    · rintro (h' | h')
      · have := (h.fwd a b).2 h'
        rw [hf] at this
        exact Option.some.inj this
      · exact absurd h' (h.sides _ _ _ hpv)
  | none =>
    simp only [h.rev]
    constructor
    · exact .inr
    · rintro (h' | h')
      · rw [(h.fwd a b).2 h'] at hf; cases hf
      · exact h'

/-- **C49** After any proper history, looking up either side of a stored pair gives the other side, and nothing else is found: indexing is the symmetric closure of the
pairs that were set and not popped. -/
theorem lookup_exact_partial (ops : List (ROp K)) (h : ProperRun (fun _ _ => False) ops) (a b : K) :
    (RDict.run ops).item a = some b ↔ pairsRun ops a b ∨ pairsRun ops b a :=
  item_iff (bij_run ops _ _ bij_empty h) a b

/-- **C49** … so it is an involution. -/
theorem lookup_involutive_partial (ops : List (ROp K)) (h : ProperRun (fun _ _ => False) ops) (a b : K) :
    (RDict.run ops).item a = some b ↔ (RDict.run ops).item b = some a := by
  rw [lookup_exact_partial ops h, lookup_exact_partial ops h]
  exact or_comm

/-- **C49** `pop(k)` returns the partner and makes both unknown, and changes no other lookup. -/
theorem pop_removes_both_partial (ops : List (ROp K)) (h : ProperRun (fun _ _ => False) ops) (k v : K) (hk : pairsRun ops k v) :
    ((RDict.run ops).pop k).2 = some v ∧ ((RDict.run ops).pop k).1.item k = none ∧ ((RDict.run ops).pop k).1.item v = none ∧
    ∀ a, a ≠ k → a ≠ v → ((RDict.run ops).pop k).1.item a = (RDict.run ops).item a := by
  have hb : Bij (RDict.run ops) (pairsRun ops) := bij_run ops _ _ bij_empty h
  have hb' : Bij ((RDict.run ops).pop k).1 (pairsStep (pairsRun ops) (.pop k)) := hb.step (.pop k) trivial
  have hf := (hb.fwd k v).2 hk
  have hr := (hb.rev k v).2 hk
  refine ⟨by simp [RDict.pop, hf, hr], ?_, ?_, ?_⟩
  · cases hi : ((RDict.run ops).pop k).1.item k with
    | none => rfl
    | some b =>
      rcases (item_iff hb' k b).1 hi with h' | h'
      · exact absurd rfl h'.2
      · exact absurd h'.1 (hb.sides _ _ _ hk)
  · cases hi : ((RDict.run ops).pop k).1.item v with
    | none => rfl
    | some b =>
      rcases (item_iff hb' v b).1 hi with h' | h'
      · exact absurd hk (hb.sides _ _ _ h'.1)
      · have := (hb.rev b v).2 h'.1
        rw [hr] at this
        exact absurd (Option.some.inj this).symm h'.2
  · intro a ha1 ha2
    apply Option.ext
    intro b
    rw [item_iff hb', item_iff hb]
    simp only [pairsStep]
    constructor
    · rintro (h' | h')
      · exact .inl h'.1
      · exact .inr h'.1
    · rintro (h' | h')
      · exact .inl ⟨h', ha1⟩
      · refine .inr ⟨h', ?_⟩
        rintro rfl
        have := (hb.fwd _ _).2 h'
        rw [hf] at this
        exact ha2 (Option.some.inj this).symm

/-- a key that is already a value is refused, and then nothing changes -/
theorem set_refused_iff (d : RDict K) (k v : K) : (d.set k v).2 = true ↔ ∃ k', getKey d.rev k = some k' := by
  unfold RDict.set
  split
  · rename_i h; simp [Option.isSome_iff_exists.1 h]
  · rename_i h
    simp only [Bool.false_eq_true, false_iff]
    rintro ⟨k', hk⟩
    simp [hk] at h

/-! ## non-vacuity, and what happens otherwise -/

def exOps : List (ROp Nat) := [.set 0 100, .set 1 101, .set 0 100, .pop 0, .set 2 100, .pop 7]

example : (RDict.run exOps).item 100 = some 2 ∧ (RDict.run exOps).item 2 = some 100 ∧ (RDict.run exOps).item 0 = none ∧ (RDict.run exOps).item 101 = some 1 := by decide

example : ProperRun (fun _ _ => False) exOps := by
  simp [exOps, ProperRun, Proper, pairsStep]

/-- **C49 is violated**: binding a key to a new value leaves the old value pointing at the key, and popping the key does not remove it. -/
theorem rebinding_violated :
    let d : RDict Nat := RDict.run [.set 0 100, .set 0 101]
    d.item 0 = some 101 ∧ d.item 100 = some 0 ∧ (d.pop 0).1.item 100 = some 0 := by decide

/-- **C49 is violated**: two keys with the same value; popping both ends in KeyError with the second one half removed. -/
theorem same_value_violated :
    let d : RDict Nat := RDict.run [.set 0 100, .set 1 100]
    d.item 0 = some 100 ∧ d.item 100 = some 1 ∧ ((d.pop 0).1.pop 1).2 = none := by decide

/-- **C49 is violated**: removing by the value side is KeyError and removes nothing. -/
theorem pop_value_violated :
    let d : RDict Nat := RDict.run [.set 0 100]
    d.item 100 = some 0 ∧ (d.pop 100).2 = none ∧ (d.pop 100).1 = d := by decide

end IPP.Util
