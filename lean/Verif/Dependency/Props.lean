import Verif.Dependency.Model

/-!
# Properties of dependencies (C13, C14)
-/
set_option linter.unusedSimpArgs false

namespace IPP

/-! ### Specification -/

/-- Task `i` has finished in a way the dependency accepts. -/
def Acceptable (d : Dep) (completed failed : List MsgId) (i : MsgId) : Prop :=
  (d.success = true ∧ i ∈ completed) ∨ (d.failure = true ∧ i ∈ failed)

/-- A dependency is satisfied: it is empty, or all / some of its tasks finished acceptably. -/
def Satisfied (d : Dep) (completed failed : List MsgId) : Prop :=
  d.ids = [] ∨ (d.all = true ∧ ∀ i ∈ d.ids, Acceptable d completed failed i)
    ∨ (d.all = false ∧ ∃ i ∈ d.ids, Acceptable d completed failed i)

/-- `(c', f')` is a possible continuation of the history `(c, f)`: finished tasks stay finished the way they did, and no task both
succeeds and fails. -/
def Extends (c f c' f' : List MsgId) : Prop :=
  (∀ i ∈ c, i ∈ c') ∧ (∀ i ∈ f, i ∈ f') ∧ ∀ i, ¬ (i ∈ c' ∧ i ∈ f')

/-! ### C13 -/

theorem subset_iff (s t : List MsgId) : subset s t = true ↔ ∀ i ∈ s, i ∈ t := by
  simp [subset]

theorem disjoint_iff (s t : List MsgId) : disjoint s t = true ↔ ∀ i ∈ s, i ∉ t := by
  simp [disjoint]

theorem not_disjoint_iff (s t : List MsgId) : (!disjoint s t) = true ↔ ∃ i ∈ s, i ∈ t := by
  rw [Bool.not_eq_true', ← Bool.not_eq_true, disjoint_iff]
  constructor
  · intro h
    apply Classical.byContradiction
    intro h'
    exact h (fun i hi hit => h' ⟨i, hi, hit⟩)
  · rintro ⟨i, hi, hit⟩ h
    exact h i hi hit

theorem mem_difference (s t : List MsgId) (i : MsgId) : i ∈ difference s t ↔ i ∈ s ∧ i ∉ t := by
  simp [difference]

/-- **C13.** `check` computes exactly the specified satisfaction. -/
theorem check_iff (d : Dep) (c f : List MsgId) : d.check c (some f) = true ↔ Satisfied d c f := by
  obtain ⟨ids, all, success, failure⟩ := d
  cases ids with
  | nil => simp [Dep.check, Satisfied]
  | cons a ids =>
    cases all <;> cases success <;> cases failure <;>
      simp only [Dep.check, Satisfied, Acceptable, subset_iff, not_disjoint_iff, List.mem_append, List.length_cons,
        Nat.add_eq_zero_iff, Nat.one_ne_zero, and_false, if_false, if_true, reduceCtorEq, false_or, true_and, false_and, or_false,
        Bool.false_eq_true, List.append_nil, List.not_mem_nil, Bool.true_eq_false, List.nil_append]

/-- **C13 (no failure information).** With `failed=None` only successes count. -/
theorem check_none_iff (d : Dep) (c : List MsgId) : d.check c none = true ↔ Satisfied d c [] := by
  obtain ⟨ids, all, success, failure⟩ := d
  cases ids with
  | nil => simp [Dep.check, Satisfied]
  | cons a ids =>
    cases all <;> cases success <;> cases failure <;>
      simp only [Dep.check, Satisfied, Acceptable, subset_iff, not_disjoint_iff, List.mem_append, List.length_cons,
        Nat.add_eq_zero_iff, Nat.one_ne_zero, and_false, if_false, if_true, reduceCtorEq, false_or, true_and, false_and, or_false,
        Bool.false_eq_true, List.append_nil, List.not_mem_nil, Bool.true_eq_false, List.nil_append]

example : Satisfied { ids := [1, 2], failure := true } [1] [2] :=
  (check_iff _ _ _).1 (by decide)
example : ¬ Satisfied { ids := [1, 2] } [1] [2] := fun h => absurd ((check_iff _ _ _).2 h) (by decide)

/-- The flags are validated: a dependency on neither success nor failure cannot be built. -/
theorem mk_rejects (ids : List MsgId) (all success failure : Bool) :
    Dep.mk? ids all success failure = none ↔ success = false ∧ failure = false := by
  cases success <;> cases failure <;> simp [Dep.mk?]

/-- Sending a dependency over the wire (`as_dict`) and reading it back preserves it. -/
theorem dict_round_trip (d : Dep) (h : d.success = true ∨ d.failure = true) : Dep.ofDict d.asDict = some d := by
  obtain ⟨ids, all, success, failure⟩ := d
  simp only [Dep.ofDict, Dep.asDict, Dep.mk?, Option.getD_some]
  cases success <;> cases failure <;> simp_all

/-- C13: a dict that only names tasks (missing keys take the documented defaults: wait for all, for success, not for failure) is
satisfied exactly when every named task has completed successfully; a dict with no tasks always is. -/
theorem of_dict_defaults (ids : Option (List MsgId)) :
    ∃ d, Dep.ofDict ⟨ids, none, none, none⟩ = some d ∧ ∀ c f : List MsgId, d.check c (some f) = true ↔ ∀ i ∈ ids.getD [], i ∈ c := by
  refine ⟨⟨ids.getD [], true, true, false⟩, rfl, ?_⟩
  intro c f
  rw [check_iff]
  cases ids with
  | none => simp [Satisfied]
  | some l => cases l <;> simp [Satisfied, Acceptable]

example : Dep.ofDict ⟨some [3, 4], none, none, none⟩ = some ⟨[3, 4], true, true, false⟩ := rfl

/-! ### C14 -/

/-- What `unreachable` computes. -/
theorem unreachable_iff (d : Dep) (c f : List MsgId) :
    d.unreachable c (some f) = true ↔ d.ids ≠ [] ∧
      ((d.all = true ∧ ∃ i ∈ d.ids, (d.success = false ∧ i ∈ c) ∨ (d.failure = false ∧ i ∈ f)) ∨
       (d.all = false ∧ ∀ i ∈ d.ids, (d.success = false ∧ i ∈ c) ∨ (d.failure = false ∧ i ∈ f))) := by
  obtain ⟨ids, all, success, failure⟩ := d
  cases ids with
  | nil => simp [Dep.unreachable]
  | cons a ids =>
    cases all <;> cases success <;> cases failure <;>
      simp only [Dep.unreachable, subset_iff, not_disjoint_iff, List.mem_append, List.length_cons,
        Nat.add_eq_zero_iff, Nat.one_ne_zero, and_false, if_false, if_true, reduceCtorEq, false_or, true_and, false_and, or_false,
        Bool.false_eq_true, List.append_nil, List.not_mem_nil, Bool.true_eq_false, List.nil_append, Bool.not_true, Bool.not_false,
        ne_eq, not_false_eq_true]

/-- **C14 (exactness).** For a constructible dependency and a consistent history, `unreachable` is reported exactly when no continuation
of the history satisfies the dependency. -/
theorem unreachable_exact (d : Dep) (hd : d.success = true ∨ d.failure = true) (c f : List MsgId)
    (hcons : ∀ i, ¬ (i ∈ c ∧ i ∈ f)) :
    d.unreachable c (some f) = true ↔ ∀ c' f', Extends c f c' f' → ¬ Satisfied d c' f' := by
  rw [unreachable_iff]
  constructor
  · rintro ⟨hne, h⟩ c' f' ⟨h1, h2, h3⟩ hs
    rcases hs with hs | ⟨ha, hs⟩ | ⟨ha, hs⟩
    · exact hne hs
    · rcases h with ⟨_, i, hi, hb⟩ | ⟨ha', _⟩
      · rcases hs i hi with ⟨a1, a2⟩ | ⟨a1, a2⟩ <;> rcases hb with ⟨b1, b2⟩ | ⟨b1, b2⟩
        · rw [a1] at b1; cases b1
        · exact h3 i ⟨a2, h2 i b2⟩
        · exact h3 i ⟨h1 i b2, a2⟩
        · rw [a1] at b1; cases b1
      · rw [ha] at ha'; cases ha'
    · rcases h with ⟨ha', _⟩ | ⟨_, hb⟩
      · rw [ha] at ha'; cases ha'
      · obtain ⟨i, hi, hacc⟩ := hs
        rcases hacc with ⟨a1, a2⟩ | ⟨a1, a2⟩ <;> rcases hb i hi with ⟨b1, b2⟩ | ⟨b1, b2⟩
        · rw [a1] at b1; cases b1
        · exact h3 i ⟨a2, h2 i b2⟩
        · exact h3 i ⟨h1 i b2, a2⟩
        · rw [a1] at b1; cases b1
  · intro h
    have hne : d.ids ≠ [] := fun he => h c f ⟨fun _ h => h, fun _ h => h, hcons⟩ (Or.inl he)
    refine ⟨hne, ?_⟩
    -- the best continuation: every unfinished task finishes in an acceptable way
    let rest := d.ids.filter (fun i => !c.contains i && !f.contains i)
    have hrest : ∀ i, i ∈ rest ↔ i ∈ d.ids ∧ i ∉ c ∧ i ∉ f := by intro i; simp [rest]
    have hgood : ∀ i ∈ d.ids, ¬ ((d.success = false ∧ i ∈ c) ∨ (d.failure = false ∧ i ∈ f)) →
        Acceptable d (if d.success then c ++ rest else c) (if d.success then f else f ++ rest) i := by
      intro i hi hb
      unfold Acceptable
      cases hs : d.success with
      | true =>
        simp only [hs, Bool.true_eq_false, false_and, false_or, not_and, if_true, List.mem_append, true_and] at *
        by_cases h1 : i ∈ c
        · exact Or.inl (Or.inl h1)
        · by_cases h2 : i ∈ f
          · right
            refine ⟨?_, h2⟩
            cases hf : d.failure with
            | true => rfl
            | false => exact absurd h2 (hb hf)
          · exact Or.inl (Or.inr ((hrest i).2 ⟨hi, h1, h2⟩))
      | false =>
        have hf : d.failure = true := by simpa [hs] using hd
        right
        refine ⟨hf, ?_⟩
        simp only [hs, hf, true_and, Bool.true_eq_false, false_and, or_false] at hb
        simp only [Bool.false_eq_true, if_false, List.mem_append]
        by_cases h2 : i ∈ f
        · exact Or.inl h2
        · exact Or.inr ((hrest i).2 ⟨hi, hb, h2⟩)
    have hext : Extends c f (if d.success then c ++ rest else c) (if d.success then f else f ++ rest) := by
      refine ⟨?_, ?_, ?_⟩
      · intro i hi; split <;> simp [hi]
      · intro i hi; split <;> simp [hi]
      · rintro i ⟨h1, h2⟩
        cases hs : d.success with
        | true =>
          simp only [hs, if_true, List.mem_append, hrest] at h1 h2
          rcases h1 with h1 | h1
          · exact hcons i ⟨h1, h2⟩
          · exact h1.2.2 h2
        | false =>
          simp only [hs, Bool.false_eq_true, if_false, List.mem_append, hrest] at h1 h2
          rcases h2 with h2 | h2
          · exact hcons i ⟨h1, h2⟩
          · exact h2.2.1 h1
    have hns := h _ _ hext
    cases ha : d.all with
    | true =>
      left
      refine ⟨rfl, ?_⟩
      apply Classical.byContradiction
      intro hno
      apply hns
      exact Or.inr (Or.inl ⟨ha, fun i hi => hgood i hi (fun hb => hno ⟨i, hi, hb⟩)⟩)
    | false =>
      right
      refine ⟨rfl, ?_⟩
      intro i hi
      apply Classical.byContradiction
      intro hb
      apply hns
      exact Or.inr (Or.inr ⟨ha, i, hi, hgood i hi hb⟩)

/-- **C14 (met is permanent).** A met dependency stays met in every continuation. -/
theorem check_permanent (d : Dep) (c f c' f' : List MsgId) (he : Extends c f c' f')
    (h : d.check c (some f) = true) : d.check c' (some f') = true := by
  rw [check_iff] at *
  have hacc : ∀ i, Acceptable d c f i → Acceptable d c' f' i := by
    rintro i (⟨a, b⟩ | ⟨a, b⟩)
    · exact Or.inl ⟨a, he.1 i b⟩
    · exact Or.inr ⟨a, he.2.1 i b⟩
  rcases h with h | ⟨ha, h⟩ | ⟨ha, i, hi, h⟩
  · exact Or.inl h
  · exact Or.inr (Or.inl ⟨ha, fun i hi => hacc i (h i hi)⟩)
  · exact Or.inr (Or.inr ⟨ha, i, hi, hacc i h⟩)

/-- **C14 (unreachable is permanent).** -/
theorem unreachable_permanent (d : Dep) (c f c' f' : List MsgId) (he : Extends c f c' f')
    (h : d.unreachable c (some f) = true) : d.unreachable c' (some f') = true := by
  rw [unreachable_iff] at *
  have hb : ∀ i, ((d.success = false ∧ i ∈ c) ∨ (d.failure = false ∧ i ∈ f)) →
      ((d.success = false ∧ i ∈ c') ∨ (d.failure = false ∧ i ∈ f')) := by
    rintro i (⟨a, b⟩ | ⟨a, b⟩)
    · exact Or.inl ⟨a, he.1 i b⟩
    · exact Or.inr ⟨a, he.2.1 i b⟩
  refine ⟨h.1, ?_⟩
  rcases h.2 with ⟨ha, i, hi, h⟩ | ⟨ha, h⟩
  · exact Or.inl ⟨ha, i, hi, hb i h⟩
  · exact Or.inr ⟨ha, fun i hi => hb i (h i hi)⟩

/-- **C14 (exclusive).** Never both met and unreachable. -/
theorem not_check_and_unreachable (d : Dep) (hd : d.success = true ∨ d.failure = true) (c f : List MsgId)
    (hcons : ∀ i, ¬ (i ∈ c ∧ i ∈ f)) : ¬ (d.check c (some f) = true ∧ d.unreachable c (some f) = true) := by
  rintro ⟨h1, h2⟩
  exact (unreachable_exact d hd c f hcons).1 h2 c f ⟨fun _ h => h, fun _ h => h, hcons⟩ ((check_iff d c f).1 h1)

example : (Dep.unreachable { ids := [1, 2] } [1] (some [2])) = true := by decide
example : Extends [1] [2] [1, 3] [2] := by
  refine ⟨by simp, by simp, ?_⟩
  rintro i ⟨h1, h2⟩
  simp only [List.mem_cons, List.not_mem_nil, or_false] at h1 h2
  subst h2
  rcases h1 with h1 | h1 <;> cases h1

end IPP
