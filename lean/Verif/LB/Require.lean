import Verif.LB.Props
/-!
# `@require` (controller/dependency.py:64-125)
-/
namespace IPP.LB
open IPP.Namespace

variable {V : Type}

/-! ## Model -/

/-- how `import name` ends — controller/dependency.py:64-78 -/
inductive Imported where
  | ok
  | importError
  | other (e : Err)

/-- the import system: `exec(f'import {name}', user_ns)` — controller/dependency.py:64-78 -/
abbrev Importer (V : Type) := String → Space V → Space V × Imported

/-- the first loop of `_require` (dependency.py:71-75) -/
def importAll (imp : Importer V) : List String → Space V → Space V × Option Err
  | [], ns => (ns, none)
  | n :: t, ns => match imp n ns with
    | (ns1, .ok) => importAll imp t ns1
    | (ns1, .importError) => (ns1, some unmet)
    | (ns1, .other e) => (ns1, some e)

/-- the second loop (dependency.py:77-78) -/
def assignAll (mapping : List (String × V)) (ns : Space V) : Space V := mapping.foldl (fun n e => set e.1 (.user e.2) n) ns

/-- `_require(*modules, **mapping)` (dependency.py:64-79); `yes` is `True`. Simplification: restoring the mapped objects cannot fail. -/
def requireFn (imp : Importer V) (yes : V) (names : List String) (mapping : List (String × V)) : Fn V := fun ns _ _ =>
  match importAll imp names ns with
  | (ns1, some e) => (ns1, .raised e)
  | (ns1, none) => (assignAll mapping ns1, .ok (.val yes))

/-- what is passed to `require` by position — controller/dependency.py:81-125 -/
inductive Obj (V : Type) where
  | str (name : String)
  | module (name : String)
  /-- it has a `__name__` -/
  | named (name : String) (v : V)
  | other

/-- the loop of `require` (dependency.py:106-120): the modules' names and the mapping, or `TypeError` -/
def requireArgs : List (Obj V) → List (String × V) → Option (List String × List (String × V))
  | [], mapping => some ([], mapping)
  | .str n :: t, mapping => (requireArgs t mapping).map fun r => (n :: r.1, r.2)
  | .module n :: t, mapping => (requireArgs t mapping).map fun r => (n :: r.1, r.2)
  | .named n v :: t, mapping => requireArgs t (set n v mapping)
  | .other :: _, _ => none

/-- `require(*objects, **mapping)(f)` (dependency.py:82-125) -/
def require (imp : Importer V) (yes : V) (objects : List (Obj V)) (mapping : List (String × V)) (f : Callable V) : Option (Callable V) :=
  (requireArgs objects mapping).map fun r => .dep f (requireFn imp yes r.1 r.2) [] []

/-! ## Specification -/

/-- the modules can be imported one after the other -/
inductive Imports (imp : Importer V) : List String → Space V → Space V → Prop
  | nil (ns : Space V) : Imports imp [] ns ns
  | cons {n : String} {t : List String} {ns ns1 ns2 : Space V} : imp n ns = (ns1, .ok) → Imports imp t ns1 ns2 → Imports imp (n :: t) ns ns2

/-- the modules among the objects -/
def modules (l : List (Obj V)) : List String := l.filterMap fun
  | .str n => some n
  | .module n => some n
  | _ => none

/-- the value for the name `k`: the last object with this `__name__`, or the keyword argument -/
def provided (k : String) (objects : List (Obj V)) (mapping : List (String × V)) : Option V :=
  match objects.reverse.findSome? (fun | .named n v => if n = k then some v else none | _ => none) with
  | some v => some v
  | none => get k mapping

/-! ## Theorems -/

theorem importAll_ok {imp : Importer V} {names : List String} {ns ns' : Space V} : importAll imp names ns = (ns', none) ↔ Imports imp names ns ns' := by
  constructor
  · intro h
    induction names generalizing ns with
    | nil => simp [importAll] at h; subst h; exact .nil _
    | cons n t ih =>
      simp only [importAll] at h
      rcases hi : imp n ns with ⟨ns1, _ | _ | e⟩
      · rw [hi] at h; exact .cons hi (ih h)
      · rw [hi] at h; simp at h
      · rw [hi] at h; simp at h
  · intro h
    induction h with
    | nil => rfl
    | cons hi _ ih => simp only [importAll, hi, ih]

theorem get_assignAll (k : String) : ∀ (mapping : List (String × V)) (ns : Space V), (mapping.map (·.1)).Nodup →
    get k (assignAll mapping ns) = match get k mapping with | some v => some (.user v) | none => get k ns
  | [], ns, _ => rfl
  | e :: t, ns, h => by
    rw [List.map_cons, List.nodup_cons] at h
    show get k (assignAll t (set e.1 (.user e.2) ns)) = _
    rw [get_assignAll k t _ h.2, get_set]
    show _ = match (if e.1 = k then some e.2 else get k t) with | some v => some (Cell.user v) | none => get k ns
    by_cases hk : e.1 = k
    · have h0 : get k t = none := (get_none_iff k t).2 (hk ▸ h.1)
      rw [h0, if_pos hk, if_pos hk.symm]
    · rw [if_neg hk, if_neg (fun h => hk h.symm)]

theorem set_keys {A : Type} (k : String) (v : A) : ∀ (l : List (String × A)), (set k v l).map (·.1) = if k ∈ l.map (·.1) then l.map (·.1) else l.map (·.1) ++ [k]
  | [] => rfl
  | e :: t => by
    simp only [Namespace.set]
    by_cases h : e.1 = k
    · rw [if_pos h]; simp [h]
    · rw [if_neg h, List.map_cons, set_keys k v t, List.map_cons]
      have h' : ¬ k = e.1 := fun h1 => h h1.symm
      simp only [List.mem_cons, h', false_or]
      split <;> rfl

theorem set_nodup {A : Type} (k : String) (v : A) (l : List (String × A)) (h : (l.map (·.1)).Nodup) : ((set k v l).map (·.1)).Nodup := by
  rw [set_keys]
  split
  · exact h
  · rename_i hk
    exact List.nodup_append.2 ⟨h, by simp, fun a ha b hb => by simp at hb; subst hb; exact fun he => hk (he ▸ ha)⟩

/-- **What `require` asks for**: it is refused exactly if some object is no module, no string and has no name; otherwise the modules are to be imported in this order, and each name is to stand for
the last object with this name, or else for the keyword argument. -/
theorem require_args (objects : List (Obj V)) (mapping : List (String × V)) (hn : (mapping.map (·.1)).Nodup) :
    match requireArgs objects mapping with
    | none => Obj.other ∈ objects
    | some (names, mp) => Obj.other ∉ objects ∧ names = modules objects ∧ (mp.map (·.1)).Nodup ∧ ∀ k, get k mp = provided k objects mapping := by
  induction objects generalizing mapping with
  | nil => exact ⟨by simp, rfl, hn, fun k => rfl⟩
  | cons o t ih =>
    have keep : (∀ k, (fun x : Obj V => match x with | .named n v => if n = k then some v else none | _ => none) o = none) → ∀ k, provided k (o :: t) mapping = provided k t mapping := by
      intro h k
      unfold provided
      rw [List.reverse_cons, List.findSome?_append]
      have := h k
      dsimp only at this
      rw [List.findSome?_cons, this]
      simp
    have mod : ∀ n, (o = .str n ∨ o = .module n) → match (requireArgs t mapping).map (fun r => (n :: r.1, r.2)) with
        | none => Obj.other ∈ o :: t
        | some (names, mp) => Obj.other ∉ o :: t ∧ names = modules (o :: t) ∧ (mp.map (·.1)).Nodup ∧ ∀ k, get k mp = provided k (o :: t) mapping := by
      intro n ho
      have ih := ih mapping hn
      have hk := keep (by rcases ho with rfl | rfl <;> simp)
      have hm : modules (o :: t) = n :: modules t := by rcases ho with rfl | rfl <;> rfl
      cases hr : requireArgs t mapping with
      | none => rw [hr] at ih; exact List.mem_cons_of_mem _ ih
      | some r =>
        obtain ⟨names, mp⟩ := r
        rw [hr] at ih
        obtain ⟨h1, h2, h3, h4⟩ := ih
        refine ⟨?_, by rw [hm, h2], h3, fun k => by rw [h4, hk]⟩
        rcases ho with rfl | rfl <;> simpa using h1
    cases o with
    | str n => exact mod n (.inl rfl)
    | «module» n => exact mod n (.inr rfl)
    | other => exact List.mem_cons_self
    | named n v =>
      have ih := ih (set n v mapping) (set_nodup n v mapping hn)
      show match requireArgs t (set n v mapping) with
        | none => Obj.other ∈ Obj.named n v :: t
        | some (names, mp) => _
      cases hr : requireArgs t (set n v mapping) with
      | none => rw [hr] at ih; exact List.mem_cons_of_mem _ ih
      | some r =>
        obtain ⟨names, mp⟩ := r
        rw [hr] at ih
        obtain ⟨h1, h2, h3, h4⟩ := ih
        refine ⟨by simpa using h1, by rw [h2]; rfl, h3, fun k => ?_⟩
        rw [h4]
        unfold provided
        rw [List.reverse_cons, List.findSome?_append, get_set]
        cases hf : t.reverse.findSome? (fun x : Obj V => match x with | .named n v => if n = k then some v else none | _ => none) with
        | some w => rfl
        | none =>
          by_cases hk : k = n
          · subst hk; simp
          · have hk' : ¬ n = k := fun h => hk h.symm
            simp [hk, hk']

/-- **With `@require`, the function is called only where all modules could be imported, and with the required objects in the namespace**;
if a module cannot be imported, the engine refuses the task, and gets none of the objects. -/
theorem require_right (i : Interp V) (imp : Importer V) (yes : V) (hyes : i.isFalse (.val yes) = false) (objects : List (Obj V)) (mapping : List (String × V)) (hn : (mapping.map (·.1)).Nodup)
    (f c : Callable V) (hc : require imp yes objects mapping f = some c) (ns : Space V) (g : Fn V) (ns' : Space V) :
    Passes i c ns g ns' ↔ ∃ ns1 ns2, Passes i f ns g ns1 ∧ Imports imp (modules objects) ns1 ns2 ∧ ∃ mp, ns' = assignAll mp ns2 ∧
      (∀ k, get k ns' = match provided k objects mapping with | some v => some (.user v) | none => get k ns2) ∧ requireArgs objects mapping = some (modules objects, mp) := by
  have ha := require_args objects mapping hn
  unfold require at hc
  cases hr : requireArgs objects mapping with
  | none => rw [hr] at hc; cases hc
  | some r =>
    obtain ⟨names, mp⟩ := r
    rw [hr] at hc ha
    obtain ⟨_, rfl, h3, h4⟩ := ha
    simp only [Option.map_some, Option.some.injEq] at hc
    subst hc
    constructor
    · intro h
      cases h with
      | dep hp hd hf =>
        rename_i ns1 r
        unfold requireFn at hd
        rcases hi : importAll imp (modules objects) ns1 with ⟨ns2, _ | e⟩
        · rw [hi] at hd
          simp only [Prod.mk.injEq, Outcome.ok.injEq] at hd
          obtain ⟨rfl, _⟩ := hd
          refine ⟨ns1, ns2, hp, importAll_ok.1 hi, mp, rfl, fun k => ?_, rfl⟩
          rw [get_assignAll k mp ns2 h3, h4]
        · rw [hi] at hd; simp at hd
    · rintro ⟨ns1, ns2, hp, hi, mp', rfl, _, hm⟩
      cases hm
      refine .dep (r := .val yes) hp ?_ hyes
      unfold requireFn
      rw [importAll_ok.2 hi]

/-- if a module cannot be imported the engine refuses the task -/
theorem require_missing (i : Interp V) (imp : Importer V) (yes : V) (objects : List (Obj V)) (mapping : List (String × V)) (hn : (mapping.map (·.1)).Nodup)
    (f c : Callable V) (hc : require imp yes objects mapping f = some c) (ns ns1 ns2 ns3 : Space V) (g : Fn V) (hp : Passes i f ns g ns1) (a b : List String) (n : String)
    (hm : modules objects = a ++ n :: b) (hi : Imports imp a ns1 ns2) (hx : imp n ns2 = (ns3, .importError)) : Fails i c ns (.user "UnmetDependency") ns3 := by
  have ha := require_args objects mapping hn
  unfold require at hc
  cases hr : requireArgs objects mapping with
  | none => rw [hr] at hc; cases hc
  | some r =>
    obtain ⟨names, mp⟩ := r
    rw [hr] at hc ha
    obtain ⟨_, rfl, h3, h4⟩ := ha
    simp only [Option.map_some, Option.some.injEq] at hc
    subst hc
    refine .raised hp ?_
    unfold requireFn
    have : importAll imp (modules objects) ns1 = (ns3, some unmet) := by
      rw [hm]
      clear hm hp
      induction hi with
      | nil => simp only [List.nil_append, importAll, hx]
      | cons h1 _ ih => simp only [List.cons_append, importAll, h1, ih hx]
    rw [this]
    rfl

end IPP.LB
