import Verif.Client.Stranded

/-! # C42: `_build_targets` — client.py:693-728; C43: `purge_local_results` — client.py:2333-2457 -/
namespace IPP.Client
open IPP.Hub (getKey setKey delKey)
open IPP.Util

/-- What a user may give as targets. Booleans (which are ints in Python) and collections of other things than ints are left out. — `_build_targets` — client/client.py:693-728 -/
inductive Target where
  | none
  | all
  /-- a string other than 'all' -/
  | str
  | int (i : Int)
  | slice (start stop step : Option Int)
  /-- a tuple, list or range of ints -/
  | coll (l : List Int)
  /-- a set, a float, ... -/
  | other
  deriving DecidableEq, Repr

/-- `_build_targets` — client/client.py:693-728 -/
inductive Err where
  | noEngines | type | index | key | value | runtime
  deriving DecidableEq, Repr

deriving instance DecidableEq for Except

/-! ## Python's slices of `range(n)` -/

/-- `range(lo, hi, step)`, step ≠ 0 (Python's definition of its length) — Python, used by `_build_targets` and `__getitem__` — client/client.py:693-728, 1336-1343 -/
def pyRange (lo hi step : Int) : List Int :=
  let n : Int := if step > 0 then (if lo < hi then 1 + (hi - 1 - lo) / step else 0) else (if hi < lo then 1 + (lo - 1 - hi) / (-step) else 0)
  (List.range n.toNat).map (fun k : Nat => lo + step * k)

/-- `slice(start, stop, step).indices(n)` and the range it describes (CPython `PySlice_AdjustIndices`); step 0: ValueError — Python, used by `_build_targets` and `__getitem__` — client/client.py:693-728, 1336-1343 -/
def sliceIndices (n : Nat) (start stop step : Option Int) : Except Err (List Int) :=
  let st := step.getD 1
  if st = 0 then .error .value
  else
    let lower : Int := if st < 0 then -1 else 0
    let upper : Int := if st < 0 then n - 1 else n
    let clamp : Int → Int := fun i => if i < 0 then max (i + n) lower else min i upper
    let lo := match start with
      | some i => clamp i
      | none => if st < 0 then upper else lower
    let hi := match stop with
      | some i => clamp i
      | none => if st < 0 then lower else upper
    .ok (pyRange lo hi st)

/-- `l[i]` with a Python index: negative from the end; `none`: IndexError — Python, used by `_build_targets` — client/client.py:693-728 -/
def pyGet {α : Type} (l : List α) (i : Int) : Option α :=
  if 0 ≤ i then l[i.toNat]? else if 0 ≤ i + l.length then l[(i + l.length).toNat]? else none

/-- `_engines[t].encode('utf8')` — client.py:728; a missing key: KeyError; the value of an id is a uuid -/
def lookup (s : Client) (i : Int) : Except Err Uuid :=
  if i < 0 then .error .key
  else match s.engines.item (.id i.toNat) with
    | some (.uuid u) => .ok u
    | some (.id _) => .error .type -- int has no encode
    | none => .error .key

/-- `self._engines[t]` in `_build_targets` — client/client.py:693-728 -/
def lookups (s : Client) : List Int → Except Err (List Uuid)
  | [] => .ok []
  | i :: l => match lookup s i with
    | .error e => .error e
    | .ok u => match lookups s l with
      | .error e => .error e
      | .ok us => .ok (u :: us)

/-- the last line — client.py:728 -/
def finish (s : Client) (l : List Int) : Except Err (List Uuid × List Int) := match lookups s l with
  | .error e => .error e
  | .ok us => .ok (us, l)

/-- `_build_targets` — client.py:693-728 -/
def buildTargets (s : Client) (t : Target) : Except Err (List Uuid × List Int) :=
  let ids : List Int := s.ids.map (fun (e : Nat) => (e : Int))
  if s.ids = [] then .error .noEngines
  else match t with
    | .none => finish s ids
    | .all => finish s ids
    | .str => .error .type
    | .other => .error .type
    | .coll l => finish s l
    | .int i =>
      if i < 0 then
        match pyGet ids i with
        | none => .error .index
        | some t => if t ∈ ids then finish s [t] else .error .index
      else if i ∈ ids then finish s [i] else .error .index
    | .slice a b c => match sliceIndices s.ids.length a b c with
      | .error e => .error e
      | .ok l => match l.mapM (pyGet ids) with
        | none => .error .index
        | some l => finish s l

/-! ## ranges and slices -/

theorem mem_pyRange (lo hi step i : Int) (h : step ≠ 0) : i ∈ pyRange lo hi step ↔ ∃ k : Nat, i = lo + step * k ∧ if step > 0 then i < hi else hi < i := by
  unfold pyRange
  simp only [List.mem_map, List.mem_range]
  by_cases hs : step > 0
  · simp only [hs, if_true]
    constructor
    · rintro ⟨k, hk, rfl⟩
      refine ⟨k, rfl, ?_⟩
      split at hk
      · have h1 : (k : Int) ≤ (hi - 1 - lo) / step := by omega
        rw [Int.le_ediv_iff_mul_le hs] at h1
        rw [Int.mul_comm]; omega
      · simp at hk
    · rintro ⟨k, rfl, hk⟩
      refine ⟨k, ?_, rfl⟩
      have hnn : 0 ≤ step * (k : Int) := Int.mul_nonneg (by omega) (by omega)
      rw [if_pos (by omega)]
      have h1 : (k : Int) ≤ (hi - 1 - lo) / step := by
        rw [Int.le_ediv_iff_mul_le hs, Int.mul_comm]; omega
      omega
  · have hs' : 0 < -step := by omega
    simp only [hs, if_false]
    have e : ∀ k : Nat, step * (k : Int) = -((k : Int) * (-step)) := by
      intro k; rw [Int.mul_neg, Int.neg_neg, Int.mul_comm]
    constructor
    · rintro ⟨k, hk, rfl⟩
      refine ⟨k, rfl, ?_⟩
      split at hk
      · have h1 : (k : Int) ≤ (lo - 1 - hi) / (-step) := by omega
        rw [Int.le_ediv_iff_mul_le hs'] at h1
        rw [e]; omega
      · simp at hk
    · rintro ⟨k, rfl, hk⟩
      refine ⟨k, ?_, rfl⟩
      have hnn : 0 ≤ (k : Int) * (-step) := Int.mul_nonneg (by omega) (by omega)
      rw [e] at hk
      rw [if_pos (by omega)]
      have h1 : (k : Int) ≤ (lo - 1 - hi) / (-step) := by
        rw [Int.le_ediv_iff_mul_le hs']; omega
      omega

/-- positions of a slice are in range -/
theorem slice_in_range (n : Nat) (a b c : Option Int) (l : List Int) (h : sliceIndices n a b c = .ok l) : ∀ i ∈ l, 0 ≤ i ∧ i < n := by
  unfold sliceIndices at h
  dsimp only at h
  generalize c.getD 1 = st at h
  split at h
  · cases h
  · rename_i hst
    cases h
    intro i hi
    rw [mem_pyRange _ _ _ _ hst] at hi
    obtain ⟨k, rfl, hk⟩ := hi
    by_cases hs : st > 0
    · have hn : ¬ st < 0 := by omega
      simp only [hn, if_false, hs, if_true] at hk ⊢
      have hnn : 0 ≤ st * (k : Int) := Int.mul_nonneg (by omega) (by omega)
      have h1 : ∀ j : Int, 0 ≤ (if j < 0 then max (j + n) 0 else min j (n : Int)) ∧ (if j < 0 then max (j + n) 0 else min j (n : Int)) ≤ n := by
        intro j; split <;> omega
      constructor
      · cases a with
        | none => simp only; omega
        | some j => simp only; have := (h1 j).1; omega
      · cases b with
        | none => simp only at hk ⊢; omega
        | some j => simp only at hk ⊢; have := (h1 j).2; omega
    · have hn : st < 0 := by omega
      simp only [hn, if_true, hs, if_false] at hk ⊢
      have hnn : st * (k : Int) ≤ 0 := Int.mul_nonpos_of_nonpos_of_nonneg (by omega) (by omega)
      have h1 : ∀ j : Int, -1 ≤ (if j < 0 then max (j + n) (-1) else min j ((n : Int) - 1)) ∧ (if j < 0 then max (j + n) (-1) else min j ((n : Int) - 1)) ≤ n - 1 := by
        intro j; split <;> omega
      constructor
      · cases b with
        | none => simp only at hk ⊢; omega
        | some j => simp only at hk ⊢; have := (h1 j).1; omega
      · cases a with
        | none => simp only; omega
        | some j => simp only; have := (h1 j).2; omega

theorem pyRange_one (lo hi : Int) : pyRange lo hi 1 = (List.range (hi - lo).toNat).map (fun k : Nat => lo + k) := by
  unfold pyRange
  simp only [show (1 : Int) > 0 by omega, if_true, Int.ediv_one, Int.one_mul]
  congr 2
  split <;> omega

theorem pyRange_neg_one (lo hi : Int) : pyRange lo hi (-1) = (List.range (lo - hi).toNat).map (fun k : Nat => lo - k) := by
  unfold pyRange
  simp only [show ¬ ((-1 : Int) > 0) by omega, if_false, Int.neg_neg, Int.ediv_one]
  have : (fun k : Nat => lo + -1 * (k : Int)) = fun k : Nat => lo - k := by funext k; omega
  rw [this]
  congr 2
  split <;> omega

/-! ## tables -/

theorem pyGet_nonneg {α : Type} (l : List α) (i : Int) (h0 : 0 ≤ i) (h1 : i < l.length) : ∃ a, pyGet l i = some a ∧ a ∈ l := by
  unfold pyGet
  rw [if_pos h0]
  have : i.toNat < l.length := by omega
  exact ⟨l[i.toNat], by simp [this], List.getElem_mem _⟩

theorem lookup_known {R : List (Eid × Uuid)} {s : Client} (T : TabInv R s) {e : Eid} {u : Uuid} (h : (e, u) ∈ R) : lookup s (e : Int) = .ok u := by
  have : s.engines.item (.id e) = some (.uuid u) := by
    unfold RDict.item
    rw [T.fwd, getKey_map_id R e u T.nodup1 h]
  unfold lookup
  rw [if_neg (by omega)]
  simp [this]

theorem lookup_unknown {R : List (Eid × Uuid)} {s : Client} (T : TabInv R s) {i : Int} (h : ∀ e : Eid, (e : Int) = i → e ∉ R.map Prod.fst) : lookup s i = .error .key := by
  unfold lookup
  split
  · rfl
  · have : s.engines.item (.id i.toNat) = none := by
      unfold RDict.item
      rw [T.fwd, T.rev, getKey_rev_id, getKey_map_none]
      intro x hx hc
      have hc' : @Eq Nat x.1 i.toNat := Key.id.inj hc
      exact h x.1 (by omega) (List.mem_map.2 ⟨x, hx, rfl⟩)
    simp [this]

/-- `finish` succeeds iff all ids are known, and pairs them with their uuids. -/
theorem finish_spec {R : List (Eid × Uuid)} {s : Client} (T : TabInv R s) (l : List Int) :
    (∀ us es, finish s l = .ok (us, es) → es = l ∧ us.length = es.length ∧ ∀ p ∈ us.zip es, ∃ e : Eid, (e : Int) = p.2 ∧ (e, p.1) ∈ R) ∧
    ((∀ i ∈ l, ∃ e : Eid, (e : Int) = i ∧ e ∈ R.map Prod.fst) → ∃ us, finish s l = .ok (us, l)) ∧
    ((∃ i ∈ l, ∀ e : Eid, (e : Int) = i → e ∉ R.map Prod.fst) → finish s l = .error .key) := by
  unfold finish
  induction l with
  | nil => simp [lookups]
  | cons i l ih =>
    obtain ⟨ih1, ih2, ih3⟩ := ih
    unfold lookups
    by_cases hi : ∃ e : Eid, (e : Int) = i ∧ e ∈ R.map Prod.fst
    · obtain ⟨e, rfl, he⟩ := hi
      obtain ⟨x, hx, rfl⟩ := List.mem_map.1 he
      rw [lookup_known T (e := x.1) (u := x.2) hx]
      simp only
      cases hl : lookups s l with
      | error err =>
        rw [hl] at ih1 ih2 ih3
        simp only at ih1 ih2 ih3 ⊢
        refine ⟨by simp, ?_, ?_⟩
        · intro hall
          obtain ⟨us, hc⟩ := ih2 (fun j hj => hall j (by simp [hj]))
          cases hc
        · rintro ⟨j, hj, hne⟩
          rcases List.mem_cons.1 hj with rfl | hj
          · exact absurd he (hne x.1 rfl)
          · exact ih3 ⟨j, hj, hne⟩
      | ok us =>
        rw [hl] at ih1 ih2 ih3
        simp only at ih1 ih2 ih3 ⊢
        refine ⟨?_, ?_, ?_⟩
        · intro us' es h
          cases h
          obtain ⟨-, h2, h3⟩ := ih1 us l rfl
          refine ⟨rfl, by simp [h2], ?_⟩
          intro p hp
          simp only [List.zip_cons_cons, List.mem_cons] at hp
          rcases hp with rfl | hp
          · exact ⟨x.1, rfl, hx⟩
          · exact h3 p hp
        · intro _; exact ⟨_, rfl⟩
        · rintro ⟨j, hj, hne⟩
          rcases List.mem_cons.1 hj with rfl | hj
          · exact absurd he (hne x.1 rfl)
          · cases ih3 ⟨j, hj, hne⟩
    · have hne : ∀ e : Eid, (e : Int) = i → e ∉ R.map Prod.fst := fun e he hm => hi ⟨e, he, hm⟩
      rw [lookup_unknown T hne]
      simp only
      refine ⟨by simp, ?_, by simp⟩
      intro hall
      exact absurd (hall i (by simp)) hi

/-! ## C42 -/

/-- the ids of the registered engines, ascending: `client.ids` -/
theorem ids_exact (evs : List Ev) (hp : Proper evs) : (run evs).ids.Pairwise (· < ·) ∧ ∀ e, e ∈ (run evs).ids ↔ ∃ u, (e, u) ∈ Reg evs := by
  have T := tab_run evs hp
  refine ⟨T.sorted, ?_⟩
  intro e
  rw [T.ids, List.mem_map]
  constructor
  · rintro ⟨x, hx, rfl⟩; exact ⟨x.2, hx⟩
  · rintro ⟨u, hu⟩; exact ⟨(e, u), hu, rfl⟩

/-- ids as ints -/
def intIds (evs : List Ev) : List Int := (run evs).ids.map (fun e : Nat => (e : Int))

theorem mem_intIds (evs : List Ev) (hp : Proper evs) (i : Int) : i ∈ intIds evs ↔ ∃ (e : Eid) (u : Uuid), (e : Int) = i ∧ (e, u) ∈ Reg evs := by
  unfold intIds
  rw [List.mem_map]
  constructor
  · rintro ⟨e, he, rfl⟩
    obtain ⟨u, hu⟩ := ((ids_exact evs hp).2 e).1 he
    exact ⟨e, u, rfl, hu⟩
  · rintro ⟨e, u, rfl, hu⟩
    exact ⟨e, ((ids_exact evs hp).2 e).2 ⟨u, hu⟩, rfl⟩

theorem finish_ids (evs : List Ev) (hp : Proper evs) (l : List Int) (h : ∀ i ∈ l, i ∈ intIds evs) : ∃ us, finish (run evs) l = .ok (us, l) := by
  apply (finish_spec (tab_run evs hp) l).2.1
  intro i hi
  obtain ⟨e, u, rfl, hu⟩ := (mem_intIds evs hp i).1 (h i hi)
  exact ⟨e, rfl, List.mem_map.2 ⟨_, hu, rfl⟩⟩

/-- C42: whatever is given as targets, the answer is a list of registered engines, each with its own uuid. -/
theorem targets_registered (evs : List Ev) (hp : Proper evs) (t : Target) (us : List Uuid) (es : List Int) (h : buildTargets (run evs) t = .ok (us, es)) :
    us.length = es.length ∧ ∀ p ∈ us.zip es, ∃ e : Eid, (e : Int) = p.2 ∧ (e, p.1) ∈ Reg evs := by
  have T := tab_run evs hp
  have F : ∀ l, finish (run evs) l = .ok (us, es) → us.length = es.length ∧ ∀ p ∈ us.zip es, ∃ e : Eid, (e : Int) = p.2 ∧ (e, p.1) ∈ Reg evs := by
    intro l hl
    obtain ⟨-, h2, h3⟩ := (finish_spec T l).1 us es hl
    exact ⟨h2, h3⟩
  unfold buildTargets at h
  dsimp only at h
  split at h
  · cases h
  · cases t with
    | none => exact F _ h
    | all => exact F _ h
    | str => cases h
    | other => cases h
    | coll l => exact F _ h
    | int i =>
      simp only at h
      split at h
      · split at h
        · cases h
        · split at h
          · exact F _ h
          · cases h
      · split at h
        · exact F _ h
        · cases h
    | slice a b c =>
      simp only at h
      split at h
      · cases h
      · split at h
        · cases h
        · exact F _ h

/-- C42: without engines, NoEnginesRegistered. -/
theorem targets_no_engines (evs : List Ev) (hp : Proper evs) (h : Reg evs = []) (t : Target) : buildTargets (run evs) t = .error .noEngines := by
  have : (run evs).ids = [] := by
    apply List.eq_nil_iff_forall_not_mem.2
    intro e he
    obtain ⟨u, hu⟩ := ((ids_exact evs hp).2 e).1 he
    rw [h] at hu
    cases hu
  simp [buildTargets, this]

theorem ids_ne_nil (evs : List Ev) (hp : Proper evs) (h : Reg evs ≠ []) : (run evs).ids ≠ [] := by
  obtain ⟨x, hx⟩ := List.exists_mem_of_ne_nil _ h
  intro hc
  have := ((ids_exact evs hp).2 x.1).2 ⟨x.2, hx⟩
  rw [hc] at this
  cases this

/-- C42: `None` and 'all' mean all engines, in the order of their ids. -/
theorem targets_all (evs : List Ev) (hp : Proper evs) (h : Reg evs ≠ []) :
    (∃ us, buildTargets (run evs) .all = .ok (us, intIds evs)) ∧ buildTargets (run evs) .none = buildTargets (run evs) .all := by
  have := ids_ne_nil evs hp h
  simp only [buildTargets, this, if_false, and_true]
  exact finish_ids evs hp _ (fun i hi => hi)

/-- C42: a non-negative int is the engine with that id; IndexError if there is none. -/
theorem targets_int (evs : List Ev) (hp : Proper evs) (h : Reg evs ≠ []) (e : Eid) :
    (∀ u, (e, u) ∈ Reg evs → buildTargets (run evs) (.int e) = .ok ([u], [(e : Int)])) ∧ ((∀ u, (e, u) ∉ Reg evs) → buildTargets (run evs) (.int e) = .error .index) := by
  have hne := ids_ne_nil evs hp h
  have h0 : ¬ ((e : Int) < 0) := by omega
  simp only [buildTargets, hne, if_false, h0]
  constructor
  · intro u hu
    have hm := (mem_intIds evs hp e).2 ⟨e, u, rfl, hu⟩
    unfold intIds at hm
    rw [if_pos hm]
    simp [finish, lookups, lookup_known (tab_run evs hp) hu]
  · intro hno
    rw [if_neg]
    intro hc
    obtain ⟨e', u, h1, hu⟩ := (mem_intIds evs hp e).1 hc
    have : e' = e := Int.natCast_inj.1 h1
    exact hno u (this ▸ hu)

/-- C42: a negative int counts from the end of the sorted ids; IndexError if there are too few. -/
theorem targets_negative (evs : List Ev) (hp : Proper evs) (h : Reg evs ≠ []) (k : Nat) :
    (∀ hk : k < (run evs).ids.length, buildTargets (run evs) (.int (-(k + 1 : Int))) = buildTargets (run evs) (.int ((run evs).ids.reverse[k]'(by simpa using hk) : Nat))) ∧
    ((run evs).ids.length ≤ k → buildTargets (run evs) (.int (-(k + 1 : Int))) = .error .index) := by
  have hne := ids_ne_nil evs hp h
  have hneg : (-(k + 1 : Int)) < 0 := by omega
  simp only [buildTargets, hne, if_false, hneg, if_true]
  constructor
  · intro hk
    have e1 : pyGet ((run evs).ids.map (fun (e : Nat) => (e : Int))) (-(k + 1 : Int)) = some (((run evs).ids.reverse[k]'(by simpa using hk) : Nat) : Int) := by
      unfold pyGet
      rw [if_neg (by omega), if_pos (by simp; omega)]
      have : (-(k + 1 : Int) + (List.map (fun (e : Nat) => (e : Int)) (run evs).ids).length).toNat = (run evs).ids.length - 1 - k := by simp; omega
      rw [this, List.getElem_reverse, List.getElem?_map, List.getElem?_eq_getElem (by omega)]
      rfl
    rw [e1]
    have hnn : ¬ ((((run evs).ids.reverse[k]'(by simpa using hk) : Nat) : Int) < 0) := Int.not_lt.2 (Int.natCast_nonneg _)
    simp only [hnn, if_false]
  · intro hk
    have e1 : pyGet ((run evs).ids.map (fun (e : Nat) => (e : Int))) (-(k + 1 : Int)) = none := by
      unfold pyGet
      rw [if_neg (by omega), if_neg (by simp; omega)]
    rw [e1]

/-- C42: a collection means exactly its ids, in its order; KeyError if one of them is not registered. -/
theorem targets_list (evs : List Ev) (hp : Proper evs) (h : Reg evs ≠ []) (l : List Int) :
    ((∀ i ∈ l, i ∈ intIds evs) → ∃ us, buildTargets (run evs) (.coll l) = .ok (us, l)) ∧ ((∃ i ∈ l, i ∉ intIds evs) → buildTargets (run evs) (.coll l) = .error .key) := by
  have hne := ids_ne_nil evs hp h
  simp only [buildTargets, hne, if_false]
  refine ⟨finish_ids evs hp l, ?_⟩
  rintro ⟨i, hi, hni⟩
  apply (finish_spec (tab_run evs hp) l).2.2
  refine ⟨i, hi, ?_⟩
  rintro e rfl he
  obtain ⟨x, hx, rfl⟩ := List.mem_map.1 he
  exact hni ((mem_intIds evs hp _).2 ⟨x.1, x.2, rfl, hx⟩)

theorem mapM_pyGet (L l : List Int) (h : ∀ i ∈ l, 0 ≤ i ∧ i < L.length) : l.mapM (pyGet L) = some (l.map (fun i => L.getD i.toNat 0)) := by
  induction l with
  | nil => rfl
  | cons i l ih =>
    have hi := h i (by simp)
    have e : pyGet L i = some (L.getD i.toNat 0) := by
      unfold pyGet
      rw [if_pos hi.1]
      have : i.toNat < L.length := by omega
      rw [List.getElem?_eq_getElem this, List.getD_eq_getElem?_getD, List.getElem?_eq_getElem this]
      rfl
    rw [List.mapM_cons, e, ih (fun j hj => h j (by simp [hj]))]
    rfl

/-- slices in general: the ids at the positions of the slice -/
theorem targets_slice (evs : List Ev) (hp : Proper evs) (h : Reg evs ≠ []) (a b c : Option Int) (hc : c ≠ some 0) : ∃ l us,
    sliceIndices (intIds evs).length a b c = .ok l ∧ (∀ i ∈ l, 0 ≤ i ∧ i < (intIds evs).length) ∧
    buildTargets (run evs) (.slice a b c) = .ok (us, l.map (fun i => (intIds evs).getD i.toNat 0)) := by
  have hne := ids_ne_nil evs hp h
  have hlen : (intIds evs).length = (run evs).ids.length := by simp [intIds]
  have hst : c.getD 1 ≠ 0 := by
    cases c with
    | none => simp
    | some j => simpa using hc
  cases hs : sliceIndices (run evs).ids.length a b c with
  | error e =>
    unfold sliceIndices at hs
    simp [hst] at hs
  | ok l =>
    have hr := slice_in_range _ _ _ _ _ hs
    obtain ⟨us, hus⟩ := finish_ids evs hp (l.map (fun i => (intIds evs).getD i.toNat 0)) (by
      intro j hj
      obtain ⟨i, hi, rfl⟩ := List.mem_map.1 hj
      have : i.toNat < (intIds evs).length := by have := hr i hi; omega
      rw [List.getD_eq_getElem?_getD, List.getElem?_eq_getElem this]
      exact List.getElem_mem _)
    refine ⟨l, us, by rw [hlen]; exact hs, by rw [hlen]; exact hr, ?_⟩
    simp only [buildTargets, hne, if_false, hs]
    have hm := mapM_pyGet (intIds evs) l (by rw [hlen]; exact hr)
    unfold intIds at hm hus
    rw [hm]
    exact hus

/-- slice with step 0: ValueError -/
theorem targets_slice_zero (evs : List Ev) (hp : Proper evs) (h : Reg evs ≠ []) (a b : Option Int) : buildTargets (run evs) (.slice a b (some 0)) = .error .value := by
  simp [buildTargets, ids_ne_nil evs hp h, sliceIndices]

theorem sublist_positions (L : List Int) (a m : Nat) (h : a + m ≤ L.length) : ((List.range m).map (fun k : Nat => (a : Int) + k)).map (fun i => L.getD i.toNat 0) = (L.drop a).take m := by
  apply List.ext_getElem
  · simp; omega
  · intro k h1 h2
    simp only [List.length_map, List.length_range] at h1
    simp only [List.getElem_map, List.getElem_range, List.getElem_take, List.getElem_drop]
    have : ((a : Int) + k).toNat = a + k := by omega
    rw [this, List.getD_eq_getElem?_getD, List.getElem?_eq_getElem (by omega)]
    rfl

/-- C42: `[a:b]` of the sorted ids for non-negative bounds, and for bounds from the end -/
theorem targets_slice_between (evs : List Ev) (hp : Proper evs) (h : Reg evs ≠ []) (a b : Nat) :
    (∃ us, buildTargets (run evs) (.slice (some a) (some b) none) = .ok (us, ((intIds evs).take b).drop a)) ∧
    (∃ us, buildTargets (run evs) (.slice none (some b) none) = .ok (us, (intIds evs).take b)) ∧
    (∃ us, buildTargets (run evs) (.slice (some a) none none) = .ok (us, (intIds evs).drop a)) ∧
    (∃ us, buildTargets (run evs) (.slice none none none) = .ok (us, intIds evs)) := by
  have key : ∀ (x y : Option Int) (p q : Nat), p ≤ (intIds evs).length → q ≤ (intIds evs).length →
      sliceIndices (intIds evs).length x y none = .ok (pyRange p q 1) → ∃ us, buildTargets (run evs) (.slice x y none) = .ok (us, ((intIds evs).take q).drop p) := by
    intro x y p q hpl hql hs
    obtain ⟨l, us, h1, h2, h3⟩ := targets_slice evs hp h x y none (by simp)
    rw [hs] at h1
    cases h1
    refine ⟨us, ?_⟩
    rw [h3, pyRange_one]
    have e : ((q : Int) - p).toNat = q - p := by omega
    rw [e]
    by_cases hpq : p ≤ q
    · rw [sublist_positions _ _ _ (by omega), List.drop_take]
    · have : q - p = 0 := by omega
      rw [this]
      simp only [List.range_zero, List.map_nil, Except.ok.injEq, Prod.mk.injEq, true_and]
      symm
      rw [List.drop_eq_nil_iff]
      simp; omega
  have cl : ∀ j : Nat, (if (j : Int) < 0 then max ((j : Int) + (intIds evs).length) 0 else min (j : Int) (intIds evs).length) = ((min j (intIds evs).length : Nat) : Int) := by
    intro j; rw [if_neg (by omega)]; omega
  refine ⟨?_, ?_, ?_, ?_⟩
  · obtain ⟨us, hus⟩ := key (some a) (some b) (min a (intIds evs).length) (min b (intIds evs).length) (by omega) (by omega) (by
      simp only [sliceIndices, Option.getD_none, show ¬ ((1 : Int) = 0) by omega, if_false, show ¬ ((1 : Int) < 0) by omega, cl])
    refine ⟨us, ?_⟩
    rw [hus]
    congr 2
    by_cases hb : b ≤ (intIds evs).length
    · rw [Nat.min_eq_left hb]
      by_cases ha : a ≤ (intIds evs).length
      · rw [Nat.min_eq_left ha]
      · rw [Nat.min_eq_right (by omega), List.drop_eq_nil_iff.2 (by simp; omega), List.drop_eq_nil_iff.2 (by simp; omega)]
    · rw [show min b (intIds evs).length = (intIds evs).length by omega, List.take_of_length_le (Nat.le_refl _), List.take_of_length_le (by omega)]
      by_cases ha : a ≤ (intIds evs).length
      · rw [Nat.min_eq_left ha]
      · rw [Nat.min_eq_right (by omega), List.drop_eq_nil_iff.2 (by omega), List.drop_eq_nil_iff.2 (by omega)]
  · obtain ⟨us, hus⟩ := key none (some b) 0 (min b (intIds evs).length) (by omega) (by omega) (by
      simp only [sliceIndices, Option.getD_none, show ¬ ((1 : Int) = 0) by omega, if_false, show ¬ ((1 : Int) < 0) by omega, cl]; rfl)
    refine ⟨us, ?_⟩
    rw [hus, List.drop_zero]
    congr 2
    by_cases hb : b ≤ (intIds evs).length
    · rw [Nat.min_eq_left hb]
    · rw [Nat.min_eq_right (by omega), List.take_of_length_le (Nat.le_refl _), List.take_of_length_le (by omega)]
  · obtain ⟨us, hus⟩ := key (some a) none (min a (intIds evs).length) (intIds evs).length (by omega) (by omega) (by
      simp only [sliceIndices, Option.getD_none, show ¬ ((1 : Int) = 0) by omega, if_false, show ¬ ((1 : Int) < 0) by omega, cl])
    refine ⟨us, ?_⟩
    rw [hus, List.take_of_length_le (Nat.le_refl _)]
    congr 2
    by_cases ha : a ≤ (intIds evs).length
    · rw [Nat.min_eq_left ha]
    · rw [Nat.min_eq_right (by omega), List.drop_eq_nil_iff.2 (by omega), List.drop_eq_nil_iff.2 (by omega)]
  · obtain ⟨us, hus⟩ := key none none 0 (intIds evs).length (by omega) (by omega) (by
      simp only [sliceIndices, Option.getD_none, show ¬ ((1 : Int) = 0) by omega, if_false, show ¬ ((1 : Int) < 0) by omega]; rfl)
    refine ⟨us, ?_⟩
    rw [hus, List.take_of_length_le (Nat.le_refl _), List.drop_zero]

/-- C42: `[-k:]` is the last k ids, `[:-k]` all but the last k. -/
theorem targets_slice_last (evs : List Ev) (hp : Proper evs) (h : Reg evs ≠ []) (k : Nat) (hk : 0 < k) :
    (∃ us, buildTargets (run evs) (.slice (some (-(k : Int))) none none) = .ok (us, (intIds evs).drop ((intIds evs).length - k))) ∧
    (∃ us, buildTargets (run evs) (.slice none (some (-(k : Int))) none) = .ok (us, (intIds evs).take ((intIds evs).length - k))) := by
  have cl : (if (-(k : Int)) < 0 then max ((-(k : Int)) + (intIds evs).length) 0 else min (-(k : Int)) (intIds evs).length) = (((intIds evs).length - k : Nat) : Int) := by
    rw [if_pos (by omega)]; omega
  constructor
  · obtain ⟨us, hus⟩ := (targets_slice_between evs hp h ((intIds evs).length - k) 0).2.2.1
    refine ⟨us, ?_⟩
    rw [← hus]
    have e : sliceIndices (run evs).ids.length (some (-(k : Int))) none none = sliceIndices (run evs).ids.length (some (((intIds evs).length - k : Nat) : Int)) none none := by
      have hlen : (run evs).ids.length = (intIds evs).length := by simp [intIds]
      simp only [sliceIndices, Option.getD_none, show ¬ ((1 : Int) = 0) by omega, if_false, show ¬ ((1 : Int) < 0) by omega, hlen, cl]
      rw [if_neg (by omega)]
      congr 2
      omega
    simp only [buildTargets, e]
  · obtain ⟨us, hus⟩ := (targets_slice_between evs hp h 0 ((intIds evs).length - k)).2.1
    refine ⟨us, ?_⟩
    rw [← hus]
    have e : sliceIndices (run evs).ids.length none (some (-(k : Int))) none = sliceIndices (run evs).ids.length none (some (((intIds evs).length - k : Nat) : Int)) none := by
      have hlen : (run evs).ids.length = (intIds evs).length := by simp [intIds]
      simp only [sliceIndices, Option.getD_none, show ¬ ((1 : Int) = 0) by omega, if_false, show ¬ ((1 : Int) < 0) by omega, hlen, cl]
      rw [if_neg (by omega)]
      congr 2
      omega
    simp only [buildTargets, e]

/-- C42: `[::-1]` reverses. -/
theorem targets_slice_reverse (evs : List Ev) (hp : Proper evs) (h : Reg evs ≠ []) : ∃ us, buildTargets (run evs) (.slice none none (some (-1))) = .ok (us, (intIds evs).reverse) := by
  obtain ⟨l, us, h1, h2, h3⟩ := targets_slice evs hp h none none (some (-1)) (by simp)
  refine ⟨us, ?_⟩
  rw [h3]
  simp only [sliceIndices, Option.getD_some, show ¬ ((-1 : Int) = 0) by omega, if_false, show ((-1 : Int) < 0) by omega, if_true, Except.ok.injEq] at h1
  subst h1
  rw [pyRange_neg_one]
  congr 2
  apply List.ext_getElem
  · simp
  · intro k g1 g2
    simp only [List.length_map, List.length_range, List.length_reverse] at g1 g2
    simp only [List.getElem_map, List.getElem_range, List.getElem_reverse]
    have : (((intIds evs).length : Int) - 1 - k).toNat = (intIds evs).length - 1 - k := by omega
    rw [this, List.getD_eq_getElem?_getD, List.getElem?_eq_getElem (by omega)]
    rfl

/-- C42: a slice with a positive step means the positions `lo, lo+step, ...` below the end (`mem_pyRange`): every second id, for instance. -/
example : buildTargets (run [.register 0 7, .register 3 8, .register 5 9, .register 6 4]) (.slice (some (-4)) none (some 2)) = .ok ([7, 9], [0, 5]) := by decide

example : buildTargets (run [.register 3 8, .register 0 7, .unregister 0, .register 5 9]) (.int (-1)) = .ok ([9], [5]) ∧
    buildTargets (run [.register 3 8, .register 0 7, .unregister 0, .register 5 9]) (.int 0) = .error .index ∧
    buildTargets (run [.register 3 8, .register 0 7, .unregister 0, .register 5 9]) (.coll [0]) = .error .key := by decide

/-! ## C43 -/

/-- How an identity is written: `_build_targets` returns bytes, `metadata` holds strings. — `_build_targets` and `purge_results` — client/client.py:2333-2516 -/
inductive Ident where
  | bytes (u : Uuid)
  | str (u : Uuid)
  deriving DecidableEq, Repr

/-- `not targets` — `purge_results` — client/client.py:2333-2516 -/
def Target.falsy : Target → Bool
  | .none => true
  | .int i => i = 0
  | .coll l => l = []
  | _ => false

/-- `_msg_ids_from_target` — client.py:2333-2342. The entry 'submitted' of `metadata` is a datetime: indexing it is a TypeError. -/
def msgIdsFromTarget (s : Client) (t : Target) : Except Err (List Mid) :=
  if t.falsy then .ok []
  else match buildTargets s t with
    | .error e => .error e
    | .ok (us, _) =>
      if s.stamped then .error .type
      else .ok ((s.metas.filter (fun x => match x.2 with
        | none => false
        | some u => Ident.str u ∈ us.map Ident.bytes)).map Prod.fst)

/-- The `jobs` argument, given by message ids (`_msg_ids_from_jobs` also takes indices of the history and AsyncResults, client.py:2344-2367). -/
inductive Jobs where
  | all
  | ids (l : List Mid)
  deriving DecidableEq, Repr

/-- `purge_results` — client/client.py:2333-2516 -/
def Jobs.falsy : Jobs → Bool
  | .all => false
  | .ids l => l = []

/-- `purge_local_results` — client.py:2407-2457 -/
def purgeLocal (s : Client) (jobs : Jobs) (t : Target) : Except Err Client :=
  if t.falsy ∧ jobs.falsy then .error .value
  else match jobs with
    | .all => if (purgeAll s).2 then .error .runtime else .ok (purgeAll s).1
    | .ids l => match msgIdsFromTarget s t with
      | .error e => .error e
      | .ok tl => if (purgeIds s (tl ++ l)).2 then .error .runtime else .ok (purgeIds s (tl ++ l)).1

/-- C43: purging by message ids is refused iff one of them is outstanding; otherwise exactly these disappear from the caches, and nothing else changes: no outcome seen by a user,
no outstanding request. -/
theorem purge_ids_exact (s : Client) (l : List Mid) (h : l ≠ []) :
    ((∃ m ∈ l, m ∈ s.outstanding) → purgeLocal s (.ids l) .none = .error .runtime) ∧
    ((∀ m ∈ l, m ∉ s.outstanding) → ∃ s', purgeLocal s (.ids l) .none = .ok s' ∧ (∀ m, s'.results m = if m ∈ l then none else s.results m) ∧
      (∀ x, x ∈ s'.metas ↔ x ∈ s.metas ∧ x.1 ∉ l) ∧ s'.outstanding = s.outstanding ∧ s'.history = s.history ∧ ∀ m, value s' m = value s m) := by
  have e : purgeLocal s (.ids l) .none = if (purgeIds s l).2 then .error .runtime else .ok (purgeIds s l).1 := by
    simp [purgeLocal, Target.falsy, Jobs.falsy, h, msgIdsFromTarget]
  rw [e]
  unfold purgeIds
  constructor
  · rintro ⟨m, hm, ho⟩
    have hb : l.any (fun m => decide (m ∈ s.outstanding)) = true := by rw [List.any_eq_true]; exact ⟨m, hm, by simpa using ho⟩
    simp only [hb, if_true]
  · intro hno
    have hb : l.any (fun m => decide (m ∈ s.outstanding)) = false := by
      rw [List.any_eq_false]
      intro m hm
      simpa using hno m hm
    simp only [hb, Bool.false_eq_true, if_false]
    refine ⟨_, rfl, fun m => rfl, ?_, rfl, rfl, ?_⟩
    · intro x; simp
    · intro m
      simp only [value]
      split
      · cases s.futs m <;> rfl
      · rfl

/-- C43: `purge_local_results('all')` is refused iff something is outstanding; otherwise all caches are empty. -/
theorem purge_all_exact (s : Client) (t : Target) : (s.outstanding ≠ [] → purgeLocal s .all t = .error .runtime) ∧
    (s.outstanding = [] → ∃ s', purgeLocal s .all t = .ok s' ∧ (∀ m, s'.results m = none) ∧ s'.metas = [] ∧ ∀ m, value s' m = value s m) := by
  have e : purgeLocal s .all t = if (purgeAll s).2 then .error .runtime else .ok (purgeAll s).1 := by
    simp [purgeLocal, Jobs.falsy]
  rw [e]
  unfold purgeAll
  constructor
  · intro h; simp [h]
  · intro h
    simp only [h, ne_eq, not_true, if_false]
    refine ⟨_, rfl, fun m => rfl, rfl, ?_⟩
    intro m
    simp only [value]
    cases s.futs m <;> rfl

/-- C43: with neither jobs nor targets, ValueError. -/
theorem purge_nothing (s : Client) : purgeLocal s (.ids []) .none = .error .value := by simp [purgeLocal, Target.falsy, Jobs.falsy]

/-- C43, violated: engine 0 alone cannot be given as target (0 counts as no target), for any state. -/
theorem purge_engine_zero_violated (s : Client) : purgeLocal s (.ids []) (.int 0) = .error .value := by simp [purgeLocal, Target.falsy, Jobs.falsy]

/-- C43, violated: purging by targets never removes anything: whatever the state and the targets, it fails or leaves every result and all metadata. -/
theorem purge_targets_violated (s s' : Client) (t : Target) (h : purgeLocal s (.ids []) t = .ok s') : s'.results = s.results ∧ s'.metas = s.metas := by
  have empty : ∀ us : List Uuid, (s.metas.filter (fun x => match x.2 with
        | none => false
        | some u => Ident.str u ∈ us.map Ident.bytes)) = [] := by
    intro us
    rw [List.filter_eq_nil_iff]
    rintro ⟨m, o⟩ -
    cases o <;> simp
  unfold purgeLocal at h
  split at h
  · cases h
  · simp only [msgIdsFromTarget] at h
    split at h
    · cases h
    · rename_i tl htl
      have : tl = [] := by
        split at htl
        · cases htl; rfl
        · split at htl
          · cases htl
          · split at htl
            · cases htl
            · cases htl
              rw [empty]
              rfl
      subst this
      simp only [List.append_nil, purgeIds, List.any_nil, Bool.false_eq_true, if_false, Except.ok.injEq, List.not_mem_nil, not_false_eq_true] at h
      subst h
      refine ⟨rfl, ?_⟩
      simp

/-- C43, violated: after the first request was sent, purging by targets raises TypeError (until everything is purged): `metadata['submitted']` is not the metadata of a request. -/
theorem purge_targets_type_error_violated (s : Client) (m : Mid) (i : Option Uuid) (t : Target) (us : List Uuid) (es : List Int) (ht : t.falsy = false)
    (hb : buildTargets (send s m i) t = .ok (us, es)) (l : List Mid) : purgeLocal (send s m i) (.ids l) t = .error .type := by
  have : (send s m i).stamped = true := rfl
  simp [purgeLocal, ht, msgIdsFromTarget, hb, this]

example : purgeLocal (run [.register 1 7, .send (.msg 1) (some 7), .reply (.msg 1) (.ok 5) [7]]) (.ids []) (.int 1) |>.toOption.isNone := by decide

end IPP.Client
