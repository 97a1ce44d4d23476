import Verif.Sched.Props

/-!
# C22: the `weighted` scheme — task_scheduler.py:52-72

The scheme calculates with floating point numbers. The model is parametric in the arithmetic: `Arith` names the operations that the code uses and
the facts about them that are used (all hold for IEEE doubles, whose operations are monotone, for loads below 10⁹; `ratArith` is the exact instance).
-/

namespace IPP.Sched

/-- The operations of `weighted` on numbers: `w l` is `1.0 / (1e-6 + l)`. — task_scheduler.py:51-71 -/
structure Arith (F : Type) where
  w : Int → F
  add : F → F → F
  mul : F → F → F
  lt : F → F → Bool
  /-- a positive number -/
  pos : F → Prop
  /-- a value that `random()` can return: between 0 and 1 -/
  unit : F → Prop
  pos_w : ∀ l, 0 ≤ l → pos (w l)
  pos_add : ∀ a b, pos a → pos b → pos (add a b)
  mul_le : ∀ r t, unit r → pos t → lt t (mul r t) = false
  w_lt : ∀ l l', 0 ≤ l → 0 ≤ l' → (lt (w l') (w l) = true ↔ l < l')

/-- `weights.cumsum()` — task_scheduler.py:59. -/
def cumsumFrom {F : Type} (A : Arith F) (acc : F) : List F → List F
  | [] => []
  | x :: xs => A.add acc x :: cumsumFrom A (A.add acc x) xs
/-- see `cumsumFrom` — task_scheduler.py:51-71 -/
def cumsum {F : Type} (A : Arith F) : List F → List F
  | [] => []
  | x :: xs => x :: cumsumFrom A x xs

/-- `weighted` — task_scheduler.py:52-72. `r₁`, `r₂`: what the two calls of `random()` return. `none`: IndexError (of `sums[-1]`, or when a loop runs past the end). -/
def weighted {F : Type} (A : Arith F) (r₁ r₂ : F) (loads : List Int) : Option Nat :=
  let weights := loads.map A.w
  let sums := cumsum A weights
  match sums.getLast? with
  | none => none
  | some t =>
    let x := A.mul r₁ t
    let y := A.mul r₂ t
    -- `while sums[idx] < x: idx += 1`
    match sums.findIdx? (fun s => !A.lt s x), sums.findIdx? (fun s => !A.lt s y) with
    | some idx, some idy =>
      match weights[idx]?, weights[idy]? with
      | some wx, some wy => if A.lt wx wy then some idy else some idx
      | _, _ => none
    | _, _ => none

theorem cumsumFrom_length {F : Type} (A : Arith F) (acc : F) (l : List F) : (cumsumFrom A acc l).length = l.length := by
  induction l generalizing acc with
  | nil => rfl
  | cons x xs ih => simp [cumsumFrom, ih]

theorem cumsum_length {F : Type} (A : Arith F) (l : List F) : (cumsum A l).length = l.length := by
  cases l with
  | nil => rfl
  | cons x xs => simp [cumsum, cumsumFrom_length]

theorem cumsumFrom_pos {F : Type} (A : Arith F) (acc : F) (l : List F) (ha : A.pos acc) (h : ∀ x ∈ l, A.pos x) :
    ∀ s ∈ cumsumFrom A acc l, A.pos s := by
  induction l generalizing acc with
  | nil => intro s hs; cases hs
  | cons x xs ih =>
    intro s hs
    have hp := A.pos_add acc x ha (h x (by simp))
    rcases List.mem_cons.mp hs with rfl | hs
    · exact hp
    · exact ih _ hp (fun y hy => h y (by simp [hy])) s hs

theorem cumsum_pos {F : Type} (A : Arith F) (l : List F) (h : ∀ x ∈ l, A.pos x) : ∀ s ∈ cumsum A l, A.pos s := by
  cases l with
  | nil => intro s hs; cases hs
  | cons x xs =>
    intro s hs
    rcases List.mem_cons.mp hs with rfl | hs
    · exact h _ (by simp)
    · exact cumsumFrom_pos A x xs (h x (by simp)) (fun y hy => h y (by simp [hy])) s hs

/-- Specification: the sum of the first `i + 1` weights, in the arithmetic of the code. -/
def partialSum {F : Type} (A : Arith F) (loads : List Int) : Nat → Option F
  | 0 => (loads[0]?).map A.w
  | i + 1 => match partialSum A loads i, loads[i + 1]? with
    | some s, some l => some (A.add s (A.w l))
    | _, _ => none

/-- Specification: a random number `r` draws index `i` — `i` is the first index at which the partial sums of the inverse loads reach the fraction `r` of their total. -/
def Draws {F : Type} (A : Arith F) (loads : List Int) (r : F) (i : Nat) : Prop :=
  ∃ t s, partialSum A loads (loads.length - 1) = some t ∧ partialSum A loads i = some s ∧ A.lt s (A.mul r t) = false ∧
    ∀ j, j < i → ∀ s', partialSum A loads j = some s' → A.lt s' (A.mul r t) = true

theorem cumsumFrom_get {F : Type} (A : Arith F) (acc : F) (l : List F) (i : Nat) :
    (cumsumFrom A acc l)[i + 1]? = match (cumsumFrom A acc l)[i]?, l[i + 1]? with
      | some s, some x => some (A.add s x)
      | _, _ => none := by
  induction l generalizing acc i with
  | nil => simp [cumsumFrom]
  | cons x xs ih =>
    cases i with
    | zero =>
      simp only [cumsumFrom, List.getElem?_cons_succ, List.getElem?_cons_zero]
      cases xs with
      | nil => simp [cumsumFrom]
      | cons y ys => simp [cumsumFrom]
    | succ i =>
      simp only [cumsumFrom, List.getElem?_cons_succ]
      exact ih _ i

theorem cumsum_get {F : Type} (A : Arith F) (loads : List Int) (i : Nat) :
    (cumsum A (loads.map A.w))[i]? = partialSum A loads i := by
  induction i with
  | zero => cases loads <;> simp [cumsum, partialSum]
  | succ i ih =>
    cases loads with
    | nil => simp [cumsum, partialSum]
    | cons l ls =>
      simp only [partialSum]
      rw [← ih]
      simp only [List.map_cons, cumsum, List.getElem?_cons_succ]
      cases i with
      | zero =>
        cases ls with
        | nil => simp [cumsumFrom]
        | cons y ys => simp [cumsumFrom]
      | succ i =>
        simp only [List.getElem?_cons_succ]
        rw [cumsumFrom_get, List.getElem?_map]
        cases (cumsumFrom A (A.w l) (List.map A.w ls))[i]? <;> cases ls[i + 1]? <;> rfl

theorem draw_exists {F : Type} (A : Arith F) (loads : List Int) (hne : loads ≠ []) (hpos : ∀ l ∈ loads, 0 ≤ l) (r : F) (hr : A.unit r) :
    ∃ t i, (cumsum A (loads.map A.w)).getLast? = some t ∧
      (cumsum A (loads.map A.w)).findIdx? (fun s => !A.lt s (A.mul r t)) = some i ∧ i < loads.length ∧ Draws A loads r i := by
  have hlen : (cumsum A (loads.map A.w)).length = loads.length := by rw [cumsum_length, List.length_map]
  have hp := List.length_pos_iff.mpr hne
  have hps := cumsum_pos A (loads.map A.w) (by
    intro x hx
    obtain ⟨l, hl, rfl⟩ := List.mem_map.mp hx
    exact A.pos_w l (hpos l hl))
  have hne' : cumsum A (loads.map A.w) ≠ [] := by
    intro h; rw [h] at hlen; simp at hlen; omega
  obtain ⟨t, ht⟩ : ∃ t, (cumsum A (loads.map A.w)).getLast? = some t := by
    cases h : (cumsum A (loads.map A.w)).getLast? with
    | some t => exact ⟨t, rfl⟩
    | none => exact absurd (List.getLast?_eq_none_iff.mp h) hne'
  have htm := List.mem_of_getLast? ht
  have hlast : A.lt t (A.mul r t) = false := A.mul_le r t hr (hps t htm)
  have htp : partialSum A loads (loads.length - 1) = some t := by
    rw [← cumsum_get, ← hlen, ← List.getLast?_eq_getElem?]; exact ht
  cases hf : (cumsum A (loads.map A.w)).findIdx? (fun s => !A.lt s (A.mul r t)) with
  | none =>
    have := List.findIdx?_eq_none_iff.mp hf t htm
    simp [hlast] at this
  | some i =>
    obtain ⟨hi, h1, h2⟩ := List.findIdx?_eq_some_iff_getElem.mp hf
    refine ⟨t, i, ht, hf, by omega, t, _, htp, by rw [← cumsum_get]; exact List.getElem?_eq_getElem hi, by simpa using h1, ?_⟩
    intro j hj s' hs'
    rw [← cumsum_get] at hs'
    obtain ⟨hjl, hje⟩ := List.getElem?_eq_some_iff.mp hs'
    have := h2 j hj
    simp only [hje] at this
    simpa using this

/-- C22: the weighted scheme always returns a valid index, namely the less loaded of two indices drawn with the inverse loads as weights. -/
theorem weighted_valid {F : Type} (A : Arith F) (loads : List Int) (hne : loads ≠ []) (hpos : ∀ l ∈ loads, 0 ≤ l)
    (r₁ r₂ : F) (h₁ : A.unit r₁) (h₂ : A.unit r₂) :
    ∃ k i j, weighted A r₁ r₂ loads = some k ∧ Draws A loads r₁ i ∧ Draws A loads r₂ j ∧ (k = i ∨ k = j) ∧
      ∃ lk li lj, loads[k]? = some lk ∧ loads[i]? = some li ∧ loads[j]? = some lj ∧ lk ≤ li ∧ lk ≤ lj := by
  obtain ⟨t, i, ht, hi, hil, hd1⟩ := draw_exists A loads hne hpos r₁ h₁
  obtain ⟨t', j, ht', hj, hjl, hd2⟩ := draw_exists A loads hne hpos r₂ h₂
  have : t' = t := by rw [ht] at ht'; exact (Option.some.inj ht').symm
  subst this
  have hw : ∀ n, n < loads.length → ∃ l, loads[n]? = some l ∧ 0 ≤ l ∧ (loads.map A.w)[n]? = some (A.w l) := by
    intro n hn
    exact ⟨loads[n], List.getElem?_eq_getElem hn, hpos _ (List.getElem_mem hn), by rw [List.getElem?_map, List.getElem?_eq_getElem hn]; rfl⟩
  obtain ⟨li, hli, hli0, hwi⟩ := hw i hil
  obtain ⟨lj, hlj, hlj0, hwj⟩ := hw j hjl
  have hrun : weighted A r₁ r₂ loads = if A.lt (A.w li) (A.w lj) then some j else some i := by
    simp only [weighted, ht, hi, hj, hwi, hwj]
  by_cases hlt : A.lt (A.w li) (A.w lj) = true
  · refine ⟨j, i, j, by rw [hrun, if_pos hlt], hd1, hd2, Or.inr rfl, lj, li, lj, hlj, hli, hlj, ?_, Int.le_refl _⟩
    exact Int.le_of_lt ((A.w_lt lj li hlj0 hli0).mp hlt)
  · refine ⟨i, i, j, by rw [hrun, if_neg hlt], hd1, hd2, Or.inl rfl, li, li, lj, hli, hli, hlj, Int.le_refl _, ?_⟩
    by_cases h : lj < li
    · exact absurd ((A.w_lt lj li hlj0 hli0).mpr h) hlt
    · exact Int.not_lt.mp h

/-- C22: every scheme returns the index of an engine. -/
theorem all_schemes_valid {F : Type} (A : Arith F) (loads : List Int) (hne : loads ≠ []) (hpos : ∀ l ∈ loads, 0 ≤ l) (n₁ n₂ : Nat)
    (r₁ r₂ : F) (h₁ : A.unit r₁) (h₂ : A.unit r₂) :
    leastload loads < loads.length ∧ lru loads < loads.length ∧ plainrandom n₁ loads < loads.length ∧ twobin n₁ n₂ loads < loads.length ∧
    ∃ k, weighted A r₁ r₂ loads = some k ∧ k < loads.length := by
  obtain ⟨a, b, c, d⟩ := schemes_valid loads hne n₁ n₂
  obtain ⟨k, _, _, hk, _, _, _, lk, _, _, hlk, _⟩ := weighted_valid A loads hne hpos r₁ r₂ h₁ h₂
  exact ⟨a, b, c, d, k, hk, (List.getElem?_eq_some_iff.mp hlk).1⟩

/-- Exact arithmetic with rational numbers. -/
def ratArith : Arith Rat where
  w l := 1 / (1 / 1000000 + l)
  add := (· + ·)
  mul := (· * ·)
  lt a b := decide (a < b)
  pos a := 0 < a
  unit r := 0 ≤ r ∧ r < 1
  pos_w l h := by
    have h1 : (0 : Rat) ≤ (l : Rat) := by exact_mod_cast h
    have : (0 : Rat) < 1 / 1000000 + l := by grind
    grind [Rat.div_def, Rat.inv_pos]
  pos_add a b ha hb := by grind
  mul_le r t hr ht := by
    have : r * t ≤ 1 * t := Rat.mul_le_mul_of_nonneg_right (Rat.le_of_lt hr.2) (Rat.le_of_lt ht)
    simp only [Rat.one_mul] at this
    exact decide_eq_false (Rat.not_lt.mpr this)
  w_lt l l' h h' := by
    have h1 : (0 : Rat) ≤ (l : Rat) := by exact_mod_cast h
    have h2 : (0 : Rat) ≤ (l' : Rat) := by exact_mod_cast h'
    have p1 : (0 : Rat) < 1 / 1000000 + l := by grind
    have p2 : (0 : Rat) < 1 / 1000000 + l' := by grind
    rw [decide_eq_true_iff]
    rw [Rat.div_lt_iff p2]
    have e : 1 / (1 / 1000000 + (l : Rat)) * (1 / 1000000 + l') = (1 / 1000000 + (l' : Rat)) / (1 / 1000000 + l) := by
      simp only [Rat.div_def, Rat.one_mul]; rw [Rat.mul_comm]
    rw [e, Rat.lt_div_iff p1, Rat.one_mul]
    have : (l : Rat) < (l' : Rat) ↔ l < l' := by exact_mod_cast Iff.rfl
    rw [← this]
    constructor <;> intro h <;> grind

/-- The hypotheses of `weighted_valid` on a concrete case: three engines with loads 3, 0 and 1; both draws hit different engines. -/
example : weighted ratArith (1 / 10000000) (1 / 2) [3, 0, 1] = some 1 := by decide +kernel

end IPP.Sched
