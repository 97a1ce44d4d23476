import Verif.DB.Persist

/-! # C96: the SQLite task database keeps the records of earlier controllers -/
namespace IPP.DB.Persist

open IPP.DB IPP.DB.Sql

/-! ## Specification vocabulary -/

/-- the rows that calls make of given rows -/
def applied (rows : Rows) : List In → Rows
  | [] => rows
  | .op o :: es => applied (Sql.step rows o).1 es
  | _ :: es => applied rows es

/-- a controller that starts now with this `SQLiteDB.table` has these records -/
def FindsAtStart (s : S) (first : String) (rows : Rows) : Prop := ∃ c, (start { s with conn := none } first).conn = some c ∧ c.rows = rows

/-- the table has the columns that the code reads and writes, in its order, with its types -/
def Current (t : Table) : Prop := t.cols = created

/-! ## Tables -/

theorem get_append (d : Disk) (m n : String) (t : Table) : get (d ++ [(m, t)]) n = match get d n with
    | some x => some x
    | none => if m = n then some t else none := by
  induction d with
  | nil => simp [get]
  | cons x d ih => obtain ⟨k, u⟩ := x; simp only [List.cons_append, get]; by_cases h : k = n <;> simp [h, ih]

theorem get_setRows (d : Disk) (m n : String) (r : Rows) : get (setRows d m r) n = (get d n).map (fun t => if m = n then { t with rows := r } else t) := by
  induction d with
  | nil => rfl
  | cons x d ih =>
    obtain ⟨k, u⟩ := x
    by_cases h : k = m
    · by_cases h' : k = n
      · subst h; subst h'; simp [setRows, get]
      · have : ¬ m = n := fun e => h' (h.trans e)
        simp only [setRows, if_pos h, get, if_neg h', this, if_false]
        cases get d n <;> rfl
    · by_cases h' : k = n
      · have : ¬ m = n := fun e => h (h'.trans e.symm)
        simp only [setRows, if_neg h, get, if_pos h', Option.map_some, if_neg this]
      · simp [setRows, h, get, h', ih]

theorem typeIn_of_fits_aux : ∀ (cols ref : List (String × String)), cols.map Prod.fst = ref.map Prod.fst → (ref.map Prod.fst).Nodup →
    (∀ k ∈ ref.map Prod.fst, typeIn cols k = typeIn ref k) → cols = ref
  | [], [], _, _, _ => rfl
  | [], _ :: _, h, _, _ => by simp at h
  | _ :: _, [], h, _, _ => by simp at h
  | (k, t) :: cols, (k', t') :: ref, h, hn, ht => by
    simp only [List.map_cons, List.cons.injEq] at h
    obtain ⟨h1, h2⟩ := h
    subst h1
    have e := ht k (by simp)
    simp only [typeIn, if_true, Option.some.injEq] at e
    subst e
    simp only [List.map_cons, List.nodup_cons] at hn
    rw [typeIn_of_fits_aux cols ref h2 hn.2 (fun j hj => ?_)]
    have := ht j (by simp only [List.map_cons, List.mem_cons]; exact .inr hj)
    have hne : ¬ k = j := fun e => hn.1 (e ▸ hj)
    simpa only [typeIn, if_neg hne] using this

theorem types_created : types = created := rfl

theorem columns_created : created.map Prod.fst = columns := by decide

theorem columns_nodup : columns.Nodup := by decide +kernel

/-- **C96**: a table passes the test exactly if it has the columns and types that the code itself creates. -/
theorem fits_iff (t : Table) : fits t.cols = true ↔ Current t := by
  unfold Current
  constructor
  · intro h
    simp only [fits, Bool.and_eq_true, decide_eq_true_eq, List.all_eq_true] at h
    refine typeIn_of_fits_aux _ _ (h.1.trans columns_created.symm) (columns_created ▸ columns_nodup) (fun k hk => ?_)
    rw [columns_created] at hk
    exact types_created ▸ h.2 k hk
  · intro h
    rw [h]
    simp only [fits, Bool.and_eq_true, decide_eq_true_eq, List.all_eq_true]
    exact ⟨columns_created, fun k _ => by rw [types_created]⟩

theorem checkTable_iff (d : Disk) (n : String) : checkTable d n = true ↔ ∀ t, get d n = some t → Current t := by
  unfold checkTable
  cases h : get d n with
  | none => simp
  | some t => simp [fits_iff]

theorem choose_some : ∀ (d : Disk) (first : String) (fuel i : Nat) (n : String), choose d first fuel i = some n →
    ∃ j, i ≤ j ∧ n = candidate first j ∧ checkTable d n = true ∧ ∀ k, i ≤ k → k < j → checkTable d (candidate first k) = false
  | d, first, 0, i, n, h => by simp [choose] at h
  | d, first, fuel + 1, i, n, h => by
    by_cases hc : checkTable d (candidate first i) = true
    · simp only [choose, if_pos hc, Option.some.injEq] at h
      subst h
      exact ⟨i, Nat.le_refl _, rfl, hc, fun k h1 h2 => by omega⟩
    · simp only [choose, if_neg hc] at h
      obtain ⟨j, h1, h2, h3, h4⟩ := choose_some d first fuel (i + 1) n h
      refine ⟨j, by omega, h2, h3, fun k hk1 hk2 => ?_⟩
      by_cases e : k = i
      · subst e; simpa using hc
      · exact h4 k (by omega) hk2

theorem choose_eq (d : Disk) (first : String) (j : Nat) (hj : checkTable d (candidate first j) = true) (hb : ∀ k, k < j → checkTable d (candidate first k) = false) :
    ∀ (fuel i : Nat), i ≤ j → j < i + fuel → choose d first fuel i = some (candidate first j)
  | 0, i, h1, h2 => by omega
  | fuel + 1, i, h1, h2 => by
    by_cases e : i = j
    · subst e; simp [choose, hj]
    · have := hb i (by omega)
      simp only [choose, this]
      exact choose_eq d first j hj hb fuel (i + 1) (by omega) (by omega)

theorem choose_none : ∀ (d : Disk) (first : String) (fuel i : Nat), choose d first fuel i = none → ∀ k, i ≤ k → k < i + fuel → checkTable d (candidate first k) = false
  | d, first, 0, i, _, k, h1, h2 => by omega
  | d, first, fuel + 1, i, h, k, h1, h2 => by
    by_cases hc : checkTable d (candidate first i) = true
    · simp [choose, hc] at h
    · simp only [choose, if_neg hc] at h
      by_cases e : k = i
      · subst e; simpa using hc
      · exact choose_none d first fuel (i + 1) h k (by omega) (by omega)

theorem toString_inj' {a b : Nat} (h : toString a = toString b) : a = b := by
  have h1 : (toString a : String) = String.ofList (Nat.toDigits 10 a) := Nat.toString_eq_ofList_toDigits
  have h2 : (toString b : String) = String.ofList (Nat.toDigits 10 b) := Nat.toString_eq_ofList_toDigits
  rw [h1, h2, String.ofList_inj] at h
  rw [← Nat.ofDigitChars_ten_toDigits (n := a), ← Nat.ofDigitChars_ten_toDigits (n := b), h]

theorem candidate_inj (first : String) (a b : Nat) (h : candidate first a = candidate first b) : a = b := by
  unfold candidate at h
  have hl : ∀ i : Nat, first ≠ first ++ "_" ++ toString i := by
    intro i e
    have := congrArg String.length e
    simp only [String.length_append] at this
    have h1 : "_".length = 1 := rfl
    omega
  by_cases ha : a = 0 <;> by_cases hb : b = 0
  · omega
  · rw [if_pos ha, if_neg hb] at h; exact absurd h (hl b)
  · rw [if_neg ha, if_pos hb] at h; exact absurd h.symm (hl a)
  · rw [if_neg ha, if_neg hb] at h
    have h' := congrArg String.toList h
    simp only [String.toList_append] at h'
    exact toString_inj' (String.toList_injective (List.append_cancel_left h'))

theorem get_mem : ∀ (d : Disk) (n : String) (t : Table), get d n = some t → n ∈ d.map Prod.fst
  | [], n, t, h => by simp [get] at h
  | (m, u) :: d, n, t, h => by
    by_cases e : m = n
    · simp [e]
    · simp only [get, if_neg e] at h
      simp only [List.map_cons, List.mem_cons]
      exact .inr (get_mem d n t h)

theorem length_le_of_subset : ∀ (l m : List String), l.Nodup → (∀ x ∈ l, x ∈ m) → l.length ≤ m.length
  | [], m, _, _ => by simp
  | x :: l, m, hn, hs => by
    simp only [List.nodup_cons] at hn
    have hx := hs x (by simp)
    have := length_le_of_subset l (m.erase x) hn.2 (fun y hy => (List.mem_erase_of_ne (fun (e : y = x) => hn.1 (e ▸ hy))).2 (hs y (by simp [hy])))
    rw [List.length_erase_of_mem hx] at this
    have := List.length_pos_of_mem hx
    simp only [List.length_cons]
    omega

/-- **C96**: a controller that starts always finds a table to use. -/
theorem start_finds (s : S) (first : String) (h : s.conn = none) : ∃ c, (start s first).conn = some c := by
  unfold start
  rw [h]
  cases hc : choose s.disk first (s.disk.length + 1) 0 with
  | some n => exact ⟨_, rfl⟩
  | none =>
    exfalso
    have hb := choose_none _ _ _ _ hc
    have h1 : ((List.range (s.disk.length + 1)).map (candidate first)).length ≤ (s.disk.map Prod.fst).length := by
      refine length_le_of_subset _ _ ?_ ?_
      · rw [List.nodup_iff_pairwise_ne, List.pairwise_map]
        exact List.nodup_range.imp (fun hne e => hne (candidate_inj first _ _ e))
      · intro x hx
        obtain ⟨k, hk, rfl⟩ := List.mem_map.1 hx
        have hk' := hb k (by omega) (by have := List.mem_range.1 hk; omega)
        unfold checkTable at hk'
        cases hg : get s.disk (candidate first k) with
        | none => simp [hg] at hk'
        | some t => exact get_mem _ _ _ hg
    simp at h1
    omega

theorem start_spec (s : S) (first : String) (h : s.conn = none) : ∃ j, (∀ k, k < j → checkTable s.disk (candidate first k) = false) ∧
    checkTable s.disk (candidate first j) = true ∧ start s first = { s with disk := create s.disk (candidate first j), conn := some ⟨candidate first j,
      ((get (create s.disk (candidate first j)) (candidate first j)).map Table.rows).getD [], nextDue s.now s.now⟩ } := by
  obtain ⟨c, hc⟩ := start_finds s first h
  cases hch : choose s.disk first (s.disk.length + 1) 0 with
  | none => simp [start, h, hch] at hc
  | some n =>
    obtain ⟨j, -, rfl, h3, h4⟩ := choose_some _ _ _ _ _ hch
    exact ⟨j, fun k hk => h4 k (by omega) hk, h3, by simp [start, h, hch]⟩

/-- the names in the order in which they are tried: `first`, `first_1`, `first_2`, … -/
theorem candidate_names (first : String) : candidate first 0 = first ∧ ∀ i, candidate first (i + 1) = first ++ "_" ++ toString (i + 1) := ⟨rfl, fun _ => rfl⟩

/-- **C96**: it uses the first name of `first`, `first_1`, … under which there is no table, or a table of the current format; it sees all rows of that table and no others; it changes no table
that is there, and adds at most an empty one. -/
theorem start_exact (s : S) (first : String) (h : s.conn = none) : ∃ j c, (start s first).conn = some c ∧ c.table = candidate first j ∧
    (∀ k, k < j → ∃ t, get s.disk (candidate first k) = some t ∧ ¬ Current t) ∧
    ((get s.disk c.table = none ∧ c.rows = [] ∧ get (start s first).disk c.table = some ⟨created, []⟩) ∨ ∃ t, get s.disk c.table = some t ∧ Current t ∧ c.rows = t.rows) ∧
    (∀ n t, get s.disk n = some t → get (start s first).disk n = some t) ∧ ∀ n t, get (start s first).disk n = some t → n ≠ c.table → get s.disk n = some t := by
  obtain ⟨j, hb, hj, hs⟩ := start_spec s first h
  rw [hs]
  refine ⟨j, _, rfl, rfl, fun k hk => ?_, ?_, ?_, ?_⟩
  · have := hb k hk
    have h' : ¬ checkTable s.disk (candidate first k) = true := by simp [this]
    rw [checkTable_iff] at h'
    cases hg : get s.disk (candidate first k) with
    | none => exact absurd (fun t ht => by rw [hg] at ht; cases ht) h'
    | some t => exact ⟨t, rfl, fun hc => h' (fun t' ht' => by rw [hg] at ht'; cases ht'; exact hc)⟩
  · simp only
    cases hg : get s.disk (candidate first j) with
    | none => exact .inl (by simp [create, hg, get_append])
    | some t => exact .inr ⟨t, rfl, (checkTable_iff _ _).1 hj t hg, by simp [create, hg]⟩
  · intro n t hg
    simp only [create]
    cases hg' : get s.disk (candidate first j) with
    | some t => exact hg
    | none => simp only [get_append, hg]
  · intro n t hg hne
    simp only [create] at hg
    cases hg' : get s.disk (candidate first j) with
    | some t => rw [hg'] at hg; exact hg
    | none =>
      simp only [hg', get_append] at hg
      cases hx : get s.disk n with
      | some y => rw [hx] at hg; exact hg
      | none =>
        rw [hx] at hg
        simp only [if_neg (Ne.symm hne)] at hg
        cases hg

/-! ## While a controller runs -/

/-- the database that is open has a table on the disk, of the current format; its next commit is due within two seconds -/
def Open (s : S) : Prop := ∀ c, s.conn = some c → (∃ t, get s.disk c.table = some t ∧ Current t) ∧ c.next ≤ s.now + 2000

theorem nextDue_le (next now : Nat) (h : next ≤ now + 2000) : nextDue next now ≤ now + 2000 := by
  unfold nextDue
  by_cases hn : next ≤ now
  · rw [if_pos hn]; omega
  · rw [if_neg hn]; exact h

theorem open_stepIn (s : S) (e : In) (h : Open s) : Open (stepIn s e) := by
  cases e with
  | op o =>
    cases hc : s.conn with
    | none => simpa [stepIn, hc] using h
    | some c =>
      intro c' hc'
      simp only [stepIn, hc, Option.some.injEq] at hc' ⊢
      subst hc'
      exact h c hc
  | wait ms =>
    intro c hc
    obtain ⟨h1, h2⟩ := h c hc
    exact ⟨h1, by simp only [stepIn]; omega⟩
  | timers =>
    cases hc : s.conn with
    | none => simpa [stepIn, hc] using h
    | some c =>
      obtain ⟨⟨t, h1, h2⟩, h3⟩ := h c hc
      by_cases hn : c.next ≤ s.now
      · intro c' hc'
        simp only [stepIn, hc, if_pos hn, Option.some.injEq] at hc' ⊢
        subst hc'
        refine ⟨⟨{ t with rows := c.rows }, ?_, h2⟩, nextDue_le _ _ h3⟩
        simp [commit, get_setRows, h1]
      · simpa [stepIn, hc, hn] using h
  | foreign n t =>
    cases hg : get s.disk n with
    | some u => simpa [stepIn, hg] using h
    | none =>
      intro c hc
      simp only [stepIn, hg] at hc ⊢
      obtain ⟨⟨u, h1, h2⟩, h3⟩ := h c hc
      exact ⟨⟨u, by simp only [get_append, h1], h2⟩, h3⟩

theorem open_step (s : S) (e : Ev) (h : Open s) : Open (step s e) := by
  cases e with
  | start first =>
    cases hc : s.conn with
    | some c => simpa [step, start, hc] using h
    | none =>
      obtain ⟨j, c, h1, h2, -, h4, h5, -⟩ := start_exact s first hc
      obtain ⟨j', -, -, hs⟩ := start_spec s first hc
      intro c' hc'
      simp only [step] at hc' ⊢
      have hn : c'.next ≤ (start s first).now + 2000 := by
        rw [hs] at hc' ⊢
        simp only [Option.some.injEq] at hc'
        subst hc'
        exact nextDue_le _ _ (by omega)
      rw [h1] at hc'
      cases hc'
      refine ⟨?_, hn⟩
      rcases h4 with ⟨-, -, h4⟩ | ⟨t, h4, h6, -⟩
      · exact ⟨_, h4, rfl⟩
      · exact ⟨t, h5 _ _ h4, h6⟩
  | inn e => exact open_stepIn s e h
  | close =>
    cases hc : s.conn with
    | none => simpa [step, hc] using h
    | some c => intro c' hc'; simp [step, hc] at hc'
  | stop => intro c' hc'; simp [step] at hc'
  | crash => intro c' hc'; simp [step] at hc'

theorem open_run (s : S) (evs : List Ev) (h : Open s) : Open (run s evs) := by
  induction evs generalizing s with
  | nil => exact h
  | cons e evs ih => exact ih _ (open_step s e h)

/-- one step: a table that is there stays, with its columns; its rows change only if it has the current format -/
theorem step_tables (s : S) (e : Ev) (h : Open s) (n : String) (t : Table) (hg : get s.disk n = some t) :
    ∃ t', get (step s e).disk n = some t' ∧ t'.cols = t.cols ∧ (¬ Current t → t' = t) := by
  have com : ∀ c, s.conn = some c → ∃ t', get (commit s.disk c) n = some t' ∧ t'.cols = t.cols ∧ (¬ Current t → t' = t) := by
    intro c hc
    by_cases e : c.table = n
    · refine ⟨{ t with rows := c.rows }, by simp [commit, get_setRows, hg, e], rfl, fun hn => ?_⟩
      obtain ⟨⟨u, h1, h2⟩, -⟩ := h c hc
      rw [e, hg] at h1
      cases h1
      exact absurd h2 hn
    · exact ⟨t, by simp [commit, get_setRows, hg, e], rfl, fun _ => rfl⟩
  have same : ∃ t', get s.disk n = some t' ∧ t'.cols = t.cols ∧ (¬ Current t → t' = t) := ⟨t, hg, rfl, fun _ => rfl⟩
  cases e with
  | start first =>
    cases hc : s.conn with
    | some c => simpa [step, start, hc] using same
    | none =>
      obtain ⟨j, c, -, -, -, -, h5, -⟩ := start_exact s first hc
      exact ⟨t, h5 _ _ hg, rfl, fun _ => rfl⟩
  | close =>
    cases hc : s.conn with
    | none => simpa [step, hc] using same
    | some c => simpa [step, hc] using com c hc
  | stop => exact same
  | crash => exact same
  | inn e =>
    cases e with
    | op o => cases hc : s.conn <;> simpa [step, stepIn, hc] using same
    | wait ms => exact same
    | timers =>
      cases hc : s.conn with
      | none => simpa [step, stepIn, hc] using same
      | some c =>
        by_cases hn : c.next ≤ s.now
        · simpa [step, stepIn, hc, hn] using com c hc
        · simpa [step, stepIn, hc, hn] using same
    | foreign m u =>
      cases hm : get s.disk m with
      | some v => simpa [step, stepIn, hm] using same
      | none => exact ⟨t, by simp only [step, stepIn, hm, get_append, hg], rfl, fun _ => rfl⟩

/-- **C96**: no table is ever removed or reshaped, and a table of another format is never written to, by any number of controllers. -/
theorem foreign_tables_untouched (s : S) (evs : List Ev) (h : s.conn = none) (n : String) (t : Table) (hg : get s.disk n = some t) :
    ∃ t', get (run s evs).disk n = some t' ∧ t'.cols = t.cols ∧ (¬ Current t → t' = t) := by
  have ho : Open s := fun c hc => by rw [h] at hc; cases hc
  clear h
  induction evs generalizing s t with
  | nil => exact ⟨t, hg, rfl, fun _ => rfl⟩
  | cons e evs ih =>
    obtain ⟨t1, h1, h2, h3⟩ := step_tables s e ho n t hg
    obtain ⟨t2, g1, g2, g3⟩ := ih (step s e) t1 h1 (open_step s e ho)
    refine ⟨t2, g1, g2.trans h2, fun hn => ?_⟩
    have e1 := h3 hn
    subst e1
    exact g3 hn

/-! ## Crashes -/

theorem applied_append (rows : Rows) (a b : List In) : applied rows (a ++ b) = applied (applied rows a) b := by
  induction a generalizing rows with
  | nil => rfl
  | cons e a ih => cases e <;> simp [applied, ih]

theorem applied_single (rows : Rows) (e : In) (h : ∀ o, e ≠ .op o) : applied rows [e] = rows := by
  cases e with
  | op o => exact absurd rfl (h o)
  | wait _ => rfl
  | timers => rfl
  | foreign _ _ => rfl

theorem runIn_snoc (s : S) (es : List In) (e : In) : runIn s (es ++ [e]) = stepIn (runIn s es) e := by simp [runIn]

theorem snocRec {α : Type} {P : List α → Prop} (h0 : P []) (h1 : ∀ l a, P l → P (l ++ [a])) : ∀ l, P l := by
  intro l
  rw [← List.reverse_reverse l]
  induction l.reverse with
  | nil => exact h0
  | cons a l ih => rw [List.reverse_cons]; exact h1 _ a ih

theorem now_runIn_mono (s : S) (a b : List In) : (runIn s a).now ≤ (runIn s (a ++ b)).now := by
  induction b using snocRec with
  | h0 => simp
  | h1 b e ih =>
    rw [← List.append_assoc, runIn_snoc]
    refine Nat.le_trans ih ?_
    cases e with
    | op o => simp only [stepIn]; split <;> simp
    | wait ms => simp [stepIn]
    | timers =>
      simp only [stepIn]
      split
      · split <;> simp
      · simp
    | foreign n t => simp only [stepIn]; split <;> simp

/-- what is known while the controller that started in `s` with `first` runs: `pre` is what has been committed -/
structure Run (s : S) (c0 : Conn) (es pre : List In) : Prop where
  pfx : pre <+: es
  sees : ∃ c, (runIn s es).conn = some c ∧ c.table = c0.table ∧ c.rows = applied c0.rows es ∧
    ∀ a o b, es = a ++ .op o :: b → ¬ a ++ [.op o] <+: pre → c.next ≤ (runIn s a).now + 2000
  disk : ∃ t, get (runIn s es).disk c0.table = some t ∧ t.rows = applied c0.rows pre

theorem Run.timers {s : S} {c0 : Conn} {es pre : List In} (r : Run s c0 es pre) (h : ∃ c, (runIn s es).conn = some c ∧ c.next ≤ (runIn s es).now) :
    Run s c0 (es ++ [.timers]) (es ++ [.timers]) := by
  obtain ⟨hp, ⟨c, h1, h2, h3, h4⟩, t, h5, h6⟩ := r
  obtain ⟨c', h1', hn⟩ := h
  rw [h1] at h1'
  cases h1'
  have hs : runIn s (es ++ [.timers]) = { runIn s es with disk := commit (runIn s es).disk c, conn := some { c with next := nextDue c.next (runIn s es).now } } := by
    rw [runIn_snoc]; simp [stepIn, h1, hn]
  have ha : applied c0.rows (es ++ [.timers]) = applied c0.rows es := by rw [applied_append]; rfl
  refine ⟨List.prefix_refl _, ⟨{ c with next := nextDue c.next (runIn s es).now }, by rw [hs], h2, by rw [ha]; exact h3, fun a o b he hnp => ?_⟩, ⟨{ t with rows := c.rows }, ?_, ?_⟩⟩
  · exact absurd ⟨b, by rw [he]; simp⟩ hnp
  · rw [hs]; simp only [commit, get_setRows, h5, h2]; simp
  · rw [ha]; exact h3

theorem prefix_snoc {a : List In} {o : Op} {b es : List In} {e : In} (he : es ++ [e] = a ++ .op o :: b) : (∃ b', es = a ++ .op o :: b') ∨ (a = es ∧ e = .op o ∧ b = []) := by
  rcases List.eq_nil_or_concat b with rfl | ⟨b', x, rfl⟩
  · have := List.append_inj' he rfl
    simp only [List.cons.injEq, and_true] at this
    exact .inr ⟨this.1.symm, this.2, rfl⟩
  · refine .inl ⟨b', ?_⟩
    have : es ++ [e] = (a ++ .op o :: b') ++ [x] := by rw [he]; simp
    exact (List.append_inj' this rfl).1

theorem run_session (s : S) (c0 : Conn) (h0 : s.conn = some c0) (ho : Open s) (hd : ∃ t, get s.disk c0.table = some t ∧ t.rows = c0.rows) (es : List In) :
    ∃ pre, Run s c0 es pre ∧ ∀ a o b c, es = a ++ .op o :: b ++ .timers :: c → (runIn s a).now + 2000 ≤ (runIn s (a ++ .op o :: b)).now → a ++ [.op o] <+: pre := by
  induction es using snocRec with
  | h0 =>
    refine ⟨[], ⟨List.prefix_refl _, ⟨c0, h0, rfl, rfl, fun a o b he => by simp at he⟩, hd⟩, fun a o b c he => by simp at he⟩
  | h1 es e ih =>
    obtain ⟨pre, r, ht⟩ := ih
    have hpre : es <+: es ++ [e] := List.prefix_append _ _
    obtain ⟨c, h1, h2, h3, h4⟩ := r.sees
    obtain ⟨t, h5, h6⟩ := r.disk
    -- a step that is not a timer
    have keep : (∀ e', e ≠ e' → True) → e ≠ .timers → ∀ (_ : Run s c0 (es ++ [e]) pre), ∃ pre, Run s c0 (es ++ [e]) pre ∧
        ∀ a o b c, es ++ [e] = a ++ .op o :: b ++ .timers :: c → (runIn s a).now + 2000 ≤ (runIn s (a ++ .op o :: b)).now → a ++ [.op o] <+: pre := by
      intro _ hne r'
      refine ⟨pre, r', fun a o b c' he hn => ?_⟩
      rcases List.eq_nil_or_concat c' with rfl | ⟨c'', x, rfl⟩
      · have := List.append_inj' he rfl
        simp only [List.cons.injEq, and_true] at this
        exact absurd this.2 hne
      · have : es ++ [e] = (a ++ .op o :: b ++ .timers :: c'') ++ [x] := by rw [he]; simp
        exact ht a o b c'' (List.append_inj' this rfl).1 hn
    cases e with
    | op o =>
      have hs : runIn s (es ++ [.op o]) = { runIn s es with conn := some { c with rows := (Sql.step c.rows o).1 } } := by rw [runIn_snoc]; simp [stepIn, h1]
      refine keep (fun _ _ => trivial) (by simp) ⟨r.pfx.trans hpre, ⟨{ c with rows := (Sql.step c.rows o).1 }, by rw [hs], h2, ?_, fun a o' b he hnp => ?_⟩, ⟨t, by rw [hs]; exact h5, h6⟩⟩
      · rw [applied_append]; simp [applied, h3]
      · rcases prefix_snoc he with ⟨b', he'⟩ | ⟨rfl, -, -⟩
        · exact h4 a o' b' he' hnp
        · have hoo : Open (runIn s a) := by
            clear ht r h3 h4 h5 h6 h1 hs keep hpre he hnp
            induction a using snocRec with
            | h0 => exact ho
            | h1 a e ih => rw [runIn_snoc]; exact open_stepIn _ _ ih
          exact (hoo c h1).2
    | wait ms =>
      have hs : runIn s (es ++ [.wait ms]) = { runIn s es with now := (runIn s es).now + ms } := by rw [runIn_snoc]; rfl
      refine keep (fun _ _ => trivial) (by simp) ⟨r.pfx.trans hpre, ⟨c, by rw [hs]; exact h1, h2, by rw [applied_append]; exact h3, fun a o' b he hnp => ?_⟩, ⟨t, by rw [hs]; exact h5, h6⟩⟩
      rcases prefix_snoc he with ⟨b', he'⟩ | ⟨-, h, -⟩
      · exact h4 a o' b' he' hnp
      · cases h
    | foreign n u =>
      have hs : (runIn s (es ++ [.foreign n u])).conn = (runIn s es).conn ∧ get (runIn s (es ++ [.foreign n u])).disk c0.table = some t := by
        rw [runIn_snoc]
        cases hg : get (runIn s es).disk n with
        | some v => simp [stepIn, hg, h5]
        | none => simp [stepIn, hg, get_append, h5]
      refine keep (fun _ _ => trivial) (by simp) ⟨r.pfx.trans hpre, ⟨c, by rw [hs.1]; exact h1, h2, by rw [applied_append]; exact h3, fun a o' b he hnp => ?_⟩, ⟨t, hs.2, h6⟩⟩
      rcases prefix_snoc he with ⟨b', he'⟩ | ⟨-, h, -⟩
      · exact h4 a o' b' he' hnp
      · cases h
    | timers =>
      by_cases hn : c.next ≤ (runIn s es).now
      · refine ⟨es ++ [.timers], r.timers ⟨c, h1, hn⟩, fun a o b c' he _ => ?_⟩
        rw [he]
        exact ⟨b ++ .timers :: c', by simp⟩
      · have hs : runIn s (es ++ [.timers]) = runIn s es := by rw [runIn_snoc]; simp [stepIn, h1, hn]
        refine ⟨pre, ⟨r.pfx.trans hpre, ⟨c, by rw [hs]; exact h1, h2, by rw [applied_append]; exact h3, fun a o' b he hnp => ?_⟩, ⟨t, by rw [hs]; exact h5, h6⟩⟩, fun a o b c' he hw => ?_⟩
        · rcases prefix_snoc he with ⟨b', he'⟩ | ⟨-, h, -⟩
          · exact h4 a o' b' he' hnp
          · cases h
        · rcases List.eq_nil_or_concat c' with rfl | ⟨c'', x, rfl⟩
          · have := (List.append_inj' he rfl).1
            by_cases hp : a ++ [.op o] <+: pre
            · exact hp
            · have h7 := h4 a o b this hp
              rw [← this] at hw
              omega
          · have : es ++ [.timers] = (a ++ .op o :: b ++ .timers :: c'') ++ [x] := by rw [he]; simp
            exact ht a o b c'' (List.append_inj' this rfl).1 hw

/-- tables of a session stay: those that were tried before its own are still there and of another format -/
theorem reopen {s : S} {first : String} (h : s.conn = none) {c0 : Conn} (hc : (start s first).conn = some c0) (s' : S) (t : Table)
    (hk : ∀ n t, get (start s first).disk n = some t → ∃ t', get s'.disk n = some t' ∧ t'.cols = t.cols) (ht : get s'.disk c0.table = some t) :
    ∃ c, (start { s' with conn := none } first).conn = some c ∧ c.table = c0.table ∧ c.rows = t.rows := by
  obtain ⟨j, c, h1, h2, h3, h4, h5, -⟩ := start_exact s first h
  rw [h1] at hc
  cases hc
  obtain ⟨j', c', g1, g2, g3, g4, -, -⟩ := start_exact { s' with conn := none } first rfl
  have old : ∀ k, k < j → ∃ t, get s'.disk (candidate first k) = some t ∧ ¬ Current t := by
    intro k hk'
    obtain ⟨t, a, b⟩ := h3 k hk'
    obtain ⟨t', a', b'⟩ := hk _ _ (h5 _ _ a)
    exact ⟨t', a', by unfold Current at *; rw [b']; exact b⟩
  have cur : Current t := by
    rcases h4 with ⟨-, -, h4⟩ | ⟨u, h4, h6, -⟩
    · obtain ⟨t', a', b'⟩ := hk _ _ h4
      rw [ht] at a'; cases a'
      exact b'
    · obtain ⟨t', a', b'⟩ := hk _ _ (h5 _ _ h4)
      rw [ht] at a'; cases a'
      exact b'.trans h6
  have hj : j' = j := by
    rcases Nat.lt_trichotomy j' j with hlt | he | hgt
    · obtain ⟨u, a, b⟩ := old j' hlt
      rw [g2] at g4
      rcases g4 with ⟨g4, -⟩ | ⟨v, g4, g5, -⟩
      · simp only at g4; rw [a] at g4; cases g4
      · simp only at g4; rw [a] at g4; cases g4; exact absurd g5 b
    · exact he
    · obtain ⟨u, a, b⟩ := g3 j hgt
      simp only at a
      rw [← h2, ht] at a
      cases a
      exact absurd cur b
  subst hj
  refine ⟨c', g1, g2.trans h2.symm, ?_⟩
  rw [g2, ← h2] at g4
  simp only at g4
  rw [ht] at g4
  rcases g4 with ⟨g4, -⟩ | ⟨v, g4, -, g5⟩
  · cases g4
  · cases g4; exact g5

theorem session_tables (s : S) (es : List In) (h : Open s) : ∀ n t, get s.disk n = some t → ∃ t', get (runIn s es).disk n = some t' ∧ t'.cols = t.cols := by
  induction es generalizing s with
  | nil => exact fun n t hg => ⟨t, hg, rfl⟩
  | cons e es ih =>
    intro n t hg
    obtain ⟨t1, h1, h2, -⟩ := step_tables s (.inn e) h n t hg
    obtain ⟨t2, g1, g2⟩ := ih (stepIn s e) (open_stepIn s e h) n t1 h1
    exact ⟨t2, g1, g2.trans h2⟩

theorem started (s : S) (first : String) (h : s.conn = none) : ∃ c, (start s first).conn = some c ∧ Open (start s first) ∧
    (∃ t, get (start s first).disk c.table = some t ∧ t.rows = c.rows) ∧ FindsAtStart s first c.rows := by
  obtain ⟨j, c, h1, h2, h3, h4, h5, -⟩ := start_exact s first h
  refine ⟨c, h1, ?_, ?_, ⟨c, ?_, rfl⟩⟩
  · have := open_step s (.start first) (fun c hc => by rw [h] at hc; cases hc)
    exact this
  · rcases h4 with ⟨-, h6, h7⟩ | ⟨t, h6, -, h7⟩
    · exact ⟨_, h7, h6.symm⟩
    · exact ⟨t, h5 _ _ h6, h7.symm⟩
  · have : { s with conn := none } = s := by cases s; simp only at h; subst h; rfl
    rw [this]; exact h1

/-- **C96**: a controller sees all its own calls at once, on top of the records it found. -/
theorem session_sees (s : S) (first : String) (h : s.conn = none) (rows : Rows) (hr : FindsAtStart s first rows) (es : List In) :
    ∃ c, (runIn (start s first) es).conn = some c ∧ c.rows = applied rows es := by
  obtain ⟨c, h1, h2, h3, h4⟩ := started s first h
  obtain ⟨c1, a, e1⟩ := h4
  obtain ⟨c2, b, e2⟩ := hr
  rw [a] at b; cases b
  have er : rows = c.rows := e2.symm.trans e1
  subst er
  obtain ⟨pre, r, -⟩ := run_session _ c h1 h2 h3 es
  obtain ⟨c', b1, b2, b3, -⟩ := r.sees
  exact ⟨c', b1, b3⟩

/-- **C96**: after a crash at any moment, the next controller with the same `SQLiteDB.table` finds what the calls up to some moment made of the records that the crashed one had found: no call is
half done, none is kept without those before it; and every call is kept that was made two seconds or more before the event loop last looked at its timers. -/
theorem crash_keeps_prefix (s : S) (first : String) (h : s.conn = none) (rows : Rows) (hr : FindsAtStart s first rows) (es : List In) :
    ∃ pre, pre <+: es ∧ FindsAtStart (runIn (start s first) es) first (applied rows pre) ∧
      ∀ a o b c, es = a ++ .op o :: b ++ .timers :: c → (runIn (start s first) a).now + 2000 ≤ (runIn (start s first) (a ++ .op o :: b)).now → a ++ [.op o] <+: pre := by
  obtain ⟨c, h1, h2, h3, h4⟩ := started s first h
  obtain ⟨c1, a, e1⟩ := h4
  obtain ⟨c2, b, e2⟩ := hr
  rw [a] at b; cases b
  have er : rows = c.rows := e2.symm.trans e1
  subst er
  obtain ⟨pre, r, ht⟩ := run_session _ c h1 h2 h3 es
  obtain ⟨t, d1, d2⟩ := r.disk
  obtain ⟨c', f1, -, f3⟩ := reopen h h1 (runIn (start s first) es) t (fun n t hg => session_tables _ es h2 n t hg) d1
  exact ⟨pre, r.pfx, ⟨c', f1, f3.trans d2⟩, ht⟩

/-- **C96**: after `close`, it finds everything. -/
theorem close_keeps_all (s : S) (first : String) (h : s.conn = none) (rows : Rows) (hr : FindsAtStart s first rows) (es : List In) :
    FindsAtStart (step (runIn (start s first) es) .close) first (applied rows es) := by
  obtain ⟨c, h1, h2, h3, h4⟩ := started s first h
  obtain ⟨c1, a, e1⟩ := h4
  obtain ⟨c2, b, e2⟩ := hr
  rw [a] at b; cases b
  have er : rows = c.rows := e2.symm.trans e1
  subst er
  obtain ⟨pre, r, -⟩ := run_session _ c h1 h2 h3 es
  obtain ⟨t, d1, d2⟩ := r.disk
  obtain ⟨c', b1, b2, b3, -⟩ := r.sees
  have hs : step (runIn (start s first) es) .close = { runIn (start s first) es with disk := commit (runIn (start s first) es).disk c', conn := none } := by simp [step, b1]
  have k1 : ∀ n t, get (start s first).disk n = some t → ∃ t', get (step (runIn (start s first) es) .close).disk n = some t' ∧ t'.cols = t.cols := by
    intro n t hg
    obtain ⟨t', x1, x2⟩ := session_tables _ es h2 n t hg
    rw [hs]
    refine ⟨if c'.table = n then { t' with rows := c'.rows } else t', by simp only [commit, get_setRows, x1, Option.map_some], ?_⟩
    by_cases e : c'.table = n
    · rw [if_pos e]; exact x2
    · rw [if_neg e]; exact x2
  have k2 : get (step (runIn (start s first) es) .close).disk c.table = some { t with rows := c'.rows } := by
    rw [hs]; simp [commit, get_setRows, d1, b2]
  obtain ⟨c'', f1, -, f3⟩ := reopen h h1 _ _ k1 k2
  exact ⟨c'', f1, f3.trans b3⟩

/-- **C96, violated**: a controller that is stopped in the regular way (a signal, or `client.shutdown(hub=True)`) ends as in a crash: `close` is not called, and the calls since the last commit
are lost. Here a task is recorded, one and a half seconds go by in the event loop, and the controller is stopped: the next one knows nothing of the task. -/
theorem stop_loses_violated (first : String) (i : Id) (r : Rec) (now : Nat) :
    let s1 := run ⟨[], now, none⟩ [.start first, .inn (.op (.add i r)), .inn (.wait 1500), .inn .timers]
    (∃ c, s1.conn = some c ∧ (rowOf c.rows i).isSome) ∧ FindsAtStart (step s1 .stop) first [] := by
  have hc : checkTable [] first = true := rfl
  have h1 : start ⟨[], now, none⟩ first = ⟨[(first, ⟨created, []⟩)], now, some ⟨first, [], now + 2000⟩⟩ := by
    simp [start, choose, hc, candidate_names, create, get, nextDue]
  have hlt : ¬ now + 2000 ≤ now + 1500 := by omega
  have hs1 : run ⟨[], now, none⟩ [.start first, .inn (.op (.add i r)), .inn (.wait 1500), .inn .timers] =
      ⟨[(first, ⟨created, []⟩)], now + 1500, some ⟨first, [(i, normRec (("msg_id", .text i) :: r))], now + 2000⟩⟩ := by
    simp [run, step, h1, stepIn, Sql.step, rowOf]
  simp only [hs1]
  refine ⟨⟨_, rfl, by simp [rowOf]⟩, ?_⟩
  obtain ⟨j, c, a1, a2, a3, a4, -, -⟩ := start_exact ⟨[(first, ⟨created, []⟩)], now + 1500, none⟩ first rfl
  refine ⟨c, a1, ?_⟩
  rcases a4 with ⟨-, a5, -⟩ | ⟨t, a5, -, a6⟩
  · exact a5
  · rw [a6]
    simp only [get] at a5
    by_cases e : first = c.table
    · rw [if_pos e] at a5; cases a5; rfl
    · rw [if_neg e] at a5; cases a5

/-! ## Non-trivial cases -/

/-- a file with a table of an older format: the controller takes the next name -/
example : let s := run ⟨[("tasks", ⟨[("msg_id", "text")], []⟩)], 0, none⟩ [.start "tasks", .inn (.op (.add "a" [])), .inn (.wait 2100), .inn .timers, .inn (.op (.add "b" [])), .crash, .start "tasks"]
    s.conn.map (fun c => (c.table, c.rows.map Prod.fst)) = some ("tasks_1", ["a"]) ∧ s.disk.map (fun x => (x.1, x.2.rows.length)) = [("tasks", 0), ("tasks_1", 1)] := by
  decide +kernel

/-- the hypotheses of `crash_keeps_prefix` are met: a first record is kept, a second is not -/
example : ∃ es : List In, ∃ a o b c, es = a ++ .op o :: b ++ .timers :: c ∧
    (runIn (start ⟨[], 0, none⟩ "tasks") a).now + 2000 ≤ (runIn (start ⟨[], 0, none⟩ "tasks") (a ++ .op o :: b)).now :=
  ⟨[.op (.add "a" []), .wait 2100, .timers, .op (.add "b" [])], [], .add "a" [], [.wait 2100], [.op (.add "b" [])], rfl, by decide +kernel⟩

example : FindsAtStart ⟨[], 0, none⟩ "tasks" [] := ⟨_, rfl, by decide +kernel⟩

end IPP.DB.Persist
