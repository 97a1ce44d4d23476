import Verif.Map.Model

/-! Helper lemmas about the map model. -/
namespace IPP.Map

theorem slice_getElem? (s : List α) (lo hi i : Nat) :
    (slice s lo hi)[i]? = if lo + i < hi then s[lo + i]? else none := by
  simp [slice, List.getElem?_drop, List.getElem?_take]

theorem slice_length (s : List α) (lo hi : Nat) : (slice s lo hi).length = min hi s.length - lo := by
  simp [slice]

/-- `filterMap` over a range of a function whose `none`s form a tail is just indexing. -/
theorem filterMap_range_getElem? (g : Nat → Option α) (hg : ∀ i j, i ≤ j → g i = none → g j = none)
    (M i : Nat) : ((List.range M).filterMap g)[i]? = if i < M then g i else none := by
  have len : ∀ M, (∀ j, j < M → g j ≠ none) → ((List.range M).filterMap g).length = M := by
    intro M
    induction M with
    | zero => simp
    | succ M ih =>
      intro h
      rw [List.range_succ, List.filterMap_append, List.length_append, ih (fun j hj => h j (by omega))]
      cases hM : g M with
      | none => exact absurd hM (h M (by omega))
      | some a => simp [List.filterMap, hM]
  induction M with
  | zero => simp
  | succ M ih =>
    rw [List.range_succ, List.filterMap_append]
    cases hM : g M with
    | none =>
      simp only [List.filterMap_cons, hM, List.filterMap_nil, List.append_nil]
      rw [ih]
      by_cases h : i < M
      · simp [h, Nat.lt_succ_of_lt h]
      · simp only [h, if_false]
        by_cases h2 : i < M + 1
        · have : i = M := by omega
          simp [this, hM]
        · simp [h2]
    | some a =>
      have hl := len M (fun j hj hn => by have := hg j M (by omega) hn; simp [hM] at this)
      simp only [List.filterMap_cons, hM, List.filterMap_nil]
      rw [List.getElem?_append, hl]
      by_cases h : i < M
      · simp only [h, if_true]
        rw [ih]; simp [h, Nat.lt_succ_of_lt h]
      · simp only [h, if_false]
        by_cases h2 : i = M
        · subst h2; simp [hM]
        · have : ¬ i < M + 1 := by omega
          simp only [this, if_false]
          have h3 : i - M ≠ 0 := by omega
          obtain ⟨k, hk⟩ : ∃ k, i - M = k + 1 := ⟨i - M - 1, by omega⟩
          simp [hk]

theorem stride_count (p n q i : Nat) (hq : 0 < q) : i < (n - p + (q - 1)) / q ↔ p + i * q < n := by
  rw [Nat.lt_div_iff_mul_lt hq, Nat.mul_comm]
  constructor
  · intro h; have : q * i = i * q := Nat.mul_comm _ _; omega
  · intro h; have : q * i = i * q := Nat.mul_comm _ _; omega

theorem stride_getElem? (s : List α) (p n q i : Nat) (hq : 0 < q) :
    (stride s p n q)[i]? = if p + i * q < n then s[p + i * q]? else none := by
  unfold stride
  rw [filterMap_range_getElem?]
  · simp only [stride_count p n q i hq]
  · intro i j hij h
    simp only [List.getElem?_eq_none_iff] at *
    have := Nat.mul_le_mul_right q hij
    omega

theorem lt_minLen (seqs : List (List α)) (i : Nat) :
    i < minLen seqs ↔ seqs ≠ [] ∧ ∀ s ∈ seqs, i < s.length := by
  have aux : ∀ (l : List Nat) (a : Nat), i < l.foldl min a ↔ i < a ∧ ∀ x ∈ l, i < x := by
    intro l
    induction l with
    | nil => simp
    | cons x l ih =>
      intro a
      simp only [List.foldl_cons, ih, List.mem_cons, forall_eq_or_imp, Nat.lt_min, and_assoc]
  cases seqs with
  | nil => simp [minLen]
  | cons s ss => simp [minLen, aux]

theorem le_maxLen (seqs : List (List α)) : ∀ s ∈ seqs, s.length ≤ maxLen seqs := by
  have aux : ∀ (l : List Nat) (a : Nat), a ≤ l.foldl max a ∧ ∀ x ∈ l, x ≤ l.foldl max a := by
    intro l
    induction l with
    | nil => simp
    | cons x l ih =>
      intro a
      have h := ih (max a x)
      simp only [List.foldl_cons, List.mem_cons, forall_eq_or_imp]
      refine ⟨by omega, by omega, h.2⟩
  intro s hs
  exact (aux (seqs.map List.length) 0).2 _ (List.mem_map_of_mem hs)

theorem maxLen_attained (seqs : List (List α)) (h : maxLen seqs ≠ 0) :
    ∃ s ∈ seqs, s.length = maxLen seqs := by
  have aux : ∀ (l : List Nat) (a : Nat), l.foldl max a = a ∨ l.foldl max a ∈ l := by
    intro l
    induction l with
    | nil => simp
    | cons x l ih =>
      intro a
      simp only [List.foldl_cons, List.mem_cons]
      have h := ih (max a x)
      rcases h with h | h
      · rw [h]; omega
      · exact Or.inr (Or.inr h)
  rcases aux (seqs.map List.length) 0 with h' | h'
  · exact absurd h' h
  · simpa [maxLen] using h'

theorem minLen_le_maxLen (seqs : List (List α)) : minLen seqs ≤ maxLen seqs := by
  apply Nat.le_of_not_lt
  intro h
  have := (lt_minLen seqs _).1 h
  obtain ⟨hne, hall⟩ := this
  cases seqs with
  | nil => exact hne rfl
  | cons s ss =>
    have h1 := hall s (by simp)
    have h2 := le_maxLen (s :: ss) s (by simp)
    omega

theorem pyMap_length (f : List α → β) (seqs : List (List α)) : (pyMap f seqs).length = minLen seqs := by
  simp [pyMap]

theorem pyMap_getElem? (f : List α → β) (seqs : List (List α)) (i : Nat) :
    (pyMap f seqs)[i]? =
      if i < minLen seqs then some (f (seqs.filterMap (fun s => s[i]?))) else none := by
  unfold pyMap
  by_cases h : i < minLen seqs <;> simp [h]

/-- Any re-indexing commutes with `pyMap`. -/
theorem pyMap_reindex (f : List α → β) (seqs : List (List α))
    (T : List α → List α) (T' : List β → List β) (c : Nat → Prop) [DecidablePred c] (φ : Nat → Nat)
    (hT : ∀ s i, (T s)[i]? = if c i then s[φ i]? else none)
    (hT' : ∀ s i, (T' s)[i]? = if c i then s[φ i]? else none) :
    pyMap f (seqs.map T) = T' (pyMap f seqs) := by
  have hlen : ∀ s i, i < (T s).length ↔ c i ∧ φ i < s.length := by
    intro s i
    have := hT s i
    constructor
    · intro h
      rw [List.getElem?_eq_getElem h] at this
      by_cases hc : c i
      · refine ⟨hc, ?_⟩
        simp only [hc, if_true] at this
        exact (List.getElem?_eq_some_iff.1 this.symm).1
      · simp [hc] at this
    · rintro ⟨hc, h⟩
      simp only [hc, if_true, List.getElem?_eq_getElem h] at this
      exact (List.getElem?_eq_some_iff.1 this).1
  apply List.ext_getElem?
  intro i
  rw [hT', pyMap_getElem?, pyMap_getElem?]
  have hlt : i < minLen (seqs.map T) ↔ c i ∧ φ i < minLen seqs := by
    rw [lt_minLen, lt_minLen]
    cases seqs with
    | nil => simp
    | cons s ss =>
      simp only [List.map_cons, ne_eq, reduceCtorEq, not_false_eq_true, List.mem_cons,
        forall_eq_or_imp, hlen, List.mem_map, forall_exists_index, and_imp,
        forall_apply_eq_imp_iff₂, true_and]
      constructor
      · rintro ⟨⟨hc, h1⟩, h2⟩
        exact ⟨hc, h1, fun a ha => (h2 a ha).2⟩
      · rintro ⟨hc, h1, h2⟩
        exact ⟨⟨hc, h1⟩, fun a ha => ⟨hc, h2 a ha⟩⟩
  by_cases hc : c i
  · by_cases h : φ i < minLen seqs
    · simp only [hlt, hc, h, and_self, if_true, List.filterMap_map, Option.some.injEq]
      congr 2
      funext s
      simp [hT, hc]
    · simp [hlt, hc, h]
  · simp [hlt, hc]

/-- The lower bound of block `p`. -/
def lo (n q p : Nat) : Nat := p * (n / q) + min p (n % q)

theorem lo_zero (n q : Nat) : lo n q 0 = 0 := by simp [lo]

theorem lo_last (n q : Nat) (hq : 0 < q) : lo n q q = n := by
  have h1 := Nat.div_add_mod n q
  have h2 := Nat.mod_lt n hq
  unfold lo
  rw [Nat.min_eq_right (by omega)]
  exact h1

theorem lo_succ (n q p : Nat) : lo n q (p + 1) = lo n q p + n / q + (if p < n % q then 1 else 0) := by
  unfold lo
  rw [Nat.add_mul, Nat.one_mul]
  split <;> omega

theorem lo_mono (n q : Nat) {a b : Nat} (h : a ≤ b) : lo n q a ≤ lo n q b := by
  induction b with
  | zero => simp_all
  | succ b ih =>
    by_cases h' : a ≤ b
    · have h1 := ih h'; have h2 := lo_succ n q b; rw [h2, Nat.add_assoc]; exact Nat.le_trans h1 (Nat.le_add_right _ _)
    · have : a = b + 1 := by omega
      simp [this]

theorem blockPartition_eq (seq : List α) (p q n : Nat) (h : p < q) :
    blockPartition seq p q n = .ok (slice seq (lo n q p) (lo n q (p + 1))) := by
  unfold blockPartition
  have h1 : ¬ ((p : Int) < 0 ∨ (p : Int) ≥ q) := by omega
  rw [if_neg h1]
  simp only [Int.toNat_natCast]
  have hs := lo_succ n q p
  by_cases hp : p < n % q
  · simp only [hp, if_true] at hs ⊢
    have hl : lo n q p = p * (n / q + 1) := by
      unfold lo; rw [Nat.min_eq_left (by omega), Nat.mul_add, Nat.mul_one]
    rw [hs, hl]
  · simp only [hp, if_false] at hs ⊢
    have hl : lo n q p = p * (n / q) + n % q := by
      unfold lo; rw [Nat.min_eq_right (by omega)]
    rw [hs, hl]
    simp

theorem rrPartition_eq (seq : List α) (p q n : Nat) (h : p < q) :
    rrPartition seq p q n = .ok (stride seq p n q) := by
  unfold rrPartition
  simp [show q ≠ 0 by omega]

theorem slices_flatten (s : List α) (n q : Nat) : ∀ k,
    ((List.range k).map (fun p => slice s (lo n q p) (lo n q (p + 1)))).flatten = s.take (lo n q k) := by
  intro k
  induction k with
  | zero => simp [lo_zero]
  | succ k ih =>
    rw [List.range_succ, List.map_append, List.flatten_append, ih]
    simp only [List.map_cons, List.map_nil, List.flatten_cons, List.flatten_nil, List.append_nil]
    unfold slice
    have : s.take (lo n q k) = (s.take (lo n q (k + 1))).take (lo n q k) := by
      rw [List.take_take, Nat.min_eq_left (lo_mono n q (by omega))]
    rw [this, List.take_append_drop]

/-- Reading all rows of the round-robin pieces gives back the list. -/
theorem strides_rows (s : List α) (n q : Nat) (hq : 0 < q) (hn : s.length ≤ n) (R : Nat)
    (hR : s.length ≤ R * q) :
    (List.range R).flatMap (rrRow ((List.range q).map (fun p => stride s p n q))) = s := by
  have hrow : ∀ i, rrRow ((List.range q).map (fun p => stride s p n q)) i
      = slice s (i * q) (i * q + q) := by
    intro i
    apply List.ext_getElem?
    intro j
    unfold rrRow
    rw [List.filterMap_map]
    have : ((fun part : List α => part[i]?) ∘ fun p => stride s p n q) = fun p => s[p + i * q]? := by
      funext p
      simp only [Function.comp, stride_getElem? s p n q i hq]
      by_cases h : p + i * q < n
      · simp [h]
      · simp only [h, if_false]
        symm; rw [List.getElem?_eq_none_iff]; omega
    rw [this, filterMap_range_getElem?, slice_getElem?]
    · by_cases h : j < q
      · rw [if_pos h, if_pos (by omega), Nat.add_comm]
      · rw [if_neg h, if_neg (by omega)]
    · intro a b hab h
      simp only [List.getElem?_eq_none_iff] at *
      omega
  have key : ∀ R, (List.range R).flatMap (rrRow ((List.range q).map (fun p => stride s p n q)))
      = s.take (R * q) := by
    intro R
    induction R with
    | zero => simp
    | succ R ih =>
      rw [List.range_succ, List.flatMap_append, ih]
      simp only [List.flatMap_cons, List.flatMap_nil, List.append_nil, hrow]
      unfold slice
      have h1 : R * q ≤ (R + 1) * q := Nat.mul_le_mul_right q (by omega)
      have h2 : R * q + q = (R + 1) * q := by rw [Nat.add_mul, Nat.one_mul]
      rw [h2]
      have : s.take (R * q) = (s.take ((R + 1) * q)).take (R * q) := by
        rw [List.take_take, Nat.min_eq_left h1]
      rw [this, List.take_append_drop]
  rw [key, List.take_of_length_le hR]

theorem mapM_ok {α β : Type _} {ε : Type _} (f : α → Except ε β) (g : α → β) (l : List α)
    (h : ∀ a ∈ l, f a = .ok (g a)) : l.mapM f = .ok (l.map g) := by
  induction l with
  | nil => rfl
  | cons a l ih =>
    rw [List.mapM_cons, h a (by simp), ih (fun b hb => h b (by simp [hb]))]
    rfl

/-- The piece `p` of a sequence under `d`. -/
def piece (d : Dist) (s : List α) (p q n : Nat) : List α :=
  match d with
  | .b => slice s (lo n q p) (lo n q (p + 1))
  | .r => stride s p n q

theorem getPartition_eq (d : Dist) (s : List α) (p q n : Nat) (h : p < q) :
    getPartition d s p q n = .ok (piece d s p q n) := by
  cases d
  · exact blockPartition_eq s p q n h
  · exact rrPartition_eq s p q n h

theorem partArgs_eq (d : Dist) (seqs : List (List α)) (p q n : Nat) (h : p < q) :
    partArgs d seqs p q n = .ok (seqs.map (fun s => piece d s p q n)) :=
  mapM_ok _ _ _ (fun s _ => getPartition_eq d s p q n h)

/-- Does the task at index `p` have any argument? -/
def keep (args : List (List α)) : Bool := (args.map List.length).sum != 0

theorem buildTasks_eq (d : Dist) (seqs : List (List α)) (q n : Nat) :
    buildTasks d seqs q n =
      .ok (((List.range q).map (fun p => seqs.map (fun s => piece d s p q n))).filter keep) := by
  unfold buildTasks
  rw [mapM_ok (fun index => partArgs d seqs index q n) (fun p => seqs.map (fun s => piece d s p q n))]
  · rfl
  · intro p hp
    exact partArgs_eq d seqs p q n (by simpa using hp)

theorem pyMap_piece (d : Dist) (f : List α → β) (seqs : List (List α)) (p q n : Nat) (hq : 0 < q) :
    pyMap f (seqs.map (fun s => piece d s p q n)) = piece d (pyMap f seqs) p q n := by
  cases d
  · exact pyMap_reindex f seqs (fun s => slice s (lo n q p) (lo n q (p + 1))) _
      (fun i => lo n q p + i < lo n q (p + 1)) (fun i => lo n q p + i)
      (fun s i => slice_getElem? s _ _ i) (fun s i => slice_getElem? s _ _ i)
  · exact pyMap_reindex f seqs (fun s => stride s p n q) _
      (fun i => p + i * q < n) (fun i => p + i * q)
      (fun s i => stride_getElem? s p n q i hq) (fun s i => stride_getElem? s p n q i hq)

theorem pyMap_not_keep (f : List α → β) (args : List (List α)) (h : keep args = false) :
    pyMap f args = [] := by
  have h0 : (args.map List.length).sum = 0 := by simpa [keep] using h
  have : minLen args = 0 := by
    apply Nat.eq_zero_of_not_pos
    intro hp
    have := (lt_minLen args 0).1 hp
    obtain ⟨hne, hall⟩ := this
    cases args with
    | nil => exact hne rfl
    | cons a as =>
      have := hall a (by simp)
      simp at h0
      simp [h0.1] at this
  unfold pyMap
  simp [this]

theorem flatten_filter_keep (f : List α → β) (all : List (List (List α))) :
    ((all.filter keep).map (pyMap f)).flatten = (all.map (pyMap f)).flatten := by
  induction all with
  | nil => rfl
  | cons a as ih =>
    by_cases h : keep a = true
    · simp [h, ih]
    · have h' : keep a = false := by simpa using h
      simp [h', ih, pyMap_not_keep f a h']

theorem rrRow_filter_keep (f : List α → β) (all : List (List (List α))) (i : Nat) :
    rrRow ((all.filter keep).map (pyMap f)) i = rrRow (all.map (pyMap f)) i := by
  unfold rrRow
  induction all with
  | nil => rfl
  | cons a as ih =>
    by_cases h : keep a = true
    · simp only [List.filter_cons, h, if_true, List.map_cons, List.filterMap_cons]
      rw [ih]
    · have h' : keep a = false := by simpa using h
      simp only [List.filter_cons, h', List.map_cons, List.filterMap_cons, pyMap_not_keep f a h']
      simpa using ih

theorem keep_iff (args : List (List α)) : keep args = true ↔ ∃ s ∈ args, s ≠ [] := by
  induction args with
  | nil => simp [keep]
  | cons a as ih =>
    simp only [keep, List.map_cons, List.sum_cons, bne_iff_ne, ne_eq, List.mem_cons,
      exists_eq_or_imp] at *
    rw [← ih]
    cases a <;> simp

theorem sum_map_zero (l : List Nat) : (l.map (fun _ => 0)).sum = 0 := by
  induction l with
  | nil => rfl
  | cons a l ih => simp [ih]

theorem strides_total_length (s : List α) (n q : Nat) (hq : 0 < q) (hn : s.length ≤ n) :
    (((List.range q).map (fun p => stride s p n q)).flatten).length = s.length := by
  -- the pieces are the rows transposed; count by (piece, row)
  have hcount : ∀ p, p < q → (stride s p n q).length = (s.length - p + (q - 1)) / q := by
    intro p hp
    apply Nat.le_antisymm
    · apply Nat.le_of_not_lt
      intro h
      have h1 := stride_getElem? s p n q ((s.length - p + (q - 1)) / q) hq
      rw [List.getElem?_eq_getElem h] at h1
      split at h1
      · have := (List.getElem?_eq_some_iff.1 h1.symm).1
        have := (stride_count p s.length q _ hq).2 this
        omega
      · simp at h1
    · apply Nat.le_of_not_lt
      intro h
      have h2 := (stride_count p s.length q _ hq).1 h
      have h1 := stride_getElem? s p n q (stride s p n q).length hq
      rw [List.getElem?_eq_none_iff.2 (Nat.le_refl _), if_pos (by omega)] at h1
      have := List.getElem?_eq_none_iff.1 h1.symm
      omega
  rw [List.length_flatten, List.map_map]
  have h1 : (List.range q).map (List.length ∘ fun p => stride s p n q)
      = (List.range q).map (fun p => (s.length - p + (q - 1)) / q) := by
    apply List.map_congr_left
    intro p hp
    exact hcount p (by simpa using hp)
  rw [h1]
  -- purely arithmetic: sum over residues of the number of indices below `len` in that residue class
  generalize s.length = L
  induction L with
  | zero =>
    have : (List.range q).map (fun p => (0 - p + (q - 1)) / q) = (List.range q).map (fun _ => 0) := by
      apply List.map_congr_left
      intro p _
      exact Nat.div_eq_of_lt (by omega)
    rw [this]
    exact sum_map_zero _
  | succ L ih =>
    have hstep : ∀ p, p < q → (L + 1 - p + (q - 1)) / q
        = (L - p + (q - 1)) / q + (if p = L % q then 1 else 0) := by
      intro p hp
      have hb : ∀ i, i < (L + 1 - p + (q - 1)) / q ↔ p + i * q < L + 1 := fun i => stride_count p (L + 1) q i hq
      have ha : ∀ i, i < (L - p + (q - 1)) / q ↔ p + i * q < L := fun i => stride_count p L q i hq
      generalize (L + 1 - p + (q - 1)) / q = B at *
      generalize (L - p + (q - 1)) / q = A at *
      have hA := (ha A)
      have e := Nat.div_add_mod L q
      have hm := Nat.mod_lt L hq
      by_cases hpl : p = L % q
      · simp only [hpl, if_true]
        have hA' : A = L / q := by
          apply Nat.le_antisymm
          · apply Nat.le_of_not_lt
            intro h
            have := (ha (L / q)).1 h
            rw [Nat.mul_comm] at this
            omega
          · apply Nat.le_of_not_lt
            intro h
            have h1 := mt (ha A).2 (by omega)
            have h2 : (A + 1) * q ≤ L / q * q := Nat.mul_le_mul_right q h
            rw [Nat.add_mul, Nat.one_mul, Nat.mul_comm (L / q)] at h2
            omega
        have hB' : B = L / q + 1 := by
          apply Nat.le_antisymm
          · apply Nat.le_of_not_lt
            intro h
            have := (hb (L / q + 1)).1 h
            rw [Nat.add_mul, Nat.one_mul, Nat.mul_comm] at this
            omega
          · apply (hb (L / q)).2
            rw [Nat.mul_comm]
            omega
        omega
      · simp only [hpl, if_false, Nat.add_zero]
        apply Nat.le_antisymm
        · apply Nat.le_of_not_lt
          intro h
          have h1 := (hb A).1 h
          have h2 := mt (ha A).2 (by omega)
          have h3 : p + A * q = L := by omega
          apply hpl
          rw [← h3, Nat.add_mul_mod_self_right, Nat.mod_eq_of_lt hp]
        · apply Nat.le_of_not_lt
          intro h
          have h1 := (ha B).1 h
          have h2 := mt (hb B).2 (by omega)
          omega
    have h2 : (List.range q).map (fun p => (L + 1 - p + (q - 1)) / q)
        = (List.range q).map (fun p => (L - p + (q - 1)) / q + (if p = L % q then 1 else 0)) := by
      apply List.map_congr_left
      intro p hp
      exact hstep p (by simpa using hp)
    rw [h2]
    have hsum : ∀ (l : List Nat) (g h : Nat → Nat),
        (l.map (fun p => g p + h p)).sum = (l.map g).sum + (l.map h).sum := by
      intro l g h
      induction l with
      | nil => rfl
      | cons a l ih => simp [ih]; omega
    have hone : ∀ q r, r < q → ((List.range q).map (fun p => if p = r then 1 else 0)).sum = 1 := by
      intro q
      induction q with
      | zero => intro r h; omega
      | succ q ih =>
        intro r h
        rw [List.range_succ, List.map_append, List.sum_append]
        by_cases hr : r < q
        · rw [ih r hr]; simp; omega
        · have : r = q := by omega
          subst this
          have : ((List.range r).map (fun p => if p = r then 1 else 0)) = (List.range r).map (fun _ => 0) := by
            apply List.map_congr_left
            intro p hp
            have : p < r := by simpa using hp
            simp; omega
          rw [this, sum_map_zero]
          simp
    rw [hsum, ih, hone q (L % q) (Nat.mod_lt L hq)]

theorem rr_join_strides (s : List α) (n q : Nat) (hq : 0 < q) (hn : s.length ≤ n) :
    rrJoin ((List.range q).map (fun p => stride s p n q)) = .ok s := by
  obtain ⟨k, rfl⟩ : ∃ k, q = k + 1 := ⟨q - 1, by omega⟩
  have hlen : s.length ≤ (stride s 0 n (k + 1)).length * (k + 1) := by
    apply Nat.le_of_not_lt
    intro hlt
    have h1 := stride_getElem? s 0 n (k + 1) (stride s 0 n (k + 1)).length (by omega)
    rw [List.getElem?_eq_none_iff.2 (Nat.le_refl _)] at h1
    simp only [Nat.zero_add] at h1
    rw [if_pos (by omega)] at h1
    have := List.getElem?_eq_none_iff.1 h1.symm
    omega
  have hrows := strides_rows s n (k + 1) (by omega) hn (stride s 0 n (k + 1)).length hlen
  conv => lhs; rw [List.range_succ_eq_map, List.map_cons]
  unfold rrJoin
  simp only []
  rw [← List.map_cons (f := fun p => stride s p n (k + 1)), ← List.range_succ_eq_map, hrows]

theorem nparts_pos (m : Mode) (n : Nat) (hn : 0 < n) (hm : ∀ k, m = .direct k → 0 < k) : 0 < nparts m n := by
  cases m with
  | direct k => simpa [nparts] using hm k rfl
  | balanced c =>
    match c with
    | none => simpa [nparts]
    | some 0 => simpa [nparts]
    | some (c + 1) =>
      simp only [nparts]
      by_cases h : n % (c + 1) > 0
      · simp only [h, if_true]; exact Nat.succ_pos _
      · simp only [h, if_false]
        have : n % (c + 1) = 0 := by omega
        have := Nat.div_pos (Nat.le_of_dvd hn (Nat.dvd_of_mod_eq_zero this)) (by omega : 0 < c + 1)
        omega

/-- The first piece always contains something. -/
theorem piece_zero_ne_nil (d : Dist) (s : List α) (q : Nat) (hq : 0 < q) (hs : s ≠ []) :
    piece d s 0 q s.length ≠ [] := by
  have hl : 0 < s.length := List.length_pos_iff.2 hs
  intro h
  have h0 : (piece d s 0 q s.length)[0]? = none := by rw [h]; rfl
  cases d with
  | r =>
    simp only [piece] at h0
    rw [stride_getElem? _ _ _ _ _ hq] at h0
    rw [if_pos (by omega)] at h0
    have := List.getElem?_eq_none_iff.1 h0
    omega
  | b =>
    simp only [piece] at h0
    rw [slice_getElem?, lo_zero, lo_succ] at h0
    have hpos : 0 + 0 < lo s.length q 0 + s.length / q + (if 0 < s.length % q then 1 else 0) := by
      rw [lo_zero]
      by_cases hm : 0 < s.length % q
      · simp [hm]
      · have : s.length % q = 0 := by omega
        have := Nat.div_pos (Nat.le_of_dvd hl (Nat.dvd_of_mod_eq_zero this)) hq
        omega
    rw [if_pos hpos] at h0
    have := List.getElem?_eq_none_iff.1 h0
    omega

theorem submit_tasks (d : Dist) (m : Mode) (seqs : List (List α)) (hn : maxLen seqs ≠ 0)
    (hm : ∀ k, m = .direct k → 0 < k) (mapping : Bool)
    (hok : mapping = true ∨ minLen seqs = maxLen seqs) :
    ∃ rest,
      ((List.range (nparts m (maxLen seqs))).map
        (fun p => seqs.map (fun s => piece d s p (nparts m (maxLen seqs)) (maxLen seqs)))).filter keep
        = (seqs.map (fun s => piece d s 0 (nparts m (maxLen seqs)) (maxLen seqs))) :: rest ∧
      submit d m mapping seqs = .ok (.tasks
        ((seqs.map (fun s => piece d s 0 (nparts m (maxLen seqs)) (maxLen seqs))) :: rest)) := by
  have hq : 0 < nparts m (maxLen seqs) := nparts_pos m _ (by omega) hm
  obtain ⟨s, hs, hsl⟩ := maxLen_attained seqs hn
  have hk : keep (seqs.map (fun s => piece d s 0 (nparts m (maxLen seqs)) (maxLen seqs))) = true := by
    rw [keep_iff]
    refine ⟨_, List.mem_map_of_mem hs, ?_⟩
    rw [← hsl]
    rw [hsl]
    have := piece_zero_ne_nil d s (nparts m (maxLen seqs)) hq (by rintro rfl; simp at hsl; omega)
    rwa [hsl] at this
  have hne : seqs ≠ [] := by rintro rfl; simp at hs
  obtain ⟨k, hk'⟩ : ∃ k, nparts m (maxLen seqs) = k + 1 := ⟨nparts m (maxLen seqs) - 1, by omega⟩
  have hform : ∃ rest,
      ((List.range (nparts m (maxLen seqs))).map
        (fun p => seqs.map (fun s => piece d s p (nparts m (maxLen seqs)) (maxLen seqs)))).filter keep
        = (seqs.map (fun s => piece d s 0 (nparts m (maxLen seqs)) (maxLen seqs))) :: rest := by
    rw [hk'] at hk ⊢
    rw [List.range_succ_eq_map]
    simp only [List.map_cons, List.filter_cons]
    rw [hk]
    exact ⟨_, rfl⟩
  obtain ⟨rest, hrest⟩ := hform
  refine ⟨rest, hrest, ?_⟩
  unfold submit
  rw [if_neg hne]
  simp only []
  rw [if_neg hn, if_neg (by rcases hok with h | h <;> simp [h]), buildTasks_eq, hrest]

end IPP.Map
