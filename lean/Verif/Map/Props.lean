import Verif.Map.Lemmas

/-!
# Properties of partitioning, parallel map and scatter/gather (C01–C07)

Specification vocabulary is plain Lean: lists, `flatten`, `length`; `pyMap` is Python's built-in
`list(map(f, *seqs))`, characterised independently by `pyMap_spec_length`/`pyMap_spec_get`.
-/
namespace IPP.Map

/-! ### Characterisation of the sequential reference `pyMap` (the spec used by C04, C05). -/

/-- Python's `map` stops with the shortest sequence: it has an `i`-th result iff every sequence has an `i`-th item. -/
theorem pyMap_spec_length (f : List α → β) (seqs : List (List α)) (i : Nat) :
    i < (pyMap f seqs).length ↔ seqs ≠ [] ∧ ∀ s ∈ seqs, i < s.length := by
  rw [pyMap_length, lt_minLen]

/-- and the `i`-th result is `f` of the `i`-th items. -/
theorem pyMap_spec_get (f : List α → β) (seqs : List (List α)) (i : Nat) (h : i < (pyMap f seqs).length) :
    (pyMap f seqs)[i] = f (seqs.filterMap (fun s => s[i]?)) := by
  have := pyMap_getElem? f seqs i
  rw [List.getElem?_eq_getElem h, if_pos (by simpa [pyMap_length] using h)] at this
  exact Option.some.inj this

/-- With one sequence it is `List.map`. -/
theorem pyMap_single (f : List α → β) (s : List α) : pyMap f [s] = s.map (fun a => f [a]) := by
  apply List.ext_getElem?
  intro i
  rw [pyMap_getElem?]
  simp only [minLen, List.map_nil, List.foldl_nil, List.filterMap_cons, List.filterMap_nil, List.getElem?_map]
  by_cases h : i < s.length
  · simp [h]
  · simp [h]

/-! ### C01 — block partitioning -/

/-- **C01.** The `q` block partitions of `seq`, concatenated in order, are `seq`. -/
theorem block_partitions_concat (seq : List α) (q : Nat) (hq : 0 < q) :
    ∃ parts : List (List α),
      parts.length = q ∧
      (∀ (p : Nat) (h : p < parts.length), blockPartition seq p q seq.length = .ok parts[p]) ∧
      blockJoin parts = .ok seq ∧ parts.flatten = seq := by
  refine ⟨(List.range q).map (fun p => slice seq (lo seq.length q p) (lo seq.length q (p + 1))),
    by simp, ?_, ?_⟩
  · intro p h
    simp only [List.length_map, List.length_range] at h
    rw [blockPartition_eq seq p q _ h]
    simp
  · have h : ((List.range q).map (fun p => slice seq (lo seq.length q p) (lo seq.length q (p + 1)))).flatten
        = seq := by
      rw [slices_flatten, lo_last _ _ hq, List.take_length]
    refine ⟨?_, h⟩
    obtain ⟨k, rfl⟩ : ∃ k, q = k + 1 := ⟨q - 1, by omega⟩
    rw [List.range_succ_eq_map] at *
    simp only [List.map_cons, blockJoin] at *
    rw [h]

example : blockPartition [1, 2, 3, 4, 5, 6, 7] (1 : Nat) (3 : Nat) 7 = .ok [4, 5] := by rfl

/-! ### C02 — balance and rejection -/

/-- **C02 (balance).** Partition `p` of `n = len(seq)` items over `q` has `n/q` items, plus one iff `p < n % q`. -/
theorem block_partition_size (seq : List α) (p q : Nat) (h : p < q) :
    ∃ part, blockPartition seq p q seq.length = .ok part ∧
      part.length = seq.length / q + (if p < seq.length % q then 1 else 0) := by
  refine ⟨_, blockPartition_eq seq p q _ h, ?_⟩
  rw [slice_length]
  have h1 := lo_succ seq.length q p
  have h2 : lo seq.length q (p + 1) ≤ seq.length := by
    have := lo_mono seq.length q (show p + 1 ≤ q by omega)
    rwa [lo_last _ _ (by omega)] at this
  rw [Nat.min_eq_left h2, h1, Nat.add_assoc, Nat.add_sub_cancel_left]

/-- **C02 (pairwise).** Any two partitions differ by at most one item, and an earlier one is never smaller. -/
theorem block_partition_balanced (seq : List α) (p p' q : Nat) (h : p ≤ p') (h' : p' < q)
    (a b : List α) (ha : blockPartition seq p q seq.length = .ok a)
    (hb : blockPartition seq p' q seq.length = .ok b) :
    b.length ≤ a.length ∧ a.length ≤ b.length + 1 := by
  obtain ⟨a', ha', hal⟩ := block_partition_size seq p q (by omega)
  obtain ⟨b', hb', hbl⟩ := block_partition_size seq p' q h'
  rw [ha] at ha'; rw [hb] at hb'
  cases ha'; cases hb'
  rw [hal, hbl]
  split <;> split <;> omega

/-- **C02 (rejection).** Partition indices outside `0..q-1` raise ValueError, whatever the sequence;
all others succeed. -/
theorem block_partition_rejects (seq : List α) (p q : Int) (n : Nat) :
    blockPartition seq p q n = .error .valueError ↔ ¬ (0 ≤ p ∧ p < q) := by
  unfold blockPartition
  split
  · simp; omega
  · rename_i h
    have : 0 ≤ p ∧ p < q := by omega
    simp only [this, and_self, not_true_eq_false, iff_false]
    split <;> simp

example : blockPartition [1, 2, 3] (3 : Int) 3 3 = .error .valueError := by rfl
example : blockPartition [1, 2, 3] (-1 : Int) 3 3 = .error .valueError := by rfl

/-! ### C03 — round robin -/

/-- **C03 (contents).** Partition `p` holds exactly the items at positions `p, p+q, p+2q, …`. -/
theorem rr_partition_contents (seq : List α) (p q : Nat) (h : p < q) :
    ∃ part, rrPartition seq p q seq.length = .ok part ∧ ∀ i, part[i]? = seq[p + i * q]? := by
  refine ⟨_, rrPartition_eq seq p q _ h, ?_⟩
  intro i
  rw [stride_getElem? _ _ _ _ _ (by omega)]
  split
  · rfl
  · symm; rw [List.getElem?_eq_none_iff]; omega

/-- **C03.** Splitting round-robin and joining is the identity, for every length and every `q ≥ 1`. -/
theorem rr_round_trip (seq : List α) (q : Nat) (hq : 0 < q) :
    ∃ parts : List (List α),
      parts.length = q ∧
      (∀ (p : Nat) (h : p < parts.length), rrPartition seq p q seq.length = .ok parts[p]) ∧
      rrJoin parts = .ok seq := by
  refine ⟨(List.range q).map (fun p => stride seq p seq.length q), by simp, ?_,
    rr_join_strides seq seq.length q hq (Nat.le_refl _)⟩
  intro p h
  simp only [List.length_map, List.length_range] at h
  rw [rrPartition_eq seq p q _ h]
  simp

example : rrPartition [1, 2, 3, 4, 5, 6, 7] 1 3 7 = .ok [2, 5] := by rfl
example : rrJoin [[1, 4, 7], [2, 5], [3, 6]] = .ok [1, 2, 3, 4, 5, 6, 7] := by rfl

/-! ### C04, C05 — parallel map -/

/-- **C04 / C05.** `view.map(f, *seqs)` returns exactly what Python's built-in `map` returns: for equal and for
unequal lengths, for both distributions, for every chunksize and every positive number of targets. -/
theorem parMap_eq_map (d : Dist) (m : Mode) (f : List α → β) (seqs : List (List α))
    (hne : seqs ≠ []) (hm : ∀ k, m = .direct k → 0 < k) :
    parMap d m f seqs = .ok (pyMap f seqs) := by
  by_cases hn : maxLen seqs = 0
  · have h0 : minLen seqs = 0 := by have := minLen_le_maxLen seqs; omega
    have hp : pyMap f seqs = [] := by simp [pyMap, h0]
    unfold parMap submit
    rw [if_neg hne]
    simp [hn, hp, bind, Except.bind]
  · obtain ⟨rest, hrest, hsub⟩ := submit_tasks d m seqs hn hm true (Or.inl rfl)
    have hq : 0 < nparts m (maxLen seqs) := nparts_pos m _ (by omega) hm
    unfold parMap
    rw [hsub]
    simp only [bind, Except.bind]
    have hlen : (pyMap f seqs).length ≤ maxLen seqs := by
      rw [pyMap_length]; exact minLen_le_maxLen seqs
    have hmap : ((List.range (nparts m (maxLen seqs))).map
        (fun p => seqs.map (fun s => piece d s p (nparts m (maxLen seqs)) (maxLen seqs)))).map (pyMap f)
        = (List.range (nparts m (maxLen seqs))).map
            (fun p => piece d (pyMap f seqs) p (nparts m (maxLen seqs)) (maxLen seqs)) := by
      rw [List.map_map]
      apply List.map_congr_left
      intro p _
      exact pyMap_piece d f seqs p _ _ hq
    cases d with
    | b =>
      simp only [joinPartitions, blockJoin, List.map_cons]
      congr 1
      rw [← List.map_cons (f := pyMap f), ← hrest, flatten_filter_keep, hmap]
      simp only [piece]
      rw [slices_flatten, lo_last _ _ hq, List.take_of_length_le hlen]
    | r =>
      simp only [joinPartitions]
      obtain ⟨k, hk⟩ : ∃ k, nparts m (maxLen seqs) = k + 1 := ⟨nparts m (maxLen seqs) - 1, by omega⟩
      have hj := rr_join_strides (pyMap f seqs) (maxLen seqs) (nparts m (maxLen seqs)) hq hlen
      have hhead : pyMap f (seqs.map (fun s => piece .r s 0 (nparts m (maxLen seqs)) (maxLen seqs)))
          = stride (pyMap f seqs) 0 (maxLen seqs) (nparts m (maxLen seqs)) :=
        pyMap_piece .r f seqs 0 _ _ hq
      have hrow : ∀ i, rrRow ((seqs.map (fun s => piece .r s 0 (nparts m (maxLen seqs)) (maxLen seqs)) :: rest).map
            (pyMap f)) i
          = rrRow ((List.range (nparts m (maxLen seqs))).map
            (fun p => stride (pyMap f seqs) p (maxLen seqs) (nparts m (maxLen seqs)))) i := by
        intro i
        rw [← hrest, rrRow_filter_keep, hmap]
        rfl
      rw [List.map_cons] at hrow ⊢
      unfold rrJoin
      simp only []
      rw [funext hrow, hhead]
      rw [← hj]
      rw [hk, List.range_succ_eq_map, List.map_cons]
      rfl

/-- **C04**, the one-sequence case spelled out: `view.map(f, s)` is `[f(a) for a in s]`. -/
theorem parMap_single (d : Dist) (m : Mode) (f : List α → β) (s : List α) (hm : ∀ k, m = .direct k → 0 < k) :
    parMap d m f [s] = .ok (s.map (fun a => f [a])) := by
  rw [parMap_eq_map d m f [s] (by simp) hm, pyMap_single]

example : parMap .b (.balanced (some 2)) (fun xs => xs.sum) [[1, 2, 3, 4, 5], [10, 20, 30]]
    = .ok [11, 22, 33] := by rfl
example : parMap .r (.direct 3) (fun xs => xs.sum) [[1, 2, 3, 4, 5], [10, 20, 30, 40, 50]]
    = .ok [11, 22, 33, 44, 55] := by rfl

/-- **C04 (no targets/no sequences).** Mapping with no sequence raises, as does a non-empty map over no targets. -/
theorem parMap_rejects (d : Dist) (m : Mode) (f : List α → β) (seqs : List (List α)) :
    (seqs = [] → parMap d m f seqs = .error .indexError) ∧
    (maxLen seqs ≠ 0 → m = .direct 0 → parMap d m f seqs = .error .indexError) := by
  constructor
  · rintro rfl; rfl
  · rintro hn rfl
    have hne : seqs ≠ [] := by rintro rfl; simp [maxLen] at hn
    unfold parMap submit
    rw [if_neg hne]
    simp only []
    rw [if_neg hn, buildTasks_eq]
    simp [nparts, bind, Except.bind]

/-- **C05.** Calling (not mapping) a parallel function on sequences whose lengths are not all equal raises ValueError
and submits nothing; when the lengths agree (and are positive) it submits tasks. -/
theorem call_unequal_rejected (d : Dist) (m : Mode) (seqs : List (List α)) (s s' : List α)
    (hs : s ∈ seqs) (hs' : s' ∈ seqs) (hlen : s.length ≠ s'.length) :
    submit d m false seqs = .error .valueError := by
  have hne : seqs ≠ [] := by rintro rfl; simp at hs
  have h1 := le_maxLen seqs s hs
  have h2 := le_maxLen seqs s' hs'
  have h3 : minLen seqs ≠ maxLen seqs := by
    intro h
    have hmin : ∀ t ∈ seqs, minLen seqs ≤ t.length := by
      intro t ht
      apply Nat.le_of_not_lt
      intro hlt
      have := ((lt_minLen seqs _).1 hlt).2 t ht
      omega
    have := hmin s hs; have := hmin s' hs'
    omega
  unfold submit
  rw [if_neg hne]
  simp only []
  rw [if_neg (by omega), if_pos (by simp [h3])]

example : submit .b (.direct 2) false [[1, 2, 3], [4, 5]] = .error .valueError := by rfl

/-! ### C06 — chunks -/

/-- Length of one block with `n = len`. -/
theorem piece_b_length (s : List α) (p q : Nat) (h : p < q) :
    (piece .b s p q s.length).length = s.length / q + (if p < s.length % q then 1 else 0) := by
  obtain ⟨part, h1, h2⟩ := block_partition_size s p q h
  rw [blockPartition_eq s p q _ h] at h1
  cases h1
  exact h2

/-- **C06.** A load-balanced map of sequences of common length `n > 0` with `chunksize = c > 0` submits exactly
`⌈n/c⌉` tasks; in each task every argument has between 1 and `c` items. -/
theorem chunks_bounded (c : Nat) (hc : 0 < c) (seqs : List (List α)) (n : Nat) (hn : 0 < n)
    (hne : seqs ≠ []) (hlen : ∀ s ∈ seqs, s.length = n) (mapping : Bool) :
    ∃ ts, submit .b (.balanced (some c)) mapping seqs = .ok (.tasks ts) ∧
      ts.length = (n + (c - 1)) / c ∧
      ∀ args ∈ ts, args.length = seqs.length ∧ ∀ part ∈ args, 1 ≤ part.length ∧ part.length ≤ c := by
  obtain ⟨s0, hs0⟩ := List.exists_mem_of_ne_nil seqs hne
  have hmax : maxLen seqs = n := by
    have h1 := le_maxLen seqs s0 hs0
    rw [hlen s0 hs0] at h1
    obtain ⟨s, hs, hs'⟩ := maxLen_attained seqs (by omega)
    rw [← hs', hlen s hs]
  have hmin : minLen seqs = n := by
    have h1 : minLen seqs ≤ maxLen seqs := minLen_le_maxLen seqs
    have h2 : n - 1 < minLen seqs := (lt_minLen seqs _).2 ⟨hne, fun s hs => by rw [hlen s hs]; omega⟩
    omega
  obtain ⟨rest, hrest, hsub⟩ := submit_tasks .b (.balanced (some c)) seqs (by omega)
    (by intro k hk; cases hk) mapping (Or.inr (by omega))
  have hq : nparts (.balanced (some c)) n = (n + (c - 1)) / c := by
    obtain ⟨c', rfl⟩ : ∃ c', c = c' + 1 := ⟨c - 1, by omega⟩
    simp only [nparts, Nat.add_sub_cancel]
    have e := Nat.div_add_mod n (c' + 1)
    have hlt := Nat.mod_lt n (by omega : 0 < c' + 1)
    symm
    split
    · rename_i h
      rw [Nat.div_eq_iff (by omega)]
      rw [Nat.mul_comm] at e
      have e2 : (n / (c' + 1) + 1) * (c' + 1) = n / (c' + 1) * (c' + 1) + (c' + 1) := by
        rw [Nat.add_mul, Nat.one_mul]
      omega
    · rename_i h
      rw [Nat.div_eq_iff (by omega)]
      rw [Nat.mul_comm] at e
      simp only [Nat.add_zero]
      omega
  rw [hmax, hq] at hrest hsub
  -- abbreviations
  generalize hQ : (n + (c - 1)) / c = q at hrest hsub
  have hq1 : 0 < q := by
    rw [← hQ]; exact Nat.div_pos (by omega) hc
  have hqn : q ≤ n := by
    rw [← hQ]
    apply Nat.le_of_lt_succ
    rw [Nat.div_lt_iff_lt_mul hc]
    have : n * 1 ≤ n * c := Nat.mul_le_mul_left n hc
    rw [Nat.succ_mul]
    omega
  have hcq : n ≤ q * c := by
    have h1 := Nat.div_add_mod (n + (c - 1)) c
    have h2 := Nat.mod_lt (n + (c - 1)) hc
    rw [hQ, Nat.mul_comm] at h1
    omega
  have hsize : ∀ s ∈ seqs, ∀ p, p < q → 1 ≤ (piece .b s p q n).length ∧ (piece .b s p q n).length ≤ c := by
    intro s hs p hp
    have := piece_b_length s p q hp
    rw [hlen s hs] at this
    rw [this]
    have hd : 1 ≤ n / q := Nat.div_pos hqn hq1
    refine ⟨by omega, ?_⟩
    have e := Nat.div_add_mod n q
    by_cases hr : p < n % q
    · simp only [hr, if_true]
      have : n / q < c := by
        rw [Nat.div_lt_iff_lt_mul hq1, Nat.mul_comm]
        have hm0 : n ≠ q * c := by
          intro h
          rw [h] at hr
          simp at hr
        omega
      omega
    · simp only [hr, if_false]
      have : n / q ≤ c := by
        have := Nat.div_le_div_right (c := q) hcq
        rwa [Nat.mul_div_cancel_left c hq1] at this
      omega
  have hall : ∀ args ∈ (List.range q).map (fun p => seqs.map (fun s => piece .b s p q n)),
      args.length = seqs.length ∧ ∀ part ∈ args, 1 ≤ part.length ∧ part.length ≤ c := by
    intro args ha
    obtain ⟨p, hp, rfl⟩ := List.mem_map.1 ha
    refine ⟨by simp, ?_⟩
    intro part hpart
    obtain ⟨s, hs, rfl⟩ := List.mem_map.1 hpart
    exact hsize s hs p (by simpa using hp)
  have hfilter : ((List.range q).map (fun p => seqs.map (fun s => piece .b s p q n))).filter keep
      = (List.range q).map (fun p => seqs.map (fun s => piece .b s p q n)) := by
    apply List.filter_eq_self.2
    intro args ha
    rw [keep_iff]
    obtain ⟨p, hp, rfl⟩ := List.mem_map.1 ha
    refine ⟨_, List.mem_map_of_mem hs0, ?_⟩
    have := (hsize s0 hs0 p (by simpa using hp)).1
    intro h
    rw [h] at this
    simp at this
  rw [hfilter] at hrest
  rw [← hrest] at hsub
  exact ⟨_, hsub, by simp, hall⟩

example : submit .b (.balanced (some 2)) true [[1, 2, 3, 4, 5]]
    = .ok (.tasks [[[1, 2]], [[3, 4]], [[5]]]) := by rfl

/-- **C06/C11.** `len()` of the map result is the number of items the map yields. -/
theorem mapResult_len (d : Dist) (m : Mode) (seqs : List (List α)) (ts : List (List (List α)))
    (hm : ∀ k, m = .direct k → 0 < k) (h : submit d m true seqs = .ok (.tasks ts)) (f : List α → β) :
    mapResultLen ts = (pyMap f seqs).length := by
  by_cases hne : seqs = []
  · subst hne; simp [submit] at h
  by_cases hn : maxLen seqs = 0
  · simp [submit, hne, hn] at h
  obtain ⟨rest, hrest, hsub⟩ := submit_tasks d m seqs hn hm true (Or.inl rfl)
  rw [h] at hsub
  cases hsub
  have hq : 0 < nparts m (maxLen seqs) := nparts_pos m _ (by omega) hm
  have hlen : (pyMap f seqs).length ≤ maxLen seqs := by
    rw [pyMap_length]; exact minLen_le_maxLen seqs
  unfold mapResultLen
  have h1 : ∀ l : List (List (List α)), (l.map chunkSize).sum = (l.map (pyMap f)).flatten.length := by
    intro l
    induction l with
    | nil => rfl
    | cons a as ih => simp [ih, chunkSize, pyMap_length]
  rw [h1, ← hrest, flatten_filter_keep]
  have hmap : ((List.range (nparts m (maxLen seqs))).map
      (fun p => seqs.map (fun s => piece d s p (nparts m (maxLen seqs)) (maxLen seqs)))).map (pyMap f)
      = (List.range (nparts m (maxLen seqs))).map
          (fun p => piece d (pyMap f seqs) p (nparts m (maxLen seqs)) (maxLen seqs)) := by
    rw [List.map_map]
    apply List.map_congr_left
    intro p _
    exact pyMap_piece d f seqs p _ _ hq
  rw [hmap]
  cases d with
  | b =>
    simp only [piece]
    rw [slices_flatten, lo_last _ _ hq, List.take_of_length_le hlen]
  | r =>
    simp only [piece]
    exact strides_total_length _ _ _ hq hlen

/-! ### C07 — scatter / gather -/

/-- **C07.** `scatter` followed by `gather` with the same distribution over the same (≥ 1) engines is the identity. -/
theorem scatter_gather (d : Dist) (seq : List α) (engines : Nat) (he : 0 < engines) :
    ∃ held, scatter d seq engines = .ok held ∧ held.length = engines ∧ gather d held = .ok seq := by
  have hs : scatter d seq engines
      = .ok ((List.range engines).map (fun p => piece d seq p engines seq.length)) := by
    unfold scatter
    exact mapM_ok _ _ _ (fun p hp => getPartition_eq d seq p engines _ (by simpa using hp))
  refine ⟨_, hs, by simp, ?_⟩
  cases d with
  | b =>
    obtain ⟨k, rfl⟩ : ∃ k, engines = k + 1 := ⟨engines - 1, by omega⟩
    have h : ((List.range (k + 1)).map (fun p => piece .b seq p (k + 1) seq.length)).flatten = seq := by
      simp only [piece]
      rw [slices_flatten, lo_last _ _ he, List.take_length]
    simp only [gather, joinPartitions]
    rw [List.range_succ_eq_map] at *
    simp only [List.map_cons, blockJoin] at *
    rw [h]
  | r => exact rr_join_strides seq seq.length engines he (Nat.le_refl _)

example : scatter .r [1, 2, 3, 4, 5] 2 = .ok [[1, 3, 5], [2, 4]] := by rfl

end IPP.Map
