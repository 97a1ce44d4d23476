import Verif.Async.Access

/-! # C90: access to parts of an AsyncResult; C91: the timeouts of `wait_for_send` and `wait_for_output` -/
namespace IPP.Async.Access
open IPP.Async IPP.Async.Wait
open IPP.Client (pyGet sliceIndices)

variable {V M : Type}

/-! ## Specification vocabulary -/

/-- A state that the threads can reach from a fresh AsyncResult. -/
def Reach (A : AR) (s : St V) : Prop := ∃ c, Steps A (St.init c) s

/-- All tasks have finished; `res` are their results, in order of submission. -/
abbrev Finished (A : AR) (s : St V) (res : List (Res (Chunk V))) : Prop :=
  res.length = A.n ∧ ∀ i (h : i < res.length), s.child i = some res[i]

/-- No task failed in a way that counts: exceptions are wanted, or there is no remote error. -/
def Good (A : AR) (res : List (Res (Chunk V))) : Prop := A.re = true ∨ ∀ r ∈ res, ¬ RemoteRes r

theorem Reach.inv {A : AR} {s : St V} (h : Reach A s) : Inv A s := by
  obtain ⟨c, h⟩ := h
  exact inv_steps (inv_init A c) h

theorem Reach.steps {A : AR} {s t : St V} (h : Reach A s) (h' : Steps A s t) : Reach A t := by
  obtain ⟨c, h⟩ := h
  exact ⟨c, steps_trans h h'⟩

theorem ready_results {A : AR} {s : St V} (hr : Reach A s) (h : s.main = .ready) : ∃ res, results A s = some res ∧ (resolve A.kind A.re res).isSome :=
  hr.inv.main (by rw [h]; exact (by intro h; cases h))

theorem finished_of {A : AR} {s : St V} {res : List (Res (Chunk V))} (h : results A s = some res) : Finished A s res := by
  obtain ⟨h1, h2⟩ := results_spec h
  refine ⟨h1, fun i hi => ?_⟩
  exact h2 i hi

theorem collect_ok_of {rs : List (Res (Chunk V))} (h : ∀ r ∈ rs, ¬ RemoteRes r) : collectExceptions rs = .ok rs := by
  cases hc : collectExceptions rs with
  | ok l => rw [(collect_clean hc).1]
  | error e => obtain ⟨r, hr, hx⟩ := collect_err_mem hc; exact absurd hx (h r hr)

theorem collectFor_ok {A : AR} {rs : List (Res (Chunk V))} (h : Good A rs) : collectFor A.re rs = .ok rs := by
  unfold collectFor
  rcases h with h | h
  · simp [h]
  · rw [collect_ok_of h]; simp

theorem collectFor_spec {re : Bool} {rs l : List (Res (Chunk V))} (h : collectFor re rs = .ok l) : l = rs ∧ (re = true ∨ ∀ r ∈ rs, ¬ RemoteRes r) := by
  unfold collectFor at h
  cases re with
  | true => simp only [if_true, Except.ok.injEq] at h; exact ⟨h.symm, .inl rfl⟩
  | false =>
    simp only [Bool.false_eq_true, if_false] at h
    exact ⟨(collect_clean h).1, .inr (collect_clean h).2⟩

theorem collect_spec {re : Bool} {rs l : List (Res (Chunk V))} (h : collect re rs = .ok l) : l = rs ∧ (re = true ∨ ∀ r ∈ rs, ¬ RemoteRes r) := by
  unfold collect at h
  cases hc : collectFor re rs with
  | error e => rw [hc] at h; cases h
  | ok l' =>
    rw [hc] at h
    cases h
    exact collectFor_spec hc

theorem collect_ok {A : AR} {rs : List (Res (Chunk V))} (h : Good A rs) : collect A.re rs = .ok rs := by
  unfold collect; rw [collectFor_ok h]

theorem good_sub {A : AR} {rs l : List (Res (Chunk V))} (h : Good A rs) (hs : ∀ r ∈ l, r ∈ rs) : Good A l := by
  rcases h with h | h
  · exact .inl h
  · exact .inr (fun r hr => h r (hs r hr))

/-! ## Nothing before all tasks are finished -/

/-- As long as some task has not finished, results cannot be read by position, and success cannot be asked for: a TimeoutError, or a RuntimeError. -/
theorem not_finished (A : AR) (s : St V) (hr : Reach A s) (md : Nat → String → Option M) (i : Nat) (hi : i < A.n) (hc : s.child i = none) :
    (∀ k, getitem A s md (.int k) = .error .timeout) ∧ (∀ a b c, getitem A s md (.slice a b c) = .error .timeout) ∧
    successful A s = .error .runtimeError := by
  have h : s.main ≠ .ready := by
    intro h
    have := main_finished hr.inv (by rw [h]; exact (by intro h; cases h)) i hi
    rw [hc] at this
    simp at this
  refine ⟨fun k => ?_, fun a b c => ?_, ?_⟩
  · simp [getitem, h]
  · simp [getitem, h]
  · simp [successful, h]

/-! ## successful() -/

/-- `successful()` of a result that is ready says whether every `get()` (that is not asked to return exceptions) gives a value. -/
theorem successful_iff_get (A : AR) (s : St V) (hr : Reach A s) (h : s.main = .ready) :
    ∃ b, successful A s = .ok b ∧ ∀ (tmo fe : Bool) (s' : St V) (g : Got V), GetReturns A s tmo false fe s' g → (b = true ↔ ∃ o, g = .value o) := by
  obtain ⟨res, hres, hsome⟩ := ready_results hr h
  have hout : outcome A s = resolve A.kind A.re res := by simp [outcome, hres]
  have key : ∀ (tmo fe : Bool) (s' : St V) (g : Got V), GetReturns A s tmo false fe s' g → g = finishGet A.kind A.re false res := by
    intro tmo fe s' g hg
    cases hg with
    | ready _ _ res' hst _ hres' =>
      have := results_mono hst res hres
      rw [this] at hres'
      cases hres'
      rfl
    | timeout t _ hw hs2 hnr => exact absurd ((main_mono (steps_trans hw.steps hs2)).2 h) hnr
    | part t t' _ d p i r hw hs2 hnr _ _ _ _ _ => exact absurd ((main_mono (steps_trans hw.steps hs2)).2 h) hnr
    | nothing t t' d p hw hs2 hnr _ => exact absurd ((main_mono (steps_trans hw.steps hs2)).2 h) hnr
  unfold successful
  rw [if_neg (by simp [h]), hout]
  obtain ⟨x, hx⟩ := Option.isSome_iff_exists.1 hsome
  rw [hx]
  cases x with
  | ok o =>
    refine ⟨true, rfl, fun tmo fe s' g hg => ?_⟩
    rw [key tmo fe s' g hg]
    simp [finishGet, hx]
  | error e =>
    refine ⟨false, rfl, fun tmo fe s' g hg => ?_⟩
    rw [key tmo fe s' g hg]
    simp [finishGet, hx]

/-- For a result of several tasks: successful exactly if no task failed (or failures are to be returned as values). -/
theorem successful_iff (A : AR) (hk : A.kind = .list) (s : St V) (hr : Reach A s) (h : s.main = .ready) :
    ∃ res b, Finished A s res ∧ successful A s = .ok b ∧ (b = true ↔ Good A res) := by
  obtain ⟨res, hres, _⟩ := ready_results hr h
  refine ⟨res, ?_⟩
  have hout : outcome A s = some ((collectFor A.re res).map .many) := by simp [outcome, hres, hk, resolve]
  unfold successful
  rw [if_neg (by simp [h]), hout]
  cases hc : collectFor A.re res with
  | ok l =>
    refine ⟨true, finished_of hres, rfl, ?_⟩
    simp only [true_iff]
    rcases (collectFor_spec hc).2 with h | h
    · exact .inl h
    · exact .inr h
  | error e =>
    refine ⟨false, finished_of hres, rfl, ?_⟩
    simp only [Bool.false_eq_true, false_iff]
    intro hg
    rw [collectFor_ok hg] at hc
    cases hc

/-! ## Brackets -/

/-- position of a Python index in a list of length `n` -/
def Position (n : Nat) (k : Int) (j : Nat) : Prop := j < n ∧ (k = j ∨ k = (j : Int) - n)

theorem pyGet_position {α : Type} (l : List α) (k : Int) (j : Nat) (h : Position l.length k j) : pyGet l k = l[j]? := by
  obtain ⟨hj, h | h⟩ := h
  · subst h; simp [pyGet]
  · unfold pyGet
    have h0 : ¬ 0 ≤ k := by omega
    have h1 : 0 ≤ k + l.length := by omega
    rw [if_neg h0, if_pos h1]
    have : (k + l.length).toNat = j := by omega
    rw [this]

theorem pyGet_none {α : Type} (l : List α) (k : Int) (h : ∀ j, ¬ Position l.length k j) : pyGet l k = none := by
  unfold pyGet
  by_cases h0 : 0 ≤ k
  · rw [if_pos h0]
    apply List.getElem?_eq_none
    apply Nat.le_of_not_lt
    intro hl
    exact h k.toNat ⟨hl, .inl (by omega)⟩
  · rw [if_neg h0]
    by_cases h1 : 0 ≤ k + l.length
    · exfalso
      exact h (k + l.length).toNat ⟨by omega, .inr (by omega)⟩
    · rw [if_neg h1]

theorem list_result {A : AR} (hk : A.kind = .list) {s : St V} {res : List (Res (Chunk V))} (hres : results A s = some res) :
    result A s = match collectFor A.re res with
      | .ok l => .ok (.many l)
      | .error e => .error (.stored e) := by
  have hout : outcome A s = some ((collectFor A.re res).map .many) := by simp [outcome, hres, hk, resolve]
  unfold result
  rw [hout]
  cases collectFor A.re res <;> rfl

/-- A result of several tasks, all finished, none failed (or exceptions wanted as values): `ar[k]` is the result of the task at Python position `k`,
IndexError if there is none. -/
theorem getitem_int (A : AR) (hk : A.kind = .list) (s : St V) (hr : Reach A s) (h : s.main = .ready) (md : Nat → String → Option M) :
    ∃ res, Finished A s res ∧ (Good A res →
      (∀ k j (hp : Position A.n k j), ∃ r, s.child j = some r ∧ getitem A s md (.int k) = .ok (.entry r)) ∧
      (∀ k, (∀ j, ¬ Position A.n k j) → getitem A s md (.int k) = .error .indexError)) := by
  obtain ⟨res, hres, _⟩ := ready_results hr h
  have hf := finished_of hres
  refine ⟨res, hf, fun hg => ⟨fun k j hp => ?_, fun k hp => ?_⟩⟩
  · have hj : j < res.length := by rw [hf.1]; exact hp.1
    refine ⟨res[j], hf.2 j hj, ?_⟩
    have hgj : Good A [res[j]] := good_sub hg (by simp)
    have hget : pyGet res k = some res[j] := by
      rw [pyGet_position res k j (by rw [hf.1]; exact hp)]
      simp [hj]
    simp [getitem, h, list_result hk hres, collectFor_ok hg, entries, hget, collect_ok hgj]
  · have hget : pyGet res k = none := pyGet_none res k (by rw [hf.1]; exact hp)
    simp [getitem, h, list_result hk hres, collectFor_ok hg, entries, hget]

/-- ... and `ar[a:b:c]` is the list of the results of the tasks that a slice of the tasks selects, in its order. -/
theorem getitem_slice (A : AR) (hk : A.kind = .list) (s : St V) (hr : Reach A s) (h : s.main = .ready) (md : Nat → String → Option M) :
    ∃ res, Finished A s res ∧ (Good A res → ∀ a b c, c ≠ some 0 → ∃ is l, sliceIndices A.n a b c = .ok is ∧ (∀ i ∈ is, 0 ≤ i ∧ i < A.n) ∧
      is.map (fun i => s.child i.toNat) = l.map some ∧ getitem A s md (.slice a b c) = .ok (.entries l)) := by
  obtain ⟨res, hres, _⟩ := ready_results hr h
  have hf := finished_of hres
  refine ⟨res, hf, fun hg a b c hc => ?_⟩
  have hst : c.getD 1 ≠ 0 := by
    cases c with
    | none => simp
    | some x => simp only [Option.getD_some]; intro hx; exact hc (by rw [hx])
  obtain ⟨is, his⟩ : ∃ is, sliceIndices A.n a b c = .ok is := by
    unfold sliceIndices; rw [if_neg hst]; exact ⟨_, rfl⟩
  have hrange := IPP.Client.slice_in_range A.n a b c is his
  have hsl : sliceOf res a b c = .ok (is.filterMap (fun i => res[i.toNat]?)) := by
    unfold sliceOf; rw [hf.1, his]
  refine ⟨is, is.filterMap (fun i => res[i.toNat]?), his, hrange, ?_, ?_⟩
  · clear his hsl
    induction is with
    | nil => rfl
    | cons i is ih =>
      have hi := hrange i (by simp)
      have hlt : i.toNat < res.length := by rw [hf.1]; omega
      have e : res[i.toNat]? = some res[i.toNat] := by simp [hlt]
      rw [List.filterMap_cons_some (f := fun i : Int => res[i.toNat]?) e, List.map_cons, List.map_cons, ih (fun j hj => hrange j (by simp [hj])), hf.2 _ hlt]
  · have hgl : Good A (is.filterMap (fun i => res[i.toNat]?)) := by
      refine good_sub hg (fun r hr => ?_)
      obtain ⟨i, _, hi⟩ := List.mem_filterMap.1 hr
      exact List.mem_of_getElem? hi
    simp [getitem, h, list_result hk hres, collectFor_ok hg, entries, hsl, collect_ok hgl]

/-- If one of several tasks failed and exceptions are not wanted as values, no result can be read by position, also not that of a task which succeeded:
every access raises the combined error. -/
theorem getitem_other_failed (A : AR) (hk : A.kind = .list) (s : St V) (hr : Reach A s) (h : s.main = .ready) (md : Nat → String → Option M)
    (hre : A.re = false) (j : Nat) (hj : j < A.n) (r : Res (Chunk V)) (hc : s.child j = some r) (hb : RemoteRes r) :
    ∃ e, successful A s = .ok false ∧ (∀ k, getitem A s md (.int k) = .error (.stored e)) ∧
      (∀ a b c, getitem A s md (.slice a b c) = .error (.stored e)) ∧
      ∀ (tmo : Bool) s' g, GetReturns A s tmo false false s' g → g = .raised e := by
  obtain ⟨res, hres, _⟩ := ready_results hr h
  have hf := finished_of hres
  have hbad : r ∈ res := by
    have hj' : j < res.length := by rw [hf.1]; exact hj
    have := hf.2 j hj'
    rw [hc] at this
    cases this
    exact List.getElem_mem _
  cases hcf : collectFor A.re res with
  | ok l =>
    rcases (collectFor_spec hcf).2 with h' | h'
    · rw [hre] at h'; cases h'
    · exact absurd hb (h' r hbad)
  | error e =>
    have hres' : result A s = .error (.stored e) := by rw [list_result hk hres, hcf]
    have hout : outcome A s = some (.error e) := by simp [outcome, hres, hk, resolve, hcf, Except.map]
    refine ⟨e, ?_, fun k => ?_, fun a b c => ?_, ?_⟩
    · simp [successful, h, hout]
    · simp [getitem, h, hres']
    · simp [getitem, h, hres']
    · intro tmo s' g hg
      cases hg with
      | ready _ _ res' hst _ hres'' =>
        have := results_mono hst res hres
        rw [this] at hres''
        cases hres''
        simp [finishGet, hk, resolve, hcf, Except.map]
      | timeout t _ hw hs2 hnr => exact absurd ((main_mono (steps_trans hw.steps hs2)).2 h) hnr

/-- The result of a single task (`ar = view.apply(f)`): `ar[k]` looks into the value; TypeError if it has no items. -/
theorem getitem_single (A : AR) (hk : A.kind = .single) (s : St V) (hr : Reach A s) (h : s.main = .ready) (md : Nat → String → Option M) :
    ∃ r, s.child 0 = some r ∧ ∀ k : Int, match r with
      | .exc e => getitem A s md (.int k) = .error (.stored e)
      | .val (.scalar _) => getitem A s md (.int k) = .error .typeError
      | .val (.list l) => getitem A s md (.int k) = (match pyGet l k with | none => .error .indexError | some v => .ok (.entry (.val (.scalar v))))
      | .val (.tuple l) => getitem A s md (.int k) = (match pyGet l k with | none => .error .indexError | some v => .ok (.entry (.val (.scalar v)))) := by
  obtain ⟨res, hres, hsome⟩ := ready_results hr h
  have hf := finished_of hres
  cases res with
  | nil => rw [hk] at hsome; simp [resolve] at hsome
  | cons r rest =>
    have h0 : s.child 0 = some r := hf.2 0 (by simp)
    have pm : ∀ (l : List V) (k : Int), pyGet (l.map (fun v => (Res.val (Chunk.scalar v) : Res (Chunk V)))) k = (pyGet l k).map (fun v => .val (.scalar v)) := by
      intro l k
      simp only [pyGet, List.length_map, List.getElem?_map]
      by_cases h1 : 0 ≤ k
      · simp [h1]
      · by_cases h2 : 0 ≤ k + l.length
        · simp [h1, h2]
        · simp [h1, h2]
    have cs : ∀ v : V, collect A.re [(Res.val (Chunk.scalar v) : Res (Chunk V))] = .ok [.val (.scalar v)] := by
      intro v
      exact collect_ok (A := A) (.inr (by simp [RemoteRes]))
    refine ⟨r, h0, fun k => ?_⟩
    cases r with
    | exc e =>
      have hro : result A s = .error (.stored e) := by simp [result, outcome, hres, hk, resolve]
      simp [getitem, h, hro]
    | val c =>
      have hro : result A s = .ok (.one (.val c)) := by simp [result, outcome, hres, hk, resolve]
      cases c with
      | scalar v => simp [getitem, h, hro, entries]
      | list l =>
        simp only [getitem, h, hro, entries, pm]
        cases pyGet l k <;> simp [cs]
      | tuple l =>
        simp only [getitem, h, hro, entries, pm]
        cases pyGet l k <;> simp [cs]

/-! ## Metadata -/

theorem field_spec (A : AR) (md : Nat → String → Option M) (name : String) :
    (A.kind ≠ .single → (∀ i, i < A.n → (md i name).isSome) → ∃ l, field (V := V) A md name = .ok (.fields l) ∧ l.length = A.n ∧ ∀ i (h : i < l.length), md i name = some l[i]) ∧
    ((∃ i, i < A.n ∧ md i name = none) → field (V := V) A md name = .error .keyError) ∧
    (A.kind = .single → 0 < A.n → (∀ i, i < A.n → (md i name).isSome) → ∃ m, md 0 name = some m ∧ field (V := V) A md name = .ok (.field m)) := by
  have tot : (∀ i, i < A.n → (md i name).isSome) → ∃ l, (List.range A.n).mapM (fun i => md i name) = some l ∧ l.length = A.n ∧ ∀ i (h : i < l.length), md i name = some l[i] := by
    intro h
    obtain ⟨l, hl⟩ := mapM_total (f := fun i => md i name) (List.range A.n) (fun i hi => h i (by simpa using hi))
    obtain ⟨h1, h2⟩ := mapM_get _ _ hl
    rw [List.length_range] at h1
    refine ⟨l, hl, h1, fun i hi => ?_⟩
    have := h2 i hi (by simp; omega)
    simpa using this
  refine ⟨fun hk h => ?_, ?_, fun hk hn h => ?_⟩
  · obtain ⟨l, hl, h1, h2⟩ := tot h
    exact ⟨l, by simp [field, hl, hk], h1, h2⟩
  · rintro ⟨i, hi, hm⟩
    cases hx : (List.range A.n).mapM (fun i => md i name) with
    | none => simp [field, hx]
    | some l =>
      obtain ⟨h1, h2⟩ := mapM_get _ _ hx
      rw [List.length_range] at h1
      have := h2 i (by omega) (by simp; omega)
      simp [hm] at this
  · obtain ⟨l, hl, h1, h2⟩ := tot h
    cases l with
    | nil => simp at h1; omega
    | cons m l => exact ⟨m, by have := h2 0 (by simp); simpa using this, by simp [field, hl, hk]⟩

/-- Metadata can be read at any time, ready or not, whatever the tasks do: `ar['key']` and `ar.key` are the list of the tasks' entries in order of
submission (the entry itself for a single task); a key that some task's metadata lacks is a KeyError, and an AttributeError for `ar.key`. -/
theorem metadata_access (A : AR) (hn : 0 < A.n) (s : St V) (md : Nat → String → Option M) (name : String) :
    ((∀ i, i < A.n → (md i name).isSome) → ∃ p : Piece V M, getitem A s md (.str name) = .ok p ∧ getattr A s md name = .ok p ∧
      ((A.kind ≠ .single ∧ ∃ l, p = .fields l ∧ l.length = A.n ∧ ∀ i (h : i < l.length), md i name = some l[i]) ∨
       (A.kind = .single ∧ ∃ m, p = .field m ∧ md 0 name = some m))) ∧
    ((∃ i, i < A.n ∧ md i name = none) → getitem A s md (.str name) = .error .keyError ∧ getattr A s md name = .error .attributeError) := by
  obtain ⟨f1, f2, f3⟩ := field_spec (V := V) A md name
  refine ⟨fun h => ?_, fun h => ?_⟩
  · by_cases hk : A.kind = .single
    · obtain ⟨m, hm, hf⟩ := f3 hk hn h
      exact ⟨.field m, by simp [getitem, hf], by simp [getattr, getitem, hf], .inr ⟨hk, m, rfl, hm⟩⟩
    · obtain ⟨l, hf, hl⟩ := f1 hk h
      exact ⟨.fields l, by simp [getitem, hf], by simp [getattr, getitem, hf], .inl ⟨hk, l, rfl, hl⟩⟩
  · simp [getattr, getitem, f2 h]

/-! ## Iteration -/

theorem iterating_spec {A : AR} {s0 s : St V} {i : Nat} {ys : List (Res (Chunk V))} (hi : Iterating A s0 s i ys) :
    Steps A s0 s ∧ i ≤ A.n ∧ ys.length = i ∧ (∀ j (h : j < ys.length), s.child j = some ys[j]) ∧ Good A ys := by
  induction hi with
  | start s hs _ => exact ⟨hs, by omega, rfl, by simp, .inr (by simp)⟩
  | next s s' i ys r l _ hs hlt hc hcol ih =>
    obtain ⟨h1, h2, h3, h4, h5⟩ := ih
    refine ⟨steps_trans h1 hs, by omega, by simp [h3], ?_, ?_⟩
    · intro j hj
      by_cases hji : j < ys.length
      · rw [List.getElem_append_left hji]
        exact steps_child hs j _ (h4 j hji)
      · have : j = ys.length := by simp at hj; omega
        subst this
        simp only [List.getElem_concat_length]
        rw [h3]; exact hc
    · rcases (collect_spec hcol).2 with h | h
      · exact .inl h
      · rcases h5 with h5 | h5
        · exact .inl h5
        · refine .inr (fun x hx => ?_)
          rcases List.mem_append.1 hx with hx | hx
          · exact h5 x hx
          · exact h x hx

theorem list_finish {A : AR} (hk : A.kind = .list) {res : List (Res (Chunk V))} : finishGet A.kind A.re A.re res =
    match collectFor A.re res with
    | .ok l => .value (.many l)
    | .error e => .raised e := by
  cases hre : A.re with
  | true => simp [finishGet, hk, resolve, collectFor, Except.map]
  | false =>
    cases hc : collectFor false res with
    | ok l => simp [finishGet, hk, resolve, hc, Except.map]
    | error e => simp [finishGet, hk, resolve, hc, Except.map]

/-- Iterating over a result of several tasks, started at any time: the items obtained so far are the results of the first tasks in order of submission —
nothing is skipped, repeated or out of order, however the tasks finish — and none of them is a failure (unless exceptions are wanted as values). -/
theorem iter_prefix (A : AR) (hk : A.kind = .list) (s0 s : St V) (ys : List (Res (Chunk V))) (e : End) (h : IterRun A s0 s ys e) :
    ys.length ≤ A.n ∧ (∀ j (h : j < ys.length), s.child j = some ys[j]) ∧ Good A ys := by
  cases h with
  | single _ hks _ => rw [hk] at hks; cases hks
  | readyItems _ res l k _ _ _ hres hfin =>
    have hf := finished_of hres
    rw [list_finish hk] at hfin
    cases hc : collectFor A.re res with
    | error e => rw [hc] at hfin; cases hfin
    | ok l' =>
      rw [hc] at hfin
      cases hfin
      obtain ⟨rfl, hg⟩ := collectFor_spec hc
      refine ⟨by simp [hf.1]; omega, fun j hj => ?_, good_sub (by rcases hg with h | h; exact .inl h; exact .inr h) (fun r hr => List.mem_of_mem_take hr)⟩
      rw [List.getElem_take]
      exact hf.2 j _
  | readyAll _ res l _ _ _ hres hfin =>
    have hf := finished_of hres
    rw [list_finish hk] at hfin
    cases hc : collectFor A.re res with
    | error e => rw [hc] at hfin; cases hfin
    | ok l' =>
      rw [hc] at hfin
      cases hfin
      obtain ⟨rfl, hg⟩ := collectFor_spec hc
      exact ⟨by omega, hf.2, hg⟩
  | readyError _ _ _ _ => exact ⟨by simp, by simp, .inr (by simp)⟩
  | some _ i _ _ hi =>
    obtain ⟨_, h2, h3, h4, h5⟩ := iterating_spec hi
    exact ⟨by omega, h4, h5⟩
  | all _ i _ _ hi _ =>
    obtain ⟨_, h2, h3, h4, h5⟩ := iterating_spec hi
    exact ⟨by omega, h4, h5⟩
  | error s _ i _ r e _ hi hs _ _ _ =>
    obtain ⟨_, h2, h3, h4, h5⟩ := iterating_spec hi
    exact ⟨by omega, fun j hj => steps_child hs j _ (h4 j hj), h5⟩

/-- When the iteration ends normally, it has given the results of all tasks, and this is what `get()` returns. -/
theorem iter_complete (A : AR) (hk : A.kind = .list) (s0 s : St V) (ys : List (Res (Chunk V))) (h : IterRun A s0 s ys .stopped) :
    Finished A s ys ∧ resolve A.kind A.re ys = some (.ok (.many ys)) := by
  obtain ⟨h1, h2, h3⟩ := iter_prefix A hk s0 s ys _ h
  have hlen : ys.length = A.n := by
    cases h with
    | readyAll _ res _ _ _ _ hres hfin =>
      have hf := finished_of hres
      rw [list_finish hk] at hfin
      cases hc : collectFor A.re res with
      | error e => rw [hc] at hfin; cases hfin
      | ok l' =>
        rw [hc] at hfin
        cases hfin
        rw [(collectFor_spec hc).1]; exact hf.1
    | all _ i _ _ hi hin =>
      obtain ⟨_, _, h3, _⟩ := iterating_spec hi
      omega
  refine ⟨⟨hlen, h2⟩, ?_⟩
  rw [hk]
  simp only [resolve]
  rw [collectFor_ok h3]
  rfl

/-- It raises only if a task failed and exceptions are not wanted as values; with `return_exceptions` it never raises. -/
theorem iter_raises (A : AR) (hk : A.kind = .list) (s0 s : St V) (ys : List (Res (Chunk V))) (e : Err) (h : IterRun A s0 s ys (.raised e)) :
    A.re = false ∧ ∃ j r, j < A.n ∧ ys.length ≤ j ∧ s.child j = some r ∧ RemoteRes r := by
  have bad : ∀ (res : List (Res (Chunk V))) x, collectFor A.re res = .error x → A.re = false ∧ ∃ r ∈ res, RemoteRes r := by
    intro res x hc
    have hre : A.re = false := by
      cases hre : A.re with
      | false => rfl
      | true => simp [collectFor, hre] at hc
    refine ⟨hre, ?_⟩
    rw [hre] at hc
    exact collect_err_mem (e := x) (by simpa [collectFor] using hc)
  cases h with
  | single _ hks _ => rw [hk] at hks; cases hks
  | readyError _ res e' _ _ _ hres hfin =>
    have hf := finished_of hres
    rw [list_finish hk] at hfin
    cases hc : collectFor A.re res with
    | ok l => rw [hc] at hfin; cases hfin
    | error x =>
      obtain ⟨hre, r, hr, hb⟩ := bad _ _ hc
      obtain ⟨j, hj, rfl⟩ := List.getElem_of_mem hr
      exact ⟨hre, j, _, by rw [← hf.1]; exact hj, by simp, hf.2 j hj, hb⟩
  | error s _ i _ r e _ hi hs hlt hch hcol =>
    obtain ⟨_, h2, h3, h4, h5⟩ := iterating_spec hi
    unfold collect at hcol
    cases hc : collectFor A.re [r] with
    | ok l => rw [hc] at hcol; cases hcol
    | error x =>
      obtain ⟨hre, r', hr', hb⟩ := bad _ _ hc
      simp only [List.mem_singleton] at hr'
      subst hr'
      exact ⟨hre, i, r', hlt, by omega, hch, hb⟩

/-- It does not wait for more than it needs: if it was started before the result was ready, the next item can be had as soon as the next task in order of
submission has finished, whatever the others do. -/
theorem iter_prompt (A : AR) (hk : A.kind = .list) (s0 s s' : St V) (i : Nat) (ys : List (Res (Chunk V))) (h : Iterating A s0 s i ys) (hs : Steps A s s')
    (hi : i < A.n) (r : Res (Chunk V)) (hc : s'.child i = some r) :
    (A.re = true ∨ ¬ RemoteRes r → IterRun A s0 s' (ys ++ [r]) .suspended) ∧
    (A.re = false → RemoteRes r → ∃ e, IterRun A s0 s' ys (.raised e)) := by
  refine ⟨fun hg => ?_, fun hre hb => ?_⟩
  · have : Good A [r] := by
      rcases hg with h | h
      · exact .inl h
      · exact .inr (by simpa using h)
    exact .some _ _ _ hk (.next s s' i ys r [r] h hs hi hc (collect_ok this))
  · obtain ⟨e, he⟩ := (collect_one r).2 hb
    exact ⟨.stored e, .error s s' i ys r _ hk h hs hi hc (by simp [collect, collectFor, hre, he])⟩

/-- A result of a single task cannot be iterated, whatever its value. -/
theorem iter_single (A : AR) (hk : A.kind = .single) (s0 s : St V) (ys : List (Res (Chunk V))) (e : End) (h : IterRun A s0 s ys e) :
    ys = [] ∧ e = .raised .typeError := by
  cases h with
  | single => exact ⟨rfl, rfl⟩
  | readyItems _ _ _ _ h => rw [hk] at h; cases h
  | readyAll _ _ _ h => rw [hk] at h; cases h
  | readyError _ _ _ h => rw [hk] at h; cases h
  | some _ _ _ h => rw [hk] at h; cases h
  | all _ _ _ h => rw [hk] at h; cases h
  | error _ _ _ _ _ _ h => rw [hk] at h; cases h

/-- Two tasks, the second failed: the items one gets depend on whether the result was ready when the iteration started: the first result and then the
error, or the error at once. -/
theorem iter_readiness_violated (t : ETuple) (ht : t.en ≠ some "CompositeError") :
    ∃ (A : AR) (s0 s : St Nat), Reach A s0 ∧ Steps A s0 s ∧
      (∃ e, IterRun A s0 s [.val (.scalar 7)] (.raised e)) ∧ ∃ e, IterRun A s s [] (.raised e) := by
  let A : AR := ⟨.list, 2, false, none⟩
  let c : Nat → Option (Res (Chunk Nat)) := fun i => if i = 0 then some (.val (.scalar 7)) else some (.exc (.remote t))
  have hres : results A (St.init c) = some [.val (.scalar 7), .exc (.remote t)] := by rfl
  have hce : collectExceptions [(.val (.scalar 7) : Res (Chunk Nat)), .exc (.remote t)] = .error (.composite [t]) := by
    simp [collectExceptions, collectLoop, asRemote, ht]
  have hrs : resolve A.kind A.re [(.val (.scalar 7) : Res (Chunk Nat)), .exc (.remote t)] = some (.error (.composite [t])) := by
    show some ((collectExceptions [(.val (.scalar 7) : Res (Chunk Nat)), .exc (.remote t)]).map Out.many) = _
    rw [hce]; rfl
  let s1 : St Nat := { St.init c with main := .done }
  let s2 : St Nat := { St.init c with main := .ready }
  have h1 : Step A (St.init c) s1 := .mainDone _ _ rfl hres (by rw [hrs]; rfl)
  have h2 : Step A s1 s2 := .mainReady _ rfl
  have h12 : Steps A (St.init c) s2 := .tail (.tail (.refl _) h1) h2
  refine ⟨A, St.init c, s2, ⟨c, .refl _⟩, h12, ⟨.stored (.composite [t]), ?_⟩, ⟨.stored (.composite [t]), ?_⟩⟩
  · have i0 : Iterating A (St.init c) (St.init c) 0 [] := .start _ (.refl _) (by intro h; cases h)
    have i1 : Iterating A (St.init c) (St.init c) 1 ([] ++ [.val (.scalar 7)]) := .next _ _ 0 [] _ _ i0 (.refl _) (by decide) rfl (collect_ok (A := A) (.inr (by simp [RemoteRes])))
    refine .error (St.init c) s2 1 _ (.exc (.remote t)) _ rfl i1 h12 (by decide) rfl ?_
    simp [collect, collectFor, A, collectExceptions, collectLoop, asRemote, ht]
  · refine .readyError s2 [.val (.scalar 7), .exc (.remote t)] _ rfl (.refl _) rfl (by rfl) ?_
    simp only [finishGet, hrs]
    rfl

/-! ## get_dict -/

/-- `get_dict()` of a result of several tasks that ran on different engines: each engine with the result of its task; ValueError if two ran on the same. -/
theorem get_dict_list (A : AR) (hk : A.kind = .list) (s : St V) (hr : Reach A s) (h : s.main = .ready) (eng : Nat → Nat) :
    ∃ res, Finished A s res ∧ (Good A res →
      ((∀ i j, i < A.n → j < A.n → eng i = eng j → i = j) → ∃ d, getDictOf A s eng = .ok d ∧ d.length = A.n ∧
        ∀ i (h : i < d.length), (d[i]).1 = eng i ∧ s.child i = some (d[i]).2) ∧
      ((∃ i j, i < A.n ∧ j < A.n ∧ i ≠ j ∧ eng i = eng j) → getDictOf A s eng = .error .valueError)) := by
  obtain ⟨res, hres, _⟩ := ready_results hr h
  have hf := finished_of hres
  have hfst : (((List.range A.n).map eng).zip res).map Prod.fst = (List.range A.n).map eng := by
    rw [List.map_fst_zip]
    simp [hf.1]
  refine ⟨res, hf, fun hg => ⟨fun hinj => ?_, ?_⟩⟩
  · have hnd : ((((List.range A.n).map eng).zip res).map Prod.fst).Nodup := by
      rw [hfst, List.Nodup, List.pairwise_map]
      refine List.Pairwise.imp_of_mem ?_ (List.nodup_range (n := A.n))
      intro a b ha hb hab e
      exact hab (hinj a b (by simpa using ha) (by simpa using hb) e)
    have := (get_dict_spec (((List.range A.n).map eng).zip res)).1.2 hnd
    refine ⟨((List.range A.n).map eng).zip res, by simp [getDictOf, hres, list_finish hk, collectFor_ok hg, this], by simp [hf.1], ?_⟩
    intro i hi
    have hi' : i < res.length := by simp at hi; omega
    exact ⟨by simp, by simpa using hf.2 i hi'⟩
  · rintro ⟨i, j, hi, hj, hij, he⟩
    have hnd : ¬ ((((List.range A.n).map eng).zip res).map Prod.fst).Nodup := by
      rw [hfst]
      intro hn
      have := (List.getElem_inj (h₀ := by simpa using hi) (h₁ := by simpa using hj) hn).1 (by simpa using he)
      exact hij this
    simp [getDictOf, hres, list_finish hk, collectFor_ok hg, (get_dict_spec _).2 hnd]

/-- `get_dict()` of a map result pairs the engines with the first *items* of the result, not with what they computed: items are lost and attributed to engines that
did not produce them. Here task 0 on engine 3 gave [10, 11], task 1 on engine 5 gave [20, 21]. -/
theorem get_dict_map_violated : ∃ (A : AR) (s : St Nat) (eng : Nat → Nat), Reach A s ∧ s.main = .ready ∧
    s.child 0 = some (.val (.list [10, 11])) ∧ s.child 1 = some (.val (.list [20, 21])) ∧ eng 0 = 3 ∧ eng 1 = 5 ∧
    getDictOf A s eng = .ok [(3, .val (.scalar 10)), (5, .val (.scalar 11))] := by
  let A : AR := ⟨.map .b, 2, false, none⟩
  let c : Nat → Option (Res (Chunk Nat)) := fun i => if i = 0 then some (.val (.list [10, 11])) else some (.val (.list [20, 21]))
  let s1 : St Nat := { St.init c with main := .done }
  let s2 : St Nat := { St.init c with main := .ready }
  have h1 : Step A (St.init c) s1 := .mainDone _ [.val (.list [10, 11]), .val (.list [20, 21])] rfl rfl rfl
  have h2 : Step A s1 s2 := .mainReady _ rfl
  exact ⟨A, s2, fun i => if i = 0 then 3 else 5, ⟨c, .tail (.tail (.refl _) h1) h2⟩, rfl, rfl, rfl, rfl, rfl, rfl⟩

/-! ## abort -/

/-- `ar.abort()` asks for exactly the tasks of `ar`, and only while the result is not ready; afterwards it is a RuntimeError. -/
theorem abort_exact (A : AR) (s : St V) (ids : List String) :
    (s.main = .ready → abort A s ids = .error .runtimeError) ∧
    (s.main ≠ .ready → abort A s ids = .ok (ids, A.targets) ∧ ∀ out, abortIds out (some (ids.map .id)) = .ok ids) := by
  refine ⟨fun h => by simp [abort, h], fun h => ⟨by simp [abort, h], fun out => ?_⟩⟩
  have hb : Job.bad ∉ ids.map Job.id := by simp
  unfold abortIds
  simp only [hb, if_false, Except.ok.injEq]
  induction ids with
  | nil => rfl
  | cons a ids ih => simp only [List.map_cons, List.flatMap_cons]; rw [ih (by simp)]; rfl

/-- `client.abort(jobs)`: the request names a message exactly if one of the jobs is that message or an AsyncResult containing it; nothing is named if one of
the jobs is neither (TypeError). Without jobs: exactly the outstanding ones. -/
theorem abort_jobs (out : List String) :
    abortIds out none = .ok out ∧
    (∀ jobs, Job.bad ∈ jobs → abortIds out (some jobs) = .error .typeError) ∧
    (∀ jobs, Job.bad ∉ jobs → ∃ l, abortIds out (some jobs) = .ok l ∧ ∀ m, m ∈ l ↔ Job.id m ∈ jobs ∨ ∃ ids, Job.ar ids ∈ jobs ∧ m ∈ ids) := by
  refine ⟨rfl, fun jobs h => by simp [abortIds, h], fun jobs h => ⟨_, by simp only [abortIds, if_neg h]; rfl, fun m => ?_⟩⟩
  rw [List.mem_flatMap]
  constructor
  · rintro ⟨j, hj, hm⟩
    cases j with
    | id a => simp only [List.mem_singleton] at hm; subst hm; exact .inl hj
    | ar ids => exact .inr ⟨ids, hj, hm⟩
    | bad => simp at hm
  · rintro (h | ⟨ids, h, hm⟩)
    · exact ⟨_, h, by simp⟩
    · exact ⟨_, h, hm⟩

/-! ## C91: timeouts -/

/-- What waiting for something that happens at `at?` with a time limit should do: return when it happens (at once if it has), raise TimeoutError when the limit is
over and it has not happened, wait for ever if there is no limit and it never happens. A limit of none or below zero is no limit. -/
def Waits (at? : Option Nat) (now : Nat) (timeout : Option Int) (w : Waited) : Prop :=
  let limit : Option Nat := match timeout with
    | none => none
    | some d => if d < 0 then none else some (now + d.toNat)
  match at?, limit with
  | some t, none => w = .returned (max now t)
  | some t, some l => if t ≤ l then w = .returned (max now t) else ∃ t' ≤ l, w = .timedOut t'
  | none, none => w = .forever
  | none, some l => ∃ t' ≤ l, w = .timedOut t'

/-- `wait_for_send(timeout)`: whatever the moments at which the messages are handed over (`sent?`) and have left (`done?`, later), it returns once they have left, and
within the limit otherwise. -/
theorem wait_for_send (sent? done? : Option Nat) (h : ∀ d, done? = some d → ∃ t, sent? = some t ∧ t ≤ d) (now : Nat) (timeout : Option Int) :
    Waits done? now timeout (waitForSend sent? done? now timeout) := by
  cases sent? with
  | none =>
    have hd : done? = none := by
      cases hd : done? with
      | none => rfl
      | some d => obtain ⟨t, ht, _⟩ := h d hd; cases ht
    subst hd
    cases timeout with
    | none => simp [waitForSend, Waits, eventWait]
    | some d =>
      by_cases h0 : d < 0
      · simp [waitForSend, Waits, eventWait, h0]
      · by_cases h1 : d = 0
        · simp [waitForSend, Waits, h1]
        · simp [waitForSend, Waits, eventWait, h0, h1]
  | some t =>
    by_cases ht : t ≤ now
    · cases timeout with
      | none => cases done? <;> simp [waitForSend, Waits, trackerWait, eventWait, ht]
      | some d =>
        by_cases h0 : d < 0
        · cases done? <;> simp [waitForSend, Waits, trackerWait, eventWait, ht, h0]
        · cases done? with
          | none => simp [waitForSend, Waits, trackerWait, eventWait, ht, h0]
          | some x =>
            by_cases hx : x ≤ now + d.toNat
            · simp [waitForSend, Waits, trackerWait, eventWait, ht, h0, hx]
            · simp [waitForSend, Waits, trackerWait, eventWait, ht, h0, hx]
    · have hm : max now t = t := by omega
      have inf : Waits done? now none (trackerWait done? t (-1)) := by
        cases hd : done? with
        | none => simp [Waits, trackerWait, eventWait]
        | some x =>
          obtain ⟨t', ht', hle⟩ := h x hd
          cases ht'
          simp only [Waits, trackerWait, eventWait]
          simp
          omega
      cases timeout with
      | none =>
        have e : waitForSend (some t) done? now none = trackerWait done? t (-1) := by simp [waitForSend, ht, eventWait, hm]
        rw [e]; exact inf
      | some d =>
        by_cases h0 : d < 0
        · have e : waitForSend (some t) done? now (some d) = trackerWait done? t (-1) := by simp [waitForSend, ht, eventWait, hm, h0]
          rw [e]
          have := inf
          cases hd : done? with
          | none => rw [hd] at this; simpa [Waits, h0] using this
          | some x => rw [hd] at this; simpa [Waits, h0] using this
        · by_cases h1 : d = 0
          · subst h1
            cases hd : done? with
            | none => simp [waitForSend, Waits, ht]
            | some x =>
              obtain ⟨t', ht', hle⟩ := h x hd
              cases ht'
              have : ¬ x ≤ now := by omega
              simp [waitForSend, Waits, ht, this]
          · by_cases h2 : t ≤ now + d.toNat
            · have h3 : ¬ (max 0 (d - ((t : Int) - now)) < 0) := by omega
              have h4 : t + (max 0 (d - ((t : Int) - now))).toNat = now + d.toNat := by omega
              cases hd : done? with
              | none => 
                simp only [waitForSend, ht, decide_false, Bool.false_eq_true, if_false, h0, h1, eventWait, h2, if_true, hm, trackerWait, h3, Waits, h4]
                exact ⟨_, Nat.le_refl _, rfl⟩
              | some x =>
                obtain ⟨t', ht', hle⟩ := h x hd
                cases ht'
                have hmx : max t x = max now x := by omega
                simp only [waitForSend, ht, decide_false, Bool.false_eq_true, if_false, h0, h1, eventWait, h2, if_true, hm, trackerWait, h3, Waits, h4]
                by_cases hx : x ≤ now + d.toNat
                · simp [hx, hmx]
                · simp [hx]
            · cases hd : done? with
              | none => simp [waitForSend, Waits, ht, h0, h1, eventWait, h2]
              | some x =>
                obtain ⟨t', ht', hle⟩ := h x hd
                cases ht'
                have : ¬ x ≤ now + d.toNat := by omega
                simp [waitForSend, Waits, ht, h0, h1, eventWait, h2, this]

/-- `wait_for_output(timeout)`: the same for the output, with False instead of TimeoutError. -/
theorem wait_for_output (ready? : Option Nat) (now : Nat) (timeout : Option Int) :
    Waits ready? now timeout (waitForOutput ready? now timeout) := by
  cases ready? with
  | none =>
    cases timeout with
    | none => simp [waitForOutput, Waits, eventWait]
    | some d => by_cases h0 : d < 0 <;> simp [waitForOutput, Waits, eventWait, h0]
  | some t =>
    by_cases ht : t ≤ now
    · have hm : max now t = now := by omega
      cases timeout with
      | none => simp [waitForOutput, Waits, ht, hm]
      | some d =>
        by_cases h0 : d < 0
        · simp [waitForOutput, Waits, ht, hm, h0]
        · have : t ≤ now + d.toNat := by omega
          simp [waitForOutput, Waits, ht, hm, h0, this]
    · cases timeout with
      | none => simp [waitForOutput, Waits, ht, eventWait]
      | some d =>
        by_cases h0 : d < 0
        · simp [waitForOutput, Waits, ht, eventWait, h0]
        · by_cases h2 : t ≤ now + d.toNat <;> simp [waitForOutput, Waits, ht, eventWait, h0, h2]

/-! ## The hypotheses are met -/

/-- two tasks, results 7 and 8 -/
def exA (re : Bool) : AR := ⟨.list, 2, re, none⟩
def exC (b : Res (Chunk Nat)) : Nat → Option (Res (Chunk Nat)) := fun i => if i = 0 then some (.val (.scalar 7)) else some b
def exS (b : Res (Chunk Nat)) : St Nat := { St.init (exC b) with main := .ready }

theorem ex_reach (re : Bool) (b : Res (Chunk Nat)) : Reach (exA re) (exS b) := by
  have hres : results (exA re) (St.init (exC b)) = some [.val (.scalar 7), b] := rfl
  exact ⟨exC b, .tail (.tail (.refl _) (.mainDone _ _ rfl hres (by rfl))) (.mainReady _ rfl)⟩

/-- a ready result, no failure; its last entry, a slice, metadata, an index out of range -/
example : Reach (exA false) (exS (.val (.scalar 8))) ∧ Good (exA false) [.val (.scalar 7), (.val (.scalar 8) : Res (Chunk Nat))] ∧ Position 2 (-1) 1 ∧
    getitem (exA false) (exS (.val (.scalar 8))) (fun i k => if k = "engine_id" then some (i + 3) else none) (.int (-1)) = .ok (.entry (.val (.scalar 8))) ∧
    getitem (exA false) (exS (.val (.scalar 8))) (fun i k => if k = "engine_id" then some (i + 3) else none) (.slice none none (some (-1))) = .ok (.entries [.val (.scalar 8), .val (.scalar 7)]) ∧
    getitem (exA false) (exS (.val (.scalar 8))) (fun i k => if k = "engine_id" then some (i + 3) else none) (.str "engine_id") = .ok (.fields [3, 4]) ∧
    getattr (exA false) (exS (.val (.scalar 8))) (fun i k => if k = "engine_id" then some (i + 3) else none) "colour" = .error .attributeError ∧
    getitem (exA false) (exS (.val (.scalar 8))) (fun i k => if k = "engine_id" then some (i + 3) else none) (.int 2) = .error .indexError :=
  ⟨ex_reach _ _, .inr (by simp [RemoteRes]), ⟨by decide, .inr (by decide)⟩, rfl, rfl, rfl, rfl, rfl⟩

/-- one of two tasks failed: the result of the other cannot be read unless exceptions are wanted -/
example : RemoteRes (.exc (.remote ⟨some "E", none, none, none⟩) : Res (Chunk Nat)) ∧
    getitem (M := Nat) (exA false) (exS (.exc (.remote ⟨some "E", none, none, none⟩))) (fun _ _ => none) (.int 0) = .error (.stored (.composite [⟨some "E", none, none, none⟩])) ∧
    getitem (M := Nat) (exA true) (exS (.exc (.remote ⟨some "E", none, none, none⟩))) (fun _ _ => none) (.int 0) = .ok (.entry (.val (.scalar 7))) ∧
    getitem (M := Nat) (exA true) (exS (.exc (.remote ⟨some "E", none, none, none⟩))) (fun _ _ => none) (.int 1) = .ok (.entry (.exc (.remote ⟨some "E", none, none, none⟩))) :=
  ⟨trivial, rfl, rfl, rfl⟩

/-- an iteration that begins when only the first task has finished, and goes to the end -/
example : ∃ s0 s : St Nat, Reach (exA false) s0 ∧ s0.child 1 = none ∧ IterRun (exA false) s0 s [.val (.scalar 7), .val (.scalar 8)] .stopped := by
  let c : Nat → Option (Res (Chunk Nat)) := fun i => if i = 0 then some (.val (.scalar 7)) else none
  let s0 : St Nat := St.init c
  let s : St Nat := { s0 with child := fun j => if j = 1 then some (.val (.scalar 8)) else s0.child j }
  have st : Steps (exA false) s0 s := .tail (.refl _) (.finish s0 1 (.val (.scalar 8)) (by decide) rfl)
  have i0 : Iterating (exA false) s0 s0 0 [] := .start _ (.refl _) (by intro h; cases h)
  have i1 : Iterating (exA false) s0 s0 1 ([] ++ [.val (.scalar 7)]) := .next _ _ 0 [] _ _ i0 (.refl _) (by decide) rfl (collect_ok (A := exA false) (.inr (by simp [RemoteRes])))
  have i2 : Iterating (exA false) s0 s 2 ([.val (.scalar 7)] ++ [.val (.scalar 8)]) := .next _ _ 1 _ _ _ i1 st (by decide) rfl (collect_ok (A := exA false) (.inr (by simp [RemoteRes])))
  exact ⟨s0, s, ⟨c, .refl _⟩, rfl, .all _ _ _ rfl i2 rfl⟩

/-- handed over at 3, sent at 9; asked at 1 with limits 4 and 10 -/
example : waitForSend (some 3) (some 9) 1 (some 4) = .timedOut 5 ∧ waitForSend (some 3) (some 9) 1 (some 10) = .returned 9 ∧
    waitForSend (some 3) (some 9) 1 (some (-1)) = .returned 9 ∧ waitForSend (some 3) none 1 none = .forever := by decide

end IPP.Async.Access
