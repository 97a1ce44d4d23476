import Verif.Async.Lemmas
import Verif.Map.Props

/-!
# Properties of asynchronous results (C08–C11)
-/
namespace IPP.Async
open IPP.Map (Dist PyErr)

/-! ### C08 — iteration agrees with `get()` -/

/-- The items a user expects from chunks `ls`: all items of all chunks, in order. -/
def expected (ls : List (List V)) : List (Item V) := ls.flatten.map (fun v => .val (.scalar v))

/-- `get()` of a successful map result with block distribution returns the items of all chunks in order. -/
theorem get_block (re : Bool) (ls : List (List V)) (hne : ls ≠ []) :
    resolveMap .b re (ls.map lres) = some (.ok (expected ls)) := by
  unfold resolveMap
  rw [collect_lists]
  simp only [reconstruct, any_lists, Bool.and_false, joinRes]
  rw [values_lists]
  cases ls with
  | nil => exact absurd rfl hne
  | cons l ls =>
    simp only [List.map_cons, joinChunks, chain, Bool.false_eq_true, if_false]
    rw [← List.map_cons (f := Chunk.list), iter_lists]
    simp only [flatten_map_scalar, Except.map, expected, List.map_map]
    rfl

/-- **C08 (ordered, block).** Iterating an ordered map result yields exactly what `get()` returns, in that order, whether
or not the tasks had finished when the iteration started. -/
theorem ordered_iter_eq_get_partial (re ready : Bool) (ls : List (List V)) (hne : ls ≠ []) :
    orderedIter .b re ready (ls.map lres) = ⟨expected ls, none⟩ ∧
    resolveMap .b re (ls.map lres) = some (.ok (expected ls)) := by
  refine ⟨?_, get_block re ls hne⟩
  cases ready with
  | true => simp [orderedIter, iterReady, get_block re ls hne]
  | false => simp [orderedIter, yieldAll_lists, expected]

example : orderedIter .b false false ([[1, 2], [3]].map lres)
    = ⟨[.val (.scalar 1), .val (.scalar 2), .val (.scalar 3)], none⟩ := by rfl

/-- **C08 is false for `dist='r'`.** For the round-robin pieces of `[1,2,3]` over two engines, iteration yields
`1,3,2` if a task was still running when it started and `1,2,3` otherwise (= `get()`). -/
theorem ordered_iter_rr_violated :
    let res := [[1, 3], [2]].map (lres (V := Nat))
    (orderedIter .r false true res).yielded = [1, 2, 3].map (fun v => .val (.scalar v)) ∧
    (orderedIter .r false false res).yielded = [1, 3, 2].map (fun v => .val (.scalar v)) := by
  exact ⟨rfl, rfl⟩

/-- **C08 is false for tuples** (e.g. `gather` of a scattered tuple): iteration started early yields whole tuples. -/
theorem ordered_iter_tuple_violated :
    let res : List (Res (Chunk Nat)) := [.val (.tuple [1, 2]), .val (.tuple [3])]
    (orderedIter .b false true res).yielded = [1, 2, 3].map (fun v => .val (.scalar v)) ∧
    (orderedIter .b false false res).yielded = [.val (.tuple [1, 2]), .val (.tuple [3])] := by
  exact ⟨rfl, rfl⟩

/-- `get()` of a successful round-robin result whose first chunk is a longest one is a permutation of all items. -/
theorem get_rr_perm (re : Bool) (l : List V) (ls : List (List V)) (h : ∀ x ∈ ls, x.length ≤ l.length) :
    ∃ out, resolveMap .r re ((l :: ls).map lres) = some (.ok out) ∧ out.Perm (expected (l :: ls)) := by
  have hres : resolveMap .r re ((l :: ls).map lres) = some (.ok
      (((List.range l.length).flatMap (IPP.Map.rrRow (l :: ls))).map (fun v => Res.val (Chunk.scalar v)))) := by
    unfold resolveMap
    rw [collect_lists]
    simp only [reconstruct, any_lists, Bool.and_false, joinRes]
    rw [values_lists]
    simp only [List.map_cons, joinChunks, rrChain, Bool.false_eq_true, if_false]
    rw [← List.map_cons (f := Chunk.list), iter_lists]
    have : IPP.Map.rrRow ((l :: ls).map (fun l => l.map (Chunk.scalar)))
        = fun i => (IPP.Map.rrRow (l :: ls) i).map Chunk.scalar := by
      funext i; exact rrRow_map _ _ _
    simp only [this, Except.map, List.map_flatMap, List.map_map]
    rfl
  refine ⟨_, hres, ?_⟩
  unfold expected
  apply List.Perm.map
  apply rows_perm
  intro x hx
  rcases List.mem_cons.1 hx with rfl | hx
  · exact Nat.le_refl _
  · exact h x hx

/-- **C08 (unordered).** Iterating an unordered result yields every chunk exactly once: the chunks in the order `order` in which
they complete (any permutation of the tasks), or, if all were done, `get()`; in either case a permutation of the items. -/
theorem unordered_iter_perm (re ready : Bool) (ls order : List (List V)) (hne : ls ≠ []) (hp : order.Perm ls) :
    (unorderedIter .b re ready (ls.map lres) (order.map lres)).raised = none ∧
    (unorderedIter .b re ready (ls.map lres) (order.map lres)).yielded.Perm (expected ls) ∧
    (ready = false →
      (unorderedIter .b re ready (ls.map lres) (order.map lres)).yielded = expected order) := by
  cases ready with
  | true => simp [unorderedIter, iterReady, get_block re ls hne]
  | false =>
    simp only [unorderedIter, Bool.false_eq_true, if_false, yieldAll_lists, true_and]
    exact ⟨(hp.flatten).map _, fun _ => rfl⟩

/-- **C08 (unordered, 'r').** Same for round-robin chunks (the first chunk is always a longest one). -/
theorem unordered_iter_perm_rr (re ready : Bool) (l : List V) (ls order : List (List V))
    (h : ∀ x ∈ ls, x.length ≤ l.length) (hp : order.Perm (l :: ls)) :
    (unorderedIter .r re ready ((l :: ls).map lres) (order.map lres)).raised = none ∧
    (unorderedIter .r re ready ((l :: ls).map lres) (order.map lres)).yielded.Perm (expected (l :: ls)) := by
  cases ready with
  | true =>
    obtain ⟨out, h1, h2⟩ := get_rr_perm re l ls h
    simp only [unorderedIter, iterReady, h1, if_true]
    exact ⟨trivial, h2⟩
  | false =>
    simp only [unorderedIter, Bool.false_eq_true, if_false, yieldAll_lists, true_and]
    exact (hp.flatten).map _

example : (unorderedIter .b false false ([[1, 2], [3]].map lres) ([[3], [1, 2]].map lres)).yielded
    = [.val (.scalar 3), .val (.scalar 1), .val (.scalar 2)] := by rfl

/-- Expected items when failed tasks are returned in place. -/
def expectedExc (res : List (Res (List V))) : List (Item V) :=
  res.flatMap (fun r => match r with
    | .val l => l.map (fun v => .val (.scalar v))
    | .exc e => [.exc e])

/-- A task's outcome (a list of items, or an exception object) as a chunk. -/
def toChunk : Res (List V) → Res (Chunk V)
  | .val l => .val (.list l)
  | .exc e => .exc e

/-- **C08 (`return_exceptions=True`).** With failed tasks among the results, iteration yields in task order the items of the
successful chunks and the exception objects of the failed ones — whether or not all were done at the start (and this is
what `get()` returns), for both distributions as soon as some task failed. -/
theorem ordered_iter_exceptions (d : Dist) (ready : Bool) (res : List (Res (List V)))
    (hex : ∃ e, Res.exc e ∈ res) :
    orderedIter d true ready (res.map toChunk) = ⟨expectedExc res, none⟩ ∧
    resolveMap d true (res.map toChunk) = some (.ok (expectedExc res)) := by
  have hy : ∀ (res : List (Res (List V))), yieldAll true (res.map toChunk) = ⟨expectedExc res, none⟩ := by
    intro res
    induction res with
    | nil => rfl
    | cons x xs ih =>
      rw [List.map_cons]
      unfold yieldAll
      rw [ih]
      cases x <;> rfl
  have hf : ∀ (res : List (Res (List V))), flattenExc (res.map toChunk) = .ok (expectedExc res) := by
    intro res
    induction res with
    | nil => rfl
    | cons x xs ih =>
      rw [List.map_cons]
      cases x with
      | val l =>
        simp only [toChunk, flattenExc, Chunk.iter?, ih, Except.map, List.map_map]
        rfl
      | exc e =>
        simp only [toChunk, flattenExc, ih, Except.map]
        rfl
  have hany : (res.map toChunk).any isExc = true := by
    obtain ⟨e, he⟩ := hex
    rw [List.any_eq_true]
    exact ⟨.exc e, List.mem_map.2 ⟨_, he, rfl⟩, rfl⟩
  have hg : resolveMap d true (res.map toChunk) = some (.ok (expectedExc res)) := by
    simp only [resolveMap, collectFor, if_true, reconstruct, hany, Bool.and_self, hf res]
  refine ⟨?_, hg⟩
  cases ready with
  | true => simp [orderedIter, iterReady, hg]
  | false => simp [orderedIter, hy]

example : orderedIter (V := Nat) .b true false [lres [1], .exc (.other "X"), lres [2]]
    = ⟨[.val (.scalar 1), .exc (.other "X"), .val (.scalar 2)], none⟩ := by rfl

/-! ### C09 — combined futures -/

/-- **C08 (5)** A remote error in a task of an ordered map result (`return_exceptions=False`): an iteration started before the result is complete yields exactly the
items of the tasks before the failing one, whatever the later tasks return, and then raises an error that lists this failure; an iteration started afterwards yields
nothing, and raises what `get()` raises. (Full claim also for aborted tasks, which are not raised but yielded: `collect_aborted_violated`.) -/
theorem ordered_iter_error_partial (d : Dist) (pre : List (List V)) (t : ETuple) (ht : t.en ≠ some "CompositeError") (rest : List (Res (Chunk V))) :
    orderedIter d false false (pre.map lres ++ .exc (.remote t) :: rest) = ⟨expected pre, some (.composite [t])⟩ ∧
    ∀ e, resolveMap d false (pre.map lres ++ .exc (.remote t) :: rest) = some (.error e) →
      orderedIter d false true (pre.map lres ++ .exc (.remote t) :: rest) = ⟨[], some e⟩ := by
  constructor
  · simp only [orderedIter, Bool.false_eq_true, if_false]
    induction pre with
    | nil => simp [yieldAll, yieldChild, collectFor, collectExceptions, collectLoop, asRemote, ht, expected]
    | cons l ls ih =>
      have h0 := yieldAll_lists false [l]
      have h1 : yieldChild false (lres l) = ⟨l.map (fun v => .val (.scalar v)), none⟩ := by
        simp only [List.map_cons, List.map_nil, yieldAll] at h0
        cases h : (yieldChild false (lres l)) with
        | mk y r =>
          rw [h] at h0
          cases r with
          | none => simpa using h0
          | some e => simp at h0
      simp only [List.map_cons, List.cons_append, yieldAll, h1, ih, expected, List.flatten_cons, List.map_append]
  · intro e he
    simp [orderedIter, iterReady, he]

example : orderedIter (V := Nat) .b false false [lres [1], lres [2, 3], .exc (.remote ⟨some "ValueError", some "x", none, some 0⟩), lres [4]]
    = ⟨[.val (.scalar 1), .val (.scalar 2), .val (.scalar 3)], some (.composite [⟨some "ValueError", some "x", none, some 0⟩])⟩ := by decide


/-- The outcome a child finally has: an already complete child keeps its outcome, otherwise the first completion counts. -/
def childOutcome (done0 : Nat → Option (Except Exc V)) (evs : List (Nat × Except Exc V)) (c : Nat) :
    Option (Except Exc V) :=
  match done0 c with
  | some r => some r
  | none => (evs.find? (fun e => e.1 = c)).map Prod.snd

/-- The combined future after a schedule of completions. -/
def afterSchedule (children : List Nat) (done0 : Nat → Option (Except Exc V)) (evs : List (Nat × Except Exc V)) : MF V :=
  evs.foldl (fun m e => m.complete e.1 e.2) (multiFuture children done0)

theorem afterSchedule_inv (children : List Nat) (done0 : Nat → Option (Except Exc V))
    (evs : List (Nat × Except Exc V)) :
    MFInv (afterSchedule children done0 evs) [] ∧ (afterSchedule children done0 evs).children = children ∧
    (afterSchedule children done0 evs).done = childOutcome done0 evs := by
  obtain ⟨h1, h2, h3⟩ := multiFuture_inv children done0
  have key : ∀ (evs : List (Nat × Except Exc V)) (m : MF V), MFInv m [] →
      MFInv (evs.foldl (fun m e => m.complete e.1 e.2) m) [] ∧
      (evs.foldl (fun m e => m.complete e.1 e.2) m).children = m.children ∧
      (evs.foldl (fun m e => m.complete e.1 e.2) m).done = childOutcome m.done evs := by
    intro evs
    induction evs with
    | nil =>
      intro m h
      refine ⟨h, rfl, ?_⟩
      funext c
      simp only [List.foldl_nil, childOutcome, List.find?_nil, Option.map_none]
      cases m.done c <;> rfl
    | cons e evs ih =>
      intro m h
      obtain ⟨a, b, c⟩ := complete_inv m e.1 e.2 h
      obtain ⟨a', b', c'⟩ := ih _ a
      refine ⟨a', by rw [List.foldl_cons, b', b], ?_⟩
      rw [List.foldl_cons, c']
      funext x
      simp only [childOutcome, c x, List.find?_cons]
      by_cases hx : x = e.1
      · subst hx
        cases hd : m.done e.1 with
        | none => simp
        | some r => simp
      · have hx' : ¬ e.1 = x := fun h => hx h.symm
        simp [hx, hx']
  obtain ⟨a, b, c⟩ := key evs _ h1
  exact ⟨a, by rw [afterSchedule, b, h2], by rw [afterSchedule, c, h3]⟩

/-- **C09 (done iff all done; resolved once).** After any schedule of child completions, the combined future is done exactly when
every child is, and it has been resolved once if done and never otherwise. -/
theorem multi_future_done_iff (children : List Nat) (done0 : Nat → Option (Except Exc V))
    (evs : List (Nat × Except Exc V)) :
    ((afterSchedule children done0 evs).result.isSome ↔
      ∀ c ∈ children, (childOutcome done0 evs c).isSome) ∧
    (afterSchedule children done0 evs).sets =
      (if (afterSchedule children done0 evs).result.isSome then 1 else 0) := by
  obtain ⟨h, hc, hd⟩ := afterSchedule_inv children done0 evs
  refine ⟨?_, h.sets⟩
  have hu := h.unf
  simp only [hc, hd, List.not_mem_nil, or_false] at hu
  constructor
  · intro hs c hcm
    cases ho : childOutcome done0 evs c with
    | some _ => rfl
    | none =>
      have hm := (hu c).2 ⟨hcm, ho⟩
      have := h.res_none (by intro he; rw [he] at hm; simp at hm)
      rw [this] at hs
      simp at hs
  · intro hall
    have he : (afterSchedule children done0 evs).unfinished = [] := by
      apply List.eq_nil_iff_forall_not_mem.2
      intro x hx
      have := (hu x).1 hx
      have h2 := hall x this.1
      rw [this.2] at h2
      simp at h2
    rw [h.res_done he]
    rfl

/-- **C09 (result).** If every child succeeded the combined result is the list of their results in submission order. -/
theorem multi_future_result (children : List Nat) (done0 : Nat → Option (Except Exc V))
    (evs : List (Nat × Except Exc V)) (vs : List V)
    (hv : children.map (childOutcome done0 evs) = vs.map (fun v => some (.ok v))) :
    (afterSchedule children done0 evs).result = some (.ok vs) := by
  obtain ⟨h, hc, hd⟩ := afterSchedule_inv children done0 evs
  have hall : ∀ c ∈ children, (childOutcome done0 evs c).isSome := by
    intro c hcm
    have : childOutcome done0 evs c ∈ vs.map (fun v => some (Except.ok v)) := by
      rw [← hv]; exact List.mem_map_of_mem hcm
    obtain ⟨v, _, h'⟩ := List.mem_map.1 this
    rw [← h']; rfl
  have he : (afterSchedule children done0 evs).unfinished = [] := by
    apply List.eq_nil_iff_forall_not_mem.2
    intro x hx
    have h1 := (h.unf x).1 hx
    simp only [hc, hd, List.not_mem_nil, or_false] at h1
    have h2 := hall x h1.1
    rw [h1.2] at h2
    simp at h2
  rw [h.res_done he, hc, hd]
  unfold combine
  rw [gather_ok _ _ _ _ _ hv]
  simp

/-- **C09 (failure).** Once all children are done, if some failed, the combined future fails with the error of the failed
child that was submitted first — regardless of which failed first in time. -/
theorem multi_future_failure (children : List Nat) (done0 : Nat → Option (Except Exc V))
    (evs : List (Nat × Except Exc V)) (pre post : List Nat) (c : Nat) (vs : List V) (e : Exc)
    (hch : children = pre ++ c :: post)
    (hpre : pre.map (childOutcome done0 evs) = vs.map (fun v => some (.ok v)))
    (hce : childOutcome done0 evs c = some (.error e))
    (hall : ∀ x ∈ children, (childOutcome done0 evs x).isSome) :
    (afterSchedule children done0 evs).result = some (.error e) := by
  obtain ⟨h, hc, hd⟩ := afterSchedule_inv children done0 evs
  have he : (afterSchedule children done0 evs).unfinished = [] := by
    apply List.eq_nil_iff_forall_not_mem.2
    intro x hx
    have h1 := (h.unf x).1 hx
    simp only [hc, hd, List.not_mem_nil, or_false] at h1
    have h2 := hall x h1.1
    rw [h1.2] at h2
    simp at h2
  rw [h.res_done he, hc, hd]
  have happ : ∀ (a b : List Nat) (acc : List V × Option Exc),
      gatherResults (childOutcome done0 evs) (a ++ b) acc
        = gatherResults (childOutcome done0 evs) b (gatherResults (childOutcome done0 evs) a acc) := by
    intro a
    induction a with
    | nil => intro b acc; rfl
    | cons x a ih =>
      rintro b ⟨rl, e⟩
      simp only [List.cons_append, gatherResults]
      cases childOutcome done0 evs x with
      | none => exact ih _ _
      | some o => cases o <;> exact ih _ _
  have : (gatherResults (childOutcome done0 evs) children ([], none)).2 = some e := by
    rw [hch, happ, gather_ok _ _ _ _ _ hpre]
    simp only [gatherResults, hce]
    exact gather_err _ _ _ _
  unfold combine
  rw [this]

example : (afterSchedule (V := Nat) [0, 1, 0] (fun _ => none) [(1, .ok 5), (0, .ok 7)]).result
    = some (.ok [7, 5, 7]) := by rfl
example : (afterSchedule (V := Nat) [0, 1] (fun _ => none) [(1, .ok 5)]).result = none := by rfl

/-! ### C10 — collect_exceptions -/

/-- The remote errors of a result list, in order. -/
def remoteErrors (rs : List (Res V)) : List ETuple :=
  rs.filterMap (fun r => match r with
    | .exc (.remote t) => some t
    | _ => none)

/-- No nested composite: neither a local `CompositeError` object nor a remote error that *was* a CompositeError. -/
def NoComposite (rs : List (Res V)) : Prop :=
  ∀ r ∈ rs, (∀ el, r ≠ .exc (.composite el)) ∧ (∀ t, r = .exc (.remote t) → t.en ≠ some "CompositeError")

/-- **C10 (no nested composites).** `collect_exceptions` raises iff there is a remote error; the composite then lists every remote
error, in order, and nothing else; with no remote error the results come back unchanged.
Missing from the full claim: nested composites are *not* flattened by the code (see `…_violated` below). -/
theorem collect_exceptions_partial (rs : List (Res V)) (h : NoComposite rs) :
    collectExceptions rs =
      if remoteErrors rs = [] then .ok rs else .error (.composite (remoteErrors rs)) := by
  have key : ∀ (rs : List (Res V)) el, NoComposite rs → collectLoop rs el = .ok (el ++ remoteErrors rs) := by
    intro rs
    induction rs with
    | nil => intro el _; simp [collectLoop, remoteErrors]
    | cons r rs ih =>
      intro el h
      have hr := h r (by simp)
      have ih' := fun el => ih el (fun r hr => h r (by simp [hr]))
      cases r with
      | val v => simp only [collectLoop, asRemote, ih']; simp [remoteErrors]
      | exc e =>
        cases e with
        | remote t =>
          have := hr.2 t rfl
          simp only [collectLoop, asRemote, this, if_false, ih']
          simp [remoteErrors]
        | composite el' => exact absurd rfl (hr.1 el')
        | other n => simp only [collectLoop, asRemote, ih']; simp [remoteErrors]
        | attributeError => simp only [collectLoop, asRemote, ih']; simp [remoteErrors]
        | typeError => simp only [collectLoop, asRemote, ih']; simp [remoteErrors]
        | timeout => simp only [collectLoop, asRemote, ih']; simp [remoteErrors]
  unfold collectExceptions
  rw [key rs [] h]
  simp

example : NoComposite (V := Nat) [.val 1, .exc (.remote ⟨some "ZeroDivisionError", some "", some "", some 0⟩)] := by
  intro r hr
  simp at hr
  rcases hr with rfl | rfl
  · simp
  · refine ⟨by simp, ?_⟩
    intro t ht
    cases ht
    decide

/-- **C10 violated (1).** The contents of a nested `CompositeError` object are always lost: whatever errors `el` it carried, the
new composite contains one tuple of `None`s. -/
theorem collect_composite_violated (el : List ETuple) :
    collectExceptions (V := Nat) [.exc (.composite el)] = .error (.composite [⟨none, none, none, none⟩]) := by
  rfl

/-- **C10 violated (2).** A remote task that itself failed with a CompositeError makes `collect_exceptions` raise
AttributeError instead of reporting it. -/
theorem collect_remote_composite_violated (ev etb : Option String) (ei : Option Nat) (rest : List (Res Nat)) :
    collectExceptions (.exc (.remote ⟨some "CompositeError", ev, etb, ei⟩) :: rest) = .error .attributeError := by
  rfl

/-- **C10 violated (3).** Failures that are not `RemoteError`s (e.g. an aborted task) are never reported: the call
"succeeds" with the exception object in the list. -/
theorem collect_aborted_violated (rs : List (Res V)) (h : ∀ e, Res.exc e ∈ rs → ∃ n, e = .other n) :
    collectExceptions rs = .ok rs := by
  have hr : remoteErrors rs = [] := by
    unfold remoteErrors
    rw [List.filterMap_eq_nil_iff]
    intro r hr
    cases r with
    | val v => rfl
    | exc e => obtain ⟨n, rfl⟩ := h e hr; rfl
  rw [collect_exceptions_partial rs, hr]
  · simp
  · intro r hr
    refine ⟨?_, ?_⟩
    · rintro el rfl; obtain ⟨n, hn⟩ := h _ hr; cases hn
    · rintro t rfl; obtain ⟨n, hn⟩ := h _ hr; cases hn

/-- **C08/C10 violated.** If a task of a map was aborted, the map result is never resolved: `get()` blocks for ever. -/
theorem aborted_map_never_resolves (l : List Nat) (ls : List (List Nat)) :
    resolveMap .b false (lres l :: .exc (.other "TaskAborted") :: ls.map lres) = none := by
  have hc : collectExceptions (lres l :: .exc (.other "TaskAborted") :: ls.map lres)
      = .ok (lres l :: .exc (.other "TaskAborted") :: ls.map lres) := by
    apply collect_aborted_violated
    intro e he
    simp [lres] at he
    exact ⟨_, he⟩
  have hr : joinRes .b (lres l :: .exc (.other "TaskAborted") :: ls.map lres) = .error .typeError := by
    cases l <;> simp [joinRes, lres, isExc]
  simp only [resolveMap, collectFor, Bool.false_eq_true, if_false, hc, reconstruct, Bool.false_and, hr]

/-! ### C11 — progress and length -/

/-- **C11.** For a result with distinct message ids, `progress` is the number of items in the tasks that are no longer
outstanding; it is between 0 and `len(ar)`. -/
theorem progress_eq (chunk : Nat → Option Nat) (ids : List Nat) (hn : ids.Nodup) (outstanding : Nat → Bool) :
    progress chunk ids outstanding = (countChunks chunk (ids.filter (fun i => !outstanding i)) : Int) ∧
    0 ≤ progress chunk ids outstanding ∧ progress chunk ids outstanding ≤ countChunks chunk ids := by
  have key : ∀ ids : List Nat, countChunks chunk ids
      = countChunks chunk (ids.filter outstanding) + countChunks chunk (ids.filter (fun i => !outstanding i)) := by
    intro ids
    induction ids with
    | nil => rfl
    | cons i ids ih =>
      simp only [List.filter_cons]
      cases h : outstanding i <;> simp [countChunks] at * <;> omega
  unfold progress
  rw [dedup_of_nodup ids hn]
  have := key ids
  omega

/-- **C11 (monotone).** As tasks stop being outstanding, progress never decreases. -/
theorem progress_monotone (chunk : Nat → Option Nat) (ids : List Nat) (hn : ids.Nodup) (o o' : Nat → Bool)
    (h : ∀ i, o' i = true → o i = true) : progress chunk ids o ≤ progress chunk ids o' := by
  have key : ∀ ids : List Nat, countChunks chunk (ids.filter o') ≤ countChunks chunk (ids.filter o) := by
    intro ids
    induction ids with
    | nil => simp
    | cons i ids ih =>
      simp only [List.filter_cons]
      cases h' : o' i
      · cases h'' : o i <;> simp [countChunks] at * <;> omega
      · simp [h i h', countChunks] at *; omega
  unfold progress
  rw [dedup_of_nodup ids hn]
  have := key ids
  omega

/-- **C11 (complete).** Progress equals `len(ar)` iff every outstanding task is an empty one; so, when all tasks have at least
one item, iff nothing is outstanding. -/
theorem progress_complete_iff_partial (chunk : Nat → Option Nat) (ids : List Nat) (hn : ids.Nodup) (o : Nat → Bool) :
    (progress chunk ids o = countChunks chunk ids ↔ ∀ i ∈ ids, o i = true → chunk i = some 0) ∧
    ((∀ i ∈ ids, chunk i ≠ some 0) → (progress chunk ids o = countChunks chunk ids ↔ ∀ i ∈ ids, o i = false)) := by
  have key : ∀ ids : List Nat, countChunks chunk (ids.filter o) = 0 ↔ ∀ i ∈ ids, o i = true → chunk i = some 0 := by
    intro ids
    induction ids with
    | nil => simp [countChunks]
    | cons i ids ih =>
      simp only [List.filter_cons, List.mem_cons, forall_eq_or_imp]
      rw [← ih]
      cases h : o i
      · simp
      · simp only [if_true, countChunks, List.map_cons, List.sum_cons, Nat.add_eq_zero_iff, forall_const]
        apply and_congr_left'
        cases hc : chunk i <;> simp
  have h1 : progress chunk ids o = countChunks chunk ids ↔ ∀ i ∈ ids, o i = true → chunk i = some 0 := by
    rw [← key]
    unfold progress
    rw [dedup_of_nodup ids hn]
    omega
  refine ⟨h1, ?_⟩
  intro hz
  rw [h1]
  constructor
  · intro h i hi
    cases ho : o i with
    | false => rfl
    | true => exact absurd (h i hi ho) (hz i hi)
  · intro h i hi ho
    rw [h i hi] at ho
    cases ho

/-- **C11 violated.** Mapping over sequences of unequal length creates empty tasks; with such a task still outstanding,
progress already equals `len(ar)`. -/
theorem progress_empty_task_violated :
    IPP.Map.submit .b (.balanced (some 1)) true [[10, 20], [30]] = .ok (.tasks [[[10], [30]], [[20], []]]) ∧
    IPP.Map.chunkSize [[20], ([] : List Nat)] = 0 ∧
    progress (fun i => if i = 0 then some 1 else some 0) [0, 1] (fun i => i == 1)
      = countChunks (fun i => if i = 0 then some 1 else some 0) [0, 1] := by
  exact ⟨rfl, rfl, rfl⟩

/-- `get_dict` succeeds exactly when no engine ran two of the tasks, and then maps each engine to its own result. -/
theorem get_dict_spec (rs : List (Nat × V)) :
    (getDict rs [] = .ok rs ↔ (rs.map Prod.fst).Nodup) ∧
    (¬ (rs.map Prod.fst).Nodup → getDict rs [] = .error .valueError) := by
  have key : ∀ (rs acc : List (Nat × V)), (acc.map Prod.fst).Nodup →
      getDict rs acc = if ((acc ++ rs).map Prod.fst).Nodup then .ok (acc ++ rs) else .error .valueError := by
    intro rs
    induction rs with
    | nil => intro acc h; simp [getDict, h]
    | cons x rs ih =>
      intro acc h
      obtain ⟨e, r⟩ := x
      unfold getDict
      by_cases he : e ∈ acc.map Prod.fst
      · rw [if_pos he, if_neg]
        intro hn
        rw [List.map_append, List.nodup_append] at hn
        exact hn.2.2 e he e (by simp) rfl
      · rw [if_neg he, ih]
        · simp
        · rw [List.map_append, List.nodup_append]
          refine ⟨h, by simp, ?_⟩
          intro a ha b hb
          simp at hb
          rintro rfl
          exact he (hb ▸ ha)
  rw [key rs [] (by simp)]
  simp only [List.nil_append]
  constructor
  · split <;> simp [*]
  · intro h; rw [if_neg h]

example : getDict [(3, "a"), (5, "b")] [] = .ok [(3, "a"), (5, "b")] := by rfl

end IPP.Async
