import Verif.Client.Fetch
import Verif.Hub.ResultProps

/-!
# Fetching results from the hub (C70)
-/
namespace IPP.Client.Fetch
open IPP.Hub

/-! ## Specification -/

/-- The result that a record of the hub stands for: the value of its buffers (whatever follows them in a message), the reply of an execution, or a failure. -/
inductive Means (kindOf : Nat → RKind) (des : List Nat → Option (V × List Nat)) (rec : TRec) : CRes V → Prop where
  | value (r : Reply) (v : V) : rec.result = some (.reply r) → r.aborted = false → kindOf r.tag = .applyOk →
      (∀ rest, des (r.bufs ++ rest) = some (v, rest)) → Means kindOf des rec (.value v)
  | exec (r : Reply) : rec.result = some (.reply r) → r.aborted = false → kindOf r.tag = .executeOk → r.bufs = [] →
      Means kindOf des rec (.exec r.tag)
  | failed (r : Reply) : rec.result = some (.reply r) → r.aborted = false → kindOf r.tag = .failed → r.bufs = [] →
      Means kindOf des rec (.failure (.reply r))
  | died (u : Uuid) : rec.result = some (.died u) → Means kindOf des rec (.failure (.died u))

/-- The hub knows the task: it is pending, or it is done and its record is complete and readable. -/
def Known (kindOf : Nat → RKind) (des : List Nat → Option (V × List Nat)) (hub : Hub) (m : Mid) : Prop :=
  m ∈ hub.pending ∨ (m ∈ hub.done ∧ ∃ rec res, getKey hub.db m = some rec ∧ Means kindOf des rec res)

/-- `res` is what the hub has recorded for the finished task `m`. -/
def Recorded (kindOf : Nat → RKind) (des : List Nat → Option (V × List Nat)) (hub : Hub) (m : Mid) (res : CRes V) : Prop :=
  m ∉ hub.pending ∧ ∃ rec, getKey hub.db m = some rec ∧ Means kindOf des rec res

/-- The task failures that an exception reports; `none`: the exception is about something else. -/
def raisedTasks : FErr → Option (List Outcome)
  | .one o => some [o]
  | .many os => some os
  | _ => none

/-- A failed task's outcome. -/
def failOf : CRes V → Option Outcome
  | .failure o => some o
  | _ => none

/-! ## Lemmas -/

theorem scan_spec (has : Mid → Bool) : ∀ (n i : Nat) (theids loc : List Mid),
    ∃ extra, (scan has n i theids loc).2 = loc ++ extra ∧ ((scan has n i theids loc).1 ++ extra).Perm theids ∧
      ∀ m ∈ extra, has m = true := by
  intro n
  induction n with
  | zero => intro i theids loc; exact ⟨[], by simp [scan], by simp [scan], by simp⟩
  | succ n ih =>
    intro i theids loc
    unfold scan
    cases hm : theids[i]? with
    | none => exact ⟨[], by simp, by simp, by simp⟩
    | some m =>
      simp only
      by_cases hh : has m
      · simp only [hh, if_true]
        obtain ⟨extra, h1, h2, h3⟩ := ih (i + 1) (theids.erase m) (loc ++ [m])
        refine ⟨m :: extra, by rw [h1]; simp, ?_, ?_⟩
        · refine List.Perm.trans List.perm_middle ?_
          exact List.Perm.trans (h2.cons _) (List.perm_cons_erase (List.mem_of_getElem? hm)).symm
        · intro x hx
          rcases List.mem_cons.1 hx with rfl | hx
          · exact hh
          · exact h3 x hx
      · simp only [hh, Bool.false_eq_true, if_false]
        exact ih (i + 1) theids loc

/-- The loop does run to the end of the list: it stops because the iterator has passed it. -/
theorem scan_stops (has : Mid → Bool) : ∀ (n i : Nat) (theids loc : List Mid), theids.length ≤ i + n →
    ∀ k, scan has (n + k) i theids loc = scan has n i theids loc := by
  intro n
  induction n with
  | zero =>
    intro i theids loc h k
    cases k with
    | zero => rfl
    | succ k =>
      have : theids[i]? = none := by simp; omega
      simp [scan, this]
  | succ n ih =>
    intro i theids loc h k
    rw [Nat.add_right_comm]
    unfold scan
    cases hm : theids[i]? with
    | none => rfl
    | some m =>
      simp only
      rw [ih (i + 1) (theids.erase m) _ (by have := (List.length_erase_of_mem (List.mem_of_getElem? hm)); omega) k,
        ih (i + 1) theids loc (by omega) k]

theorem insertDup_eq (m : Mid) (l : List Mid) (h : m ∉ l) : insertDup m l = insertMid m l := by
  induction l with
  | nil => rfl
  | cons x l ih =>
    simp only [List.mem_cons, not_or] at h
    unfold insertDup insertMid
    by_cases hlt : m < x
    · simp [hlt, Nat.le_of_lt hlt]
    · have : ¬ m ≤ x := fun hle => hlt (Nat.lt_of_le_of_ne hle h.1)
      simp [hlt, this, h.1, ih h.2]

theorem pySorted_eq (l : List Mid) (h : l.Nodup) : pySorted l = sortIds l := by
  induction l with
  | nil => rfl
  | cons a l ih =>
    have hn := List.nodup_cons.1 h
    show insertDup a (pySorted l) = insertMid a (sortIds l)
    rw [ih hn.2]
    exact insertDup_eq a _ (fun hm => hn.1 ((mem_sortIds l a).1 hm))

theorem sortIds_nodup (l : List Mid) : (sortIds l).Nodup :=
  (sortIds_sorted l).imp (fun h => Nat.ne_of_lt h)

/-- The buffers of a record. -/
def recBufs (r : TRec) : List Nat := (r.result.map Outcome.bufs).getD []

theorem readOne_means {kindOf : Nat → RKind} {des : List Nat → Option (V × List Nat)} {rec : TRec} {res : CRes V}
    (h : Means kindOf des rec res) (rest : List Nat) : readOne kindOf des rec (recBufs rec ++ rest) = .ok (res, rest) := by
  cases h with
  | value r v h1 h2 h3 h4 => simp [readOne, recBufs, h1, h2, h3, Outcome.bufs, h4]
  | exec r h1 h2 h3 h4 => simp [readOne, recBufs, h1, h2, h3, Outcome.bufs, h4]
  | failed r h1 h2 h3 h4 => simp [readOne, recBufs, h1, h2, h3, Outcome.bufs, h4]
  | died u h1 => simp [readOne, recBufs, h1, Outcome.bufs]

theorem storeLoop_spec (kindOf : Nat → RKind) (des : List Nat → Option (V × List Nat)) (completed : List Mid)
    (content : List (Mid × TRec)) (recOf : Mid → TRec) (resOf : Mid → CRes V) : ∀ (ms over : List Mid) (c : Cl V) (fails : List Outcome),
    ms.Nodup →
    (∀ m ∈ ms, m ∈ completed → m ∉ over ∧ getKey content m = some (recOf m) ∧ Means kindOf des (recOf m) (resOf m)) →
    storeLoop kindOf des completed content ms over c ((ms.filter (· ∈ completed)).flatMap (fun m => recBufs (recOf m))) fails
      = ({ c with results := fun x => if x ∈ ms ∧ x ∈ completed then some (resOf x) else c.results x },
         .ok (fails ++ (ms.filter (· ∈ completed)).filterMap (fun m => failOf (resOf m)))) := by
  intro ms
  induction ms with
  | nil => intro over c fails _ _; simp [storeLoop]
  | cons m ms ih =>
    intro over c fails hn h
    have hn' := List.nodup_cons.1 hn
    unfold storeLoop
    by_cases hm : m ∈ completed
    · obtain ⟨h1, h2, h3⟩ := h m (by simp) hm
      simp only [hm, not_true, if_false, h1, h2]
      have hf : (m :: ms).filter (fun x => decide (x ∈ completed)) = m :: ms.filter (fun x => decide (x ∈ completed)) := by
        rw [List.filter_cons]; simp [hm]
      rw [hf, List.flatMap_cons, readOne_means h3]
      simp only []
      rw [ih (m :: over) (c.store m (resOf m)) _ hn'.2 (by
        intro x hx hxc
        obtain ⟨g1, g2, g3⟩ := h x (by simp [hx]) hxc
        refine ⟨?_, g2, g3⟩
        intro hmem
        rcases List.mem_cons.1 hmem with rfl | hmem
        · exact hn'.1 hx
        · exact g1 hmem)]
      refine Prod.ext ?_ ?_
      · simp only [Cl.store, Cl.mk.injEq, true_and]
        funext x
        by_cases hx : x = m
        · subst hx; simp [hm, hn'.1]
        · simp [hx]
      · simp only [List.filterMap_cons]
        cases hr : resOf m <;> simp [failOf]
    · simp only [hm, not_false_eq_true, if_true]
      have hf : (m :: ms).filter (fun x => decide (x ∈ completed)) = ms.filter (fun x => decide (x ∈ completed)) := by
        rw [List.filter_cons]; simp [hm]
      rw [hf, ih over c fails hn'.2 (fun x hx hxc => h x (by simp [hx]) hxc)]
      refine Prod.ext ?_ rfl
      simp only [Cl.mk.injEq, true_and]
      funext x
      by_cases hx : x = m
      · subst hx; simp [hm]
      · simp [hx]

/-- `result_status(ids)` of different ids that the hub knows: it does not fail but for failed tasks. -/
theorem resultStatus_core (kindOf : Nat → RKind) (des : List Nat → Option (V × List Nat)) (c : Cl V) (hub : Hub) (ids : List Mid)
    (hn : ids.Nodup) (hk : ∀ m ∈ ids, Known kindOf des hub m) :
    ∃ (asked loc : List Mid) (resOf : Mid → CRes V),
      (asked ++ loc).Perm ids ∧ (∀ m ∈ loc, (c.results m).isSome) ∧
      (∀ m ∈ asked, m ∉ hub.pending → Recorded kindOf des hub m (resOf m)) ∧
      (resultStatus kindOf des c hub ids false).1
        = { c with results := fun x => if x ∈ asked ∧ x ∉ hub.pending then some (resOf x) else c.results x } ∧
      (resultStatus kindOf des c hub ids false).2 =
        (match (sortIds asked).filterMap (fun m => if m ∉ hub.pending then failOf (resOf m) else none) with
          | [] => .ok ⟨(sortIds asked).filter (fun m => m ∈ hub.pending), (sortIds asked).filter (fun m => m ∉ hub.pending) ++ loc⟩
          | o :: os => if asked.length = 1 then .error (.one o) else .error (.many (o :: os))) := by
  obtain ⟨extra, hs1, hs2, hs3⟩ := scan_spec (fun m => (c.results m).isSome) ids.length 0 ids []
  generalize hsc : scan (fun m => (c.results m).isSome) ids.length 0 ids [] = sc at hs1 hs2
  obtain ⟨asked, loc⟩ := sc
  simp only [List.nil_append] at hs1 hs2
  subst hs1
  have hnd : (asked ++ loc).Nodup := hs2.nodup_iff.2 hn
  have hna : asked.Nodup := (List.nodup_append.1 hnd).1
  have hdis : ∀ m ∈ asked, m ∉ loc := fun m h1 h2 => (List.nodup_append.1 hnd).2.2 m h1 m h2 rfl
  have hka : ∀ m ∈ asked, Known kindOf des hub m := fun m hm => hk m (hs2.subset (by simp [hm]))
  have hch : ∀ m, ∃ rr : TRec × CRes V, m ∈ asked → m ∉ hub.pending →
      getKey hub.db m = some rr.1 ∧ Means kindOf des rr.1 rr.2 := by
    intro m
    by_cases hm : m ∈ asked ∧ m ∉ hub.pending
    · rcases hka m hm.1 with h | ⟨_, rec, res, h1, h2⟩
      · exact absurd h hm.2
      · exact ⟨(rec, res), fun _ _ => ⟨h1, h2⟩⟩
    · exact ⟨(⟨false, none, none, none, []⟩, .exec 0), fun h1 h2 => absurd ⟨h1, h2⟩ hm⟩
  obtain ⟨rr, hrr⟩ := Classical.axiomOfChoice hch
  refine ⟨asked, loc, fun m => (rr m).2, hs2, hs3, ?_, ?_⟩
  · intro m h1 h2
    exact ⟨h2, (rr m).1, (hrr m h1 h2).1, (hrr m h1 h2).2⟩
  unfold resultStatus
  rw [hsc]
  simp only []
  by_cases ha : asked = []
  · subst ha
    simp [pySorted, storeLoop, sortIds]
  · simp only [ha, if_false]
    obtain ⟨rep, hr1, hr2, hr3, hr4, hr5, hr6⟩ := get_results_exact_partial hub asked (by
      intro m hm
      rcases hka m hm with h | ⟨h, rec, res, h1, _⟩
      · exact Or.inl h
      · exact Or.inr ⟨h, rec, h1⟩)
    rw [hr1]
    simp only [Bool.false_eq_true, if_false]
    have hmemc : ∀ m ∈ asked, (m ∈ rep.completed ++ loc ↔ m ∉ hub.pending) := by
      intro m hm
      rw [List.mem_append, hr3]
      simp only [List.mem_filter, mem_sortIds, decide_eq_true_eq]
      constructor
      · rintro (h | h)
        · exact h.2
        · exact absurd h (hdis m hm)
      · intro h; exact Or.inl ⟨hm, h⟩
    have hcontent : ∀ m ∈ asked, m ∉ hub.pending → getKey rep.content m = some (rr m).1 := by
      intro m hm hp
      have hmem : m ∈ rep.content.map Prod.fst := by
        rw [hr4, hr3]; simp [mem_sortIds, hm, hp]
      cases hg : getKey rep.content m with
      | none =>
        exfalso
        unfold getKey at hg
        simp only [Option.map_eq_none_iff, List.find?_eq_none] at hg
        obtain ⟨x, hx, rfl⟩ := List.mem_map.1 hmem
        exact hg x hx (by simp)
      | some rec =>
        unfold getKey at hg
        simp only [Option.map_eq_some_iff] at hg
        obtain ⟨x, hx, rfl⟩ := hg
        have hxm : x.1 = m := by simpa using List.find?_some hx
        have := hr5 x (List.mem_of_find?_eq_some hx)
        rw [hxm, (hrr m hm hp).1] at this
        exact this.symm
    have hbufs : rep.buffers = ((pySorted asked).filter (· ∈ rep.completed ++ loc)).flatMap (fun m => recBufs (rr m).1) := by
      rw [hr6, pySorted_eq asked hna]
      have hf : (sortIds asked).filter (fun x => decide (x ∈ rep.completed ++ loc)) = rep.content.map Prod.fst := by
        rw [hr4, hr3]
        apply List.filter_congr
        intro x hx
        rw [decide_eq_decide]
        exact (hr3 ▸ hmemc x ((mem_sortIds asked x).1 hx))
      rw [hf]
      unfold allBufs
      rw [List.flatMap_map]
      have : ∀ l : List (Mid × TRec), (∀ x ∈ l, x.1 ∈ asked ∧ x.1 ∉ hub.pending ∧ getKey hub.db x.1 = some x.2) →
          l.flatMap (fun x => (x.2.result.map Outcome.bufs).getD []) = l.flatMap (fun x => recBufs (rr x.1).1) := by
        intro l
        induction l with
        | nil => intro _; rfl
        | cons x l ih =>
          intro hl
          rw [List.flatMap_cons, List.flatMap_cons, ih (fun y hy => hl y (by simp [hy]))]
          obtain ⟨h1, h2, h3⟩ := hl x (by simp)
          have := (hrr x.1 h1 h2).1
          rw [h3] at this
          simp only [Option.some.injEq] at this
          rw [← this]
          rfl
      apply this
      intro x hx
      have hmem : x.1 ∈ rep.content.map Prod.fst := List.mem_map.2 ⟨x, hx, rfl⟩
      rw [hr4, hr3] at hmem
      simp [mem_sortIds] at hmem
      exact ⟨hmem.1, hmem.2, hr5 x hx⟩
    have hsl := storeLoop_spec kindOf des (rep.completed ++ loc) rep.content (fun m => (rr m).1) (fun m => (rr m).2)
      (pySorted asked) loc c [] (by rw [pySorted_eq asked hna]; exact sortIds_nodup asked) (by
        intro m hm hmc
        rw [pySorted_eq asked hna, mem_sortIds] at hm
        have hp := (hmemc m hm).1 hmc
        exact ⟨hdis m hm, hcontent m hm hp, (hrr m hm hp).2⟩)
    rw [← hbufs] at hsl
    rw [hsl]
    have hfm : (pySorted asked).filter (fun x => decide (x ∈ rep.completed ++ loc))
        = (sortIds asked).filter (fun m => decide (m ∉ hub.pending)) := by
      rw [pySorted_eq asked hna]
      apply List.filter_congr
      intro x hx
      rw [decide_eq_decide]
      exact hmemc x ((mem_sortIds asked x).1 hx)
    have hfmap : ((sortIds asked).filter (fun m => decide (m ∉ hub.pending))).filterMap (fun m => failOf (rr m).2)
        = (sortIds asked).filterMap (fun m => if m ∉ hub.pending then failOf (rr m).2 else none) := by
      rw [List.filterMap_filter]
      congr 1
      funext m
      by_cases hp : m ∈ hub.pending <;> simp [hp]
    have hcl : (fun x => if x ∈ pySorted asked ∧ x ∈ rep.completed ++ loc then some (rr x).2 else c.results x)
        = (fun x => if x ∈ asked ∧ x ∉ hub.pending then some (rr x).2 else c.results x) := by
      funext x
      simp only [pySorted_eq asked hna, mem_sortIds]
      by_cases hx : x ∈ asked
      · simp only [hx, true_and, hmemc x hx]
      · simp [hx]
    simp only [List.nil_append, hfm, hfmap, hcl]
    rw [hr2, hr3]
    cases (sortIds asked).filterMap (fun m => if m ∉ hub.pending then failOf (rr m).2 else none) with
    | nil => simp
    | cons o os => by_cases hl : asked.length = 1 <;> simp [hl]

/-! ## result_status -/

/-- **C70 (`result_status`).** Asked for different ids that the hub knows, the client ends up with, for every task that the hub has recorded as finished, exactly
the recorded result (or the one it had), and with nothing new for other tasks.  Without failures the answer lists each id once, as
pending only if the hub says so; what is raised are failures of tasks asked for. -/
theorem result_status_exact_partial (kindOf : Nat → RKind) (des : List Nat → Option (V × List Nat)) (c : Cl V) (hub : Hub) (ids : List Mid)
    (hn : ids.Nodup) (hk : ∀ m ∈ ids, Known kindOf des hub m) :
    let out := resultStatus kindOf des c hub ids false
    (∀ m ∈ ids, m ∉ hub.pending → ∃ res, out.1.results m = some res ∧ (c.results m = some res ∨ Recorded kindOf des hub m res)) ∧
    (∀ m ∈ ids, m ∈ hub.pending → out.1.results m = c.results m) ∧
    (∀ m, m ∉ ids → out.1.results m = c.results m) ∧
    out.1.futures = c.futures ∧
    (∀ st, out.2 = .ok st → (st.pending ++ st.completed).Perm ids ∧ (∀ m ∈ st.pending, m ∈ hub.pending) ∧
      (∀ m ∈ st.completed, m ∉ hub.pending ∨ (c.results m).isSome)) ∧
    (∀ e, out.2 = .error e → ∃ os, raisedTasks e = some os ∧ os ≠ [] ∧ ∀ o ∈ os, ∃ m ∈ ids, Recorded kindOf des hub m (.failure o)) ∧
    ((∀ m ∈ ids, ∀ res, Recorded kindOf des hub m res → failOf res = none) → ∃ st, out.2 = .ok st) := by
  obtain ⟨asked, loc, resOf, hp, hl, hrec, hc, hr⟩ := resultStatus_core kindOf des c hub ids hn hk
  intro out
  have hc' : out.1 = _ := hc
  have hr' : out.2 = _ := hr
  have hmem : ∀ m, m ∈ ids ↔ m ∈ asked ∨ m ∈ loc := fun m => by rw [← hp.mem_iff]; simp
  have hfails : ∀ o, o ∈ (sortIds asked).filterMap (fun m => if m ∉ hub.pending then failOf (resOf m) else none) →
      ∃ m ∈ ids, Recorded kindOf des hub m (.failure o) := by
    intro o ho
    obtain ⟨m, hm, hmo⟩ := List.mem_filterMap.1 ho
    have hm' := (mem_sortIds asked m).1 hm
    by_cases hpm : m ∈ hub.pending
    · simp [hpm] at hmo
    · simp only [hpm, not_false_eq_true, if_true] at hmo
      refine ⟨m, (hmem m).2 (Or.inl hm'), ?_⟩
      have := hrec m hm' hpm
      cases hres : resOf m with
      | value v => rw [hres] at hmo; simp [failOf] at hmo
      | exec t => rw [hres] at hmo; simp [failOf] at hmo
      | failure o' => rw [hres] at hmo this; simp only [failOf, Option.some.injEq] at hmo; rw [← hmo]; exact this
  refine ⟨?_, ?_, ?_, ?_, ?_, ?_, ?_⟩
  · intro m hm hpm
    rw [hc']
    simp only
    by_cases ha : m ∈ asked
    · simp only [ha, hpm, not_false_eq_true, and_self, if_true]
      exact ⟨resOf m, rfl, Or.inr (hrec m ha hpm)⟩
    · rcases (hmem m).1 hm with h | h
      · exact absurd h ha
      · obtain ⟨r, hr⟩ := Option.isSome_iff_exists.1 (hl m h)
        simp only [ha, false_and, if_false]
        exact ⟨r, hr, Or.inl hr⟩
  · intro m _ hpm; rw [hc']; simp [hpm]
  · intro m hm
    rw [hc']
    have : m ∉ asked := fun h => hm ((hmem m).2 (Or.inl h))
    simp [this]
  · rw [hc']
  · intro st hst
    rw [hr'] at hst
    split at hst
    · simp only [Except.ok.injEq] at hst
      subst hst
      refine ⟨?_, ?_, ?_⟩
      · have hnd : (asked ++ loc).Nodup := hp.nodup_iff.2 hn
        have hs : (sortIds asked).Perm asked :=
          (List.perm_ext_iff_of_nodup (sortIds_nodup asked) (List.nodup_append.1 hnd).1).2 (mem_sortIds asked)
        refine List.Perm.trans ?_ hp
        rw [← List.append_assoc]
        refine List.Perm.append_right loc (List.Perm.trans ?_ hs)
        have := List.filter_append_perm (fun m => decide (m ∈ hub.pending)) (sortIds asked)
        refine List.Perm.trans (List.Perm.append_left _ ?_) this
        refine List.Perm.of_eq (List.filter_congr ?_)
        intro x _
        by_cases hx : x ∈ hub.pending <;> simp [hx]
      · intro m hm; simp at hm; exact hm.2
      · intro m hm
        simp only [List.mem_append, List.mem_filter, decide_eq_true_eq] at hm
        rcases hm with h | h
        · exact Or.inl h.2
        · exact Or.inr (hl m h)
    · split at hst <;> cases hst
  · intro e he
    rw [hr'] at he
    split at he
    · cases he
    · rename_i o os hos
      split at he
      · cases he
        exact ⟨[o], rfl, by simp, fun x hx => hfails x (by rw [hos]; simp at hx; simp [hx])⟩
      · cases he
        exact ⟨o :: os, rfl, by simp, fun x hx => hfails x (by rw [hos]; exact hx)⟩
  · intro hno
    rw [hr']
    split
    · exact ⟨_, rfl⟩
    · rename_i o os hos
      exfalso
      obtain ⟨m, hm, hmr⟩ := hfails o (by rw [hos]; simp)
      have := hno m hm _ hmr
      simp [failOf] at this

/-! ## AsyncHubResult -/

/-- Where a result in the cache comes from: it was there, or some of the polled hub states had recorded it. -/
def From (kindOf : Nat → RKind) (des : List Nat → Option (V × List Nat)) (c : Cl V) (polls : List Hub) (m : Mid) (res : CRes V) : Prop :=
  c.results m = some res ∨ ∃ hub ∈ polls, Recorded kindOf des hub m res

theorem poll_spec (kindOf : Nat → RKind) (des : List Nat → Option (V × List Nat)) (remote : List Mid) (hn : remote.Nodup) :
    ∀ (polls : List Hub) (c : Cl V), (∀ hub ∈ polls, ∀ m ∈ remote, Known kindOf des hub m) →
    let out := pollLoop kindOf des remote polls c
    (∀ m res, out.1.results m = some res → From kindOf des c polls m res) ∧
    (∀ m, m ∉ remote → out.1.results m = c.results m) ∧
    (∀ m, (c.results m).isSome → (out.1.results m).isSome) ∧
    (out.2 = .ok true → ∀ m ∈ remote, (out.1.results m).isSome) ∧
    (out.2 = .ok false → ∀ hub, polls.getLast? = some hub → ∃ m ∈ remote, m ∈ hub.pending) ∧
    (∀ e, out.2 = .error e → ∃ os, raisedTasks e = some os ∧ os ≠ [] ∧
      ∀ o ∈ os, ∃ m ∈ remote, ∃ hub ∈ polls, Recorded kindOf des hub m (.failure o)) := by
  intro polls
  induction polls with
  | nil =>
    intro c _
    exact ⟨fun m res h => Or.inl h, fun _ _ => rfl, fun _ h => h, fun h => by simp [pollLoop] at h, fun _ _ h => by simp at h,
      fun e h => by simp [pollLoop] at h⟩
  | cons hub hubs ih =>
    intro c hk
    obtain ⟨r1, r2, r3, -, r5, r6, -⟩ := result_status_exact_partial kindOf des c hub remote hn (hk hub (by simp))
    have hfrom : ∀ m res, (resultStatus kindOf des c hub remote false).1.results m = some res →
        c.results m = some res ∨ Recorded kindOf des hub m res := by
      intro m res h
      by_cases hm : m ∈ remote
      · by_cases hp : m ∈ hub.pending
        · rw [r2 m hm hp] at h; exact Or.inl h
        · obtain ⟨res', h1, h2⟩ := r1 m hm hp
          rw [h1] at h; cases h; exact h2
      · rw [r3 m hm] at h; exact Or.inl h
    have hmono : ∀ m, (c.results m).isSome → ((resultStatus kindOf des c hub remote false).1.results m).isSome := by
      intro m h
      by_cases hm : m ∈ remote
      · by_cases hp : m ∈ hub.pending
        · rw [r2 m hm hp]; exact h
        · obtain ⟨res', h1, _⟩ := r1 m hm hp
          rw [h1]; rfl
      · rw [r3 m hm]; exact h
    intro out
    have hout : out = pollLoop kindOf des remote (hub :: hubs) c := rfl
    unfold pollLoop at hout
    generalize resultStatus kindOf des c hub remote false = rs at *
    obtain ⟨c1, e1⟩ := rs
    cases e1 with
    | error e =>
      simp only at hout
      rw [hout]
      refine ⟨fun m res h => ?_, r3, hmono, (fun h => by cases h), (fun h => by cases h), ?_⟩
      · rcases hfrom m res h with h | h
        · exact Or.inl h
        · exact Or.inr ⟨hub, by simp, h⟩
      · intro e' he'
        obtain ⟨os, h1, h2, h3⟩ := r6 e rfl
        cases he'
        refine ⟨os, h1, h2, fun o ho => ?_⟩
        obtain ⟨m, hm, hrec⟩ := h3 o ho
        exact ⟨m, hm, hub, by simp, hrec⟩
    | ok st =>
      simp only at hout
      obtain ⟨s1, s2, s3⟩ := r5 st rfl
      by_cases hpend : st.pending = []
      · simp only [hpend, if_true] at hout
        rw [hout]
        refine ⟨fun m res h => ?_, r3, hmono, ?_, fun h => by simp at h, fun e h => by cases h⟩
        · rcases hfrom m res h with h | h
          · exact Or.inl h
          · exact Or.inr ⟨hub, by simp, h⟩
        · intro _ m hm
          have hmc : m ∈ st.completed := by
            have := s1.mem_iff (a := m) |>.2 hm
            rw [hpend] at this; simpa using this
          rcases s3 m hmc with h | h
          · obtain ⟨res', h1, _⟩ := r1 m hm h
            rw [h1]; rfl
          · exact hmono m h
      · simp only [hpend, if_false] at hout
        obtain ⟨i1, i2, i3, i4, i5, i6⟩ := ih c1 (fun h hh => hk h (by simp [hh]))
        rw [hout]
        refine ⟨fun m res h => ?_, fun m hm => by rw [i2 m hm]; exact r3 m hm, fun m h => i3 m (hmono m h), i4, ?_, ?_⟩
        · rcases i1 m res h with h | ⟨hb, hhb, h⟩
          · rcases hfrom m res h with h | h
            · exact Or.inl h
            · exact Or.inr ⟨hub, by simp, h⟩
          · exact Or.inr ⟨hb, by simp [hhb], h⟩
        · intro hf hb hlast
          cases hubs with
          | nil =>
            simp at hlast
            subst hlast
            obtain ⟨m, hm⟩ := List.exists_mem_of_ne_nil _ hpend
            exact ⟨m, s1.subset (by simp [hm]), s2 m hm⟩
          | cons h2 hs => exact i5 hf hb (by simpa using hlast)
        · intro e he
          obtain ⟨os, h1, h2, h3⟩ := i6 e he
          refine ⟨os, h1, h2, fun o ho => ?_⟩
          obtain ⟨m, hm, hb, hhb, hrec⟩ := h3 o ho
          exact ⟨m, hm, hb, by simp [hhb], hrec⟩

theorem popAll_spec : ∀ (ids : List Mid) (c : Cl V), ids.Nodup → (∀ m ∈ ids, (c.results m).isSome) →
    popAll ids c = ({ c with results := fun x => if x ∈ ids then none else c.results x }, true) := by
  intro ids
  induction ids with
  | nil => intro c _ _; simp [popAll]
  | cons m ms ih =>
    intro c hn h
    have hn' := List.nodup_cons.1 hn
    unfold popAll
    rw [if_pos (h m (by simp)), ih _ hn'.2 (by
      intro x hx
      have : x ≠ m := fun e => hn'.1 (e ▸ hx)
      simp [this]; exact Option.isSome_iff_exists.1 (h x (by simp [hx])) |>.elim (fun r hr => by rw [hr]; rfl))]
    simp only [Prod.mk.injEq, Cl.mk.injEq, true_and, and_true]
    funext x
    by_cases hx : x = m
    · subst hx; simp
    · simp [hx]

theorem collectHub_ok {single : Bool} {rs out : List (Option (CRes V))} (h : collectHub single rs = .ok out) :
    out = rs ∧ ∀ r, some r ∈ rs → failOf r = none := by
  unfold collectHub at h
  generalize hf : rs.filterMap (fun r => match r with | some (.failure o) => some o | _ => none) = fails at h
  cases fails with
  | nil =>
    simp only [Except.ok.injEq] at h
    refine ⟨h.symm, fun r hr => ?_⟩
    cases r with
    | value => rfl
    | exec => rfl
    | failure o =>
      have : o ∈ rs.filterMap (fun r => match r with | some (.failure o) => some o | _ => none) :=
        List.mem_filterMap.2 ⟨_, hr, rfl⟩
      rw [hf] at this; cases this
  | cons o os => cases single <;> simp at h

theorem collectHub_err {single : Bool} {rs : List (Option (CRes V))} {e : FErr} (h : collectHub single rs = .error e) :
    ∃ os, raisedTasks e = some os ∧ os ≠ [] ∧ ∀ o ∈ os, some (.failure o) ∈ rs := by
  unfold collectHub at h
  generalize hf : rs.filterMap (fun r => match r with | some (.failure o) => some o | _ => none) = fails at h
  have hmem : ∀ o ∈ fails, some (.failure o) ∈ rs := by
    intro o ho
    rw [← hf] at ho
    obtain ⟨r, hr, hro⟩ := List.mem_filterMap.1 ho
    split at hro
    · cases hro; exact hr
    · cases hro
  cases fails with
  | nil => cases h
  | cons o os =>
    cases single with
    | true =>
      simp only [if_true, Except.error.injEq] at h
      subst h
      exact ⟨[o], rfl, by simp, fun x hx => by simp at hx; subst hx; exact hmem x (by simp)⟩
    | false =>
      simp only [Bool.false_eq_true, if_false, Except.error.injEq] at h
      subst h
      exact ⟨o :: os, rfl, by simp, hmem⟩

/-- A new `AsyncHubResult`, as `get_result` and `resubmit` make it. -/
def HubAR.new (ids : List Mid) (single owner : Bool) : HubAR V := ⟨ids, single, owner, false, none⟩

/-- **C70 (`get()` of a result fetched from the hub).** For different ids known to the hub at each poll, whatever happens between the polls:
a value has one entry per id, in the order asked for, each what the hub has recorded for that task (or what the client had), and none a failure;
an exception reports failures of these very tasks; a timeout means that the last poll had found some of them pending.  No other exception is raised. -/
theorem hub_get_exact_partial (kindOf : Nat → RKind) (des : List Nat → Option (V × List Nat)) (polls : List Hub) (c : Cl V)
    (ids : List Mid) (single owner : Bool) (hn : ids.Nodup) (hk : ∀ hub ∈ polls, ∀ m ∈ ids, Known kindOf des hub m) :
    match (hubGet kindOf des polls c (HubAR.new ids single owner)).2.2 with
    | some (.ok rs) => ∃ f : Mid → CRes V, rs = ids.map (fun m => some (f m)) ∧
        ∀ m ∈ ids, From kindOf des c polls m (f m) ∧ failOf (f m) = none
    | some (.error e) => ∃ os, raisedTasks e = some os ∧ os ≠ [] ∧ ∀ o ∈ os, ∃ m ∈ ids, From kindOf des c polls m (.failure o)
    | none => ∀ hub, polls.getLast? = some hub → ∃ m ∈ ids, m ∈ hub.pending := by
  generalize hrem : ids.filter (fun m => (c.results m).isNone) = remote
  have hrn : remote.Nodup := by rw [← hrem]; exact hn.sublist List.filter_sublist
  have hrs : ∀ m ∈ remote, m ∈ ids := by intro m hm; rw [← hrem] at hm; exact (List.mem_filter.1 hm).1
  have hnr : ∀ m ∈ ids, m ∉ remote → (c.results m).isSome := by
    intro m hm hmr
    rw [← hrem] at hmr
    simp only [List.mem_filter, not_and] at hmr
    have := hmr hm
    cases h : c.results m with
    | none => rw [h] at this; simp at this
    | some r => rfl
  -- the state after polling
  have hpoll : ∃ p, (if remote = [] then (c, .ok true) else pollLoop kindOf des remote polls c) = p ∧
      (∀ m res, p.1.results m = some res → From kindOf des c polls m res) ∧
      (∀ m, (c.results m).isSome → (p.1.results m).isSome) ∧
      (p.2 = .ok true → ∀ m ∈ remote, (p.1.results m).isSome) ∧
      (p.2 = .ok false → ∀ hub, polls.getLast? = some hub → ∃ m ∈ ids, m ∈ hub.pending) ∧
      (∀ e, p.2 = .error e → ∃ os, raisedTasks e = some os ∧ os ≠ [] ∧ ∀ o ∈ os, ∃ m ∈ ids, From kindOf des c polls m (.failure o)) := by
    refine ⟨_, rfl, ?_⟩
    by_cases hre : remote = []
    · simp only [hre, if_true]
      exact ⟨fun m res h => Or.inl h, fun _ h => h, fun _ _ h => by simp at h, fun h => by simp at h, fun e h => by cases h⟩
    · simp only [hre, if_false]
      obtain ⟨p1, p2, p3, p4, p5, p6⟩ := poll_spec kindOf des remote hrn polls c (fun h hh m hm => hk h hh m (hrs m hm))
      refine ⟨p1, p3, p4, fun h hub hl => ?_, fun e he => ?_⟩
      · obtain ⟨m, hm, hmp⟩ := p5 h hub hl
        exact ⟨m, hrs m hm, hmp⟩
      · obtain ⟨os, h1, h2, h3⟩ := p6 e he
        refine ⟨os, h1, h2, fun o ho => ?_⟩
        obtain ⟨m, hm, hub, hhub, hrec⟩ := h3 o ho
        exact ⟨m, hrs m hm, Or.inr ⟨hub, hhub, hrec⟩⟩
  obtain ⟨⟨c1, r1⟩, hp0, hp1, hp2, hp3, hp4, hp5⟩ := hpoll
  unfold hubGet hubWait
  simp only [HubAR.new, Bool.false_eq_true, if_false, hrem, hp0]
  cases r1 with
  | error e => exact hp5 e rfl
  | ok b =>
    cases b with
    | false => exact hp4 rfl
    | true =>
      have hsome : ∀ m ∈ ids, (c1.results m).isSome := by
        intro m hm
        by_cases hmr : m ∈ remote
        · exact hp3 rfl m hmr
        · exact hp2 m (hnr m hm hmr)
      have hgoal : match (some (collectHub single (ids.map c1.results)) : Option (Except FErr (List (Option (CRes V))))) with
          | some (.ok rs) => ∃ f : Mid → CRes V, rs = ids.map (fun m => some (f m)) ∧
              ∀ m ∈ ids, From kindOf des c polls m (f m) ∧ failOf (f m) = none
          | some (.error e) => ∃ os, raisedTasks e = some os ∧ os ≠ [] ∧ ∀ o ∈ os, ∃ m ∈ ids, From kindOf des c polls m (.failure o)
          | none => ∀ hub, polls.getLast? = some hub → ∃ m ∈ ids, m ∈ hub.pending := by
        cases hcol : collectHub single (ids.map c1.results) with
        | ok rs =>
          obtain ⟨h1, h2⟩ := collectHub_ok hcol
          refine ⟨fun m => (c1.results m).getD (.exec 0), ?_, ?_⟩
          · rw [h1]
            apply List.map_congr_left
            intro m hm
            obtain ⟨r, hr⟩ := Option.isSome_iff_exists.1 (hsome m hm)
            simp [hr]
          · intro m hm
            obtain ⟨r, hr⟩ := Option.isSome_iff_exists.1 (hsome m hm)
            simp only [hr, Option.getD_some]
            exact ⟨hp1 m r hr, h2 r (List.mem_map.2 ⟨m, hm, hr⟩)⟩
        | error e =>
          obtain ⟨os, h1, h2, h3⟩ := collectHub_err hcol
          refine ⟨os, h1, h2, fun o ho => ?_⟩
          obtain ⟨m, hm, hr⟩ := List.mem_map.1 (h3 o ho)
          exact ⟨m, hm, hp1 m _ hr⟩
      cases owner with
      | false => exact hgoal
      | true =>
        simp only [if_true, popAll_spec ids c1 hn hsome]
        exact hgoal

/-- **C70 (fetching ends).** If the last poll finds all tasks finished and no task has failed, `get()` returns their results. -/
theorem hub_get_answers_partial (kindOf : Nat → RKind) (des : List Nat → Option (V × List Nat)) (polls : List Hub) (last : Hub) (c : Cl V)
    (ids : List Mid) (single owner : Bool) (hn : ids.Nodup) (hk : ∀ hub ∈ polls, ∀ m ∈ ids, Known kindOf des hub m)
    (hl : polls.getLast? = some last) (hp : ∀ m ∈ ids, m ∉ last.pending)
    (hf : ∀ m ∈ ids, ∀ res, From kindOf des c polls m res → failOf res = none) :
    ∃ rs, (hubGet kindOf des polls c (HubAR.new ids single owner)).2.2 = some (.ok rs) := by
  have h := hub_get_exact_partial kindOf des polls c ids single owner hn hk
  split at h
  · rename_i rs he; exact ⟨rs, he⟩
  · obtain ⟨os, _, h2, h3⟩ := h
    obtain ⟨o, ho⟩ := List.exists_mem_of_ne_nil os h2
    obtain ⟨m, hm, hfr⟩ := h3 o ho
    have := hf m hm _ hfr
    simp [failOf] at this
  · obtain ⟨m, hm, hmp⟩ := h last hl
    exact absurd hmp (hp m hm)

/-- **C70 (`owner`).** A `get()` that does not time out takes its results out of the client's cache if it owns them, and never touches others' results. -/
theorem hub_get_owner_partial (kindOf : Nat → RKind) (des : List Nat → Option (V × List Nat)) (polls : List Hub) (c : Cl V)
    (ids : List Mid) (single : Bool) (hn : ids.Nodup) (hk : ∀ hub ∈ polls, ∀ m ∈ ids, Known kindOf des hub m) :
    (∀ owner, ∀ m, m ∉ ids → (hubGet kindOf des polls c (HubAR.new ids single owner)).1.results m = c.results m) ∧
    (∀ rs, (hubGet kindOf des polls c (HubAR.new ids single true)).2.2 = some (.ok rs) →
      ∀ m ∈ ids, (hubGet kindOf des polls c (HubAR.new ids single true)).1.results m = none) := by
  generalize hrem : ids.filter (fun m => (c.results m).isNone) = remote
  have hrn : remote.Nodup := by rw [← hrem]; exact hn.sublist List.filter_sublist
  have hrs : ∀ m ∈ remote, m ∈ ids := by intro m hm; rw [← hrem] at hm; exact (List.mem_filter.1 hm).1
  have hnr : ∀ m ∈ ids, m ∉ remote → (c.results m).isSome := by
    intro m hm hmr
    rw [← hrem] at hmr
    simp only [List.mem_filter, not_and] at hmr
    have := hmr hm
    cases h : c.results m with
    | none => rw [h] at this; simp at this
    | some r => rfl
  have hpoll : ∃ p, (if remote = [] then (c, .ok true) else pollLoop kindOf des remote polls c) = p ∧
      (∀ m, m ∉ remote → p.1.results m = c.results m) ∧
      (∀ m, (c.results m).isSome → (p.1.results m).isSome) ∧
      (p.2 = .ok true → ∀ m ∈ remote, (p.1.results m).isSome) := by
    refine ⟨_, rfl, ?_⟩
    by_cases hre : remote = []
    · simp [hre]
    · simp only [hre, if_false]
      obtain ⟨p1, p2, p3, p4, p5, p6⟩ := poll_spec kindOf des remote hrn polls c (fun h hh m hm => hk h hh m (hrs m hm))
      exact ⟨p2, p3, p4⟩
  obtain ⟨⟨c1, r1⟩, hp0, hp1, hp2, hp3⟩ := hpoll
  have hsome : r1 = .ok true → ∀ m ∈ ids, (c1.results m).isSome := by
    intro h m hm
    by_cases hmr : m ∈ remote
    · exact hp3 h m hmr
    · exact hp2 m (hnr m hm hmr)
  constructor
  · intro owner m hm
    have hmr : m ∉ remote := fun h => hm (hrs m h)
    unfold hubGet hubWait
    simp only [HubAR.new, Bool.false_eq_true, if_false, hrem, hp0]
    cases r1 with
    | error e => exact hp1 m hmr
    | ok b =>
      cases b with
      | false => exact hp1 m hmr
      | true =>
        cases owner with
        | false => exact hp1 m hmr
        | true =>
          simp only [if_true, popAll_spec ids c1 hn (hsome rfl)]
          simp only [hm, if_false]
          exact hp1 m hmr
  · intro rs
    unfold hubGet hubWait
    simp only [HubAR.new, Bool.false_eq_true, if_false, hrem, hp0]
    cases r1 with
    | error e => intro h; simp at h
    | ok b =>
      cases b with
      | false => intro h; simp at h
      | true =>
        simp only [if_true, popAll_spec ids c1 hn (hsome rfl)]
        intro _ m hm
        simp [hm]

/-- **C70 (4)** Once `get()` has returned results, it returns the same again, without asking the hub or the cache. -/
theorem hub_get_again (kindOf : Nat → RKind) (des : List Nat → Option (V × List Nat)) (polls polls' : List Hub) (c c' : Cl V) (a : HubAR V)
    (h0 : a.ready = false) (rs : List (Option (CRes V))) (h : (hubGet kindOf des polls c a).2.2 = some (.ok rs)) :
    hubGet kindOf des polls' c' (hubGet kindOf des polls c a).2.1 = (c', (hubGet kindOf des polls c a).2.1, some (.ok rs)) := by
  have key : (hubGet kindOf des polls c a).2.1.ready = true ∧ (hubGet kindOf des polls c a).2.1.outcome = some (.ok rs) := by
    revert h
    unfold hubGet hubWait
    simp only [h0, Bool.false_eq_true, if_false]
    generalize (if a.ids.filter (fun m => (c.results m).isNone) = [] then (c, .ok true) else pollLoop kindOf des (a.ids.filter (fun m => (c.results m).isNone)) polls c) = p
    obtain ⟨c1, r⟩ := p
    cases r with
    | error e => intro h; simp at h
    | ok b =>
      cases b with
      | false => intro h; simp at h
      | true =>
        simp only
        by_cases ho : a.owner = true
        · simp only [ho, if_true]
          by_cases hp : (popAll a.ids c1).2 = true
          · simp only [hp, if_true]; intro h; exact ⟨trivial, h⟩
          · simp only [hp]; intro h; simp at h
        · have ho : a.owner = false := by simpa using ho
          simp only [ho, Bool.false_eq_true, if_false]
          intro h; exact ⟨trivial, h⟩
  rw [hubGet, hubWait]
  simp only [key.1, key.2, if_true]

/-! ## get_result -/

/-- The tasks a result object stands for. -/
def Made.ids : Made → List Mid
  | .localResult ids _ => ids
  | .hubResult ids _ => ids

theorem fm_str (c : Cl V) (l : List Mid) (h : ∀ m ∈ l, c.futures m = true) :
    l.filterMap (fun m => if c.futures m then some (FutEntry.str m) else if (c.results m).isSome then some (.fut m) else none)
      = l.map FutEntry.str := by
  induction l with
  | nil => rfl
  | cons m ms ih => rw [List.filterMap_cons, h m (by simp)]; simp [ih (fun x hx => h x (by simp [hx]))]

theorem fm_fut (c : Cl V) (l : List Mid) (h : ∀ m ∈ l, c.futures m = false ∧ (c.results m).isSome) :
    l.filterMap (fun m => if c.futures m then some (FutEntry.str m) else if (c.results m).isSome then some (.fut m) else none)
      = l.map FutEntry.fut := by
  induction l with
  | nil => rfl
  | cons m ms ih => rw [List.filterMap_cons, (h m (by simp)).1, (h m (by simp)).2]; simp [ih (fun x hx => h x (by simp [hx]))]

/-- **C70 (`get_result` stands for the ids asked for).** When the ids are all alike — all still under way in this client, all only in its cache, or all unknown to
it — the result object is for exactly these tasks in this order. -/
theorem get_result_ids_partial (c : Cl V) (single : Bool) (jobs : List Mid) (hne : jobs ≠ [])
    (h : (∀ m ∈ jobs, c.futures m = true) ∨ (∀ m ∈ jobs, c.futures m = false ∧ (c.results m).isSome) ∨
      (∀ m ∈ jobs, c.futures m = false ∧ c.results m = none)) :
    ∃ r, fromJobs c single jobs = .ok r ∧ r.ids = jobs := by
  cases jobs with
  | nil => exact absurd rfl hne
  | cons j js =>
  unfold fromJobs
  rcases h with h | h | h
  · have hf : (j :: js).filter (fun m => !c.futures m && (c.results m).isNone) = [] := by
      rw [List.filter_eq_nil_iff]; intro m hm; simp [h m hm]
    simp only [hf, ne_eq, not_true, if_false, fm_str c (j :: js) h]
    simp [makeLocal, Made.ids, List.map_map, Function.comp_def]
  · have hf : (j :: js).filter (fun m => !c.futures m && (c.results m).isNone) = [] := by
      rw [List.filter_eq_nil_iff]
      intro m hm
      obtain ⟨r, hr⟩ := Option.isSome_iff_exists.1 (h m hm).2
      simp [hr]
    simp only [hf, ne_eq, not_true, if_false, fm_fut c (j :: js) h]
    simp [makeLocal, Made.ids, List.map_map, Function.comp_def]
  · have hf : (j :: js).filter (fun m => !c.futures m && (c.results m).isNone) = j :: js := by
      rw [List.filter_eq_self]; intro m hm; simp [(h m hm).1, (h m hm).2]
    simp [hf, Made.ids]

/-- **C70 is false for mixed lists: local tasks are dropped.** If one of the ids is unknown to this client, the result object is for the unknown
ids only: `get_result([mine, other])` silently leaves out `mine` — for every client state. -/
theorem get_result_drops_violated (c : Cl V) (single : Bool) (mine other : Mid) (h1 : c.futures mine = true ∨ (c.results mine).isSome)
    (h2 : c.futures other = false) (h3 : c.results other = none) :
    fromJobs c single [mine, other] = .ok (.hubResult [other] single) := by
  unfold fromJobs
  rcases h1 with h1 | h1
  · simp [h1, h2, h3]
  · obtain ⟨r, hr⟩ := Option.isSome_iff_exists.1 h1
    simp [hr, h2, h3]

/-- **C70 is false for a task under way together with a cached one**: `get_result` raises AttributeError or KeyError, depending on their order. -/
theorem get_result_mixed_violated (c : Cl V) (single : Bool) (a b : Mid) (h1 : c.futures a = true) (h2 : c.futures b = false)
    (h3 : (c.results b).isSome) :
    fromJobs c single [a, b] = .error .keyError ∧ fromJobs c single [b, a] = .error .attributeError := by
  obtain ⟨r, hr⟩ := Option.isSome_iff_exists.1 h3
  constructor <;> simp [fromJobs, makeLocal, h1, h2, hr]

/-! ## Violations of result_status and AsyncHubResult -/

section
/-- a hub with two finished tasks (values 10 and 20, one buffer each), one aborted and one failed -/
def exHubDone : Hub := { startHub (fresh none) [] with
  done := [1, 2, 3, 4]
  db := [(1, ⟨true, none, some (.reply ⟨0, [10], none, false⟩), none, []⟩), (2, ⟨true, none, some (.reply ⟨0, [20], none, false⟩), none, []⟩),
         (3, ⟨true, none, some (.reply ⟨0, [], none, true⟩), none, []⟩), (4, ⟨true, none, some (.died 7), none, []⟩)] }

/-- one buffer per value -/
def exDes : List Nat → Option (Nat × List Nat)
  | [] => none
  | b :: rest => some (b, rest)

def exClient : Cl Nat := ⟨fun _ => false, fun _ => none⟩

/-- fetching two results -/
example : (hubGet (fun _ => .applyOk) exDes [exHubDone] exClient (HubAR.new [2, 1] false true)).2.2
    = some (.ok [some (.value 20), some (.value 10)]) := by decide +kernel

example : ∀ m ∈ [2, 1], Known (fun _ => .applyOk) exDes exHubDone m := by
  intro m hm
  simp only [List.mem_cons, List.not_mem_nil, or_false] at hm
  rcases hm with rfl | rfl
  · exact Or.inr ⟨by decide, _, .value 20, rfl, .value ⟨0, [20], none, false⟩ 20 rfl rfl rfl (fun rest => rfl)⟩
  · exact Or.inr ⟨by decide, _, .value 10, rfl, .value ⟨0, [10], none, false⟩ 10 rfl rfl rfl (fun rest => rfl)⟩

/-- **C70 is false when an id is named twice**: `get_result([1, 1]).get()` raises TypeError although the hub has the result. -/
theorem fetch_duplicate_violated :
    (hubGet (fun _ => .applyOk) exDes [exHubDone] exClient (HubAR.new [1, 1] false true)).2.2 = some (.error .typeError) := by
  decide +kernel

/-- … and KeyError when the result has been fetched before: the first copy takes it out of the cache, the second looks for it. -/
theorem fetch_duplicate_cached_violated (v : Nat) :
    (hubGet (fun _ => .applyOk) exDes [exHubDone] ⟨fun _ => false, fun m => if m = 1 then some (.value v) else none⟩ (HubAR.new [1, 1] false true)).2.2 = some (.error .keyError) := by
  rfl

/-- **C70 is false of aborted tasks**: fetching one raises KeyError, whatever is asked with it; not TaskAborted. -/
theorem fetch_aborted_violated :
    (hubGet (fun _ => .applyOk) exDes [exHubDone, exHubDone] exClient (HubAR.new [3] true true)).2.2 = some (.error .keyError) ∧
    (hubGet (fun _ => .applyOk) exDes [exHubDone, exHubDone] exClient (HubAR.new [1, 3] false true)).2.2 = some (.error .keyError) := by
  decide +kernel

/-- **C70: `result_status` looks up only some of the local results** (it removes from the list it iterates over): with both results in the cache and a hub that does not know
them (any more), asking for both raises the hub's error, though asking for each alone succeeds. -/
theorem result_status_skips_violated :
    let c : Cl Nat := ⟨fun _ => false, fun m => if m = 1 ∨ m = 2 then some (.value m) else none⟩
    let hub := startHub (fresh none) []
    (resultStatus (fun _ => .applyOk) exDes c hub [1, 2] true).2 = .error .hub ∧
    (resultStatus (fun _ => .applyOk) exDes c hub [1] true).2 = .ok ⟨[], [1]⟩ ∧
    (resultStatus (fun _ => .applyOk) exDes c hub [2] true).2 = .ok ⟨[], [2]⟩ := by
  intro c hub
  decide +kernel

/-- **C70: `wait()` and `ready()` raise the failure of a fetched task** (they should only report completion): the AsyncHubResult is not ready afterwards. -/
theorem hub_wait_raises_violated :
    (hubWait (fun _ => .applyOk) exDes [exHubDone] exClient (HubAR.new [4] true true)).2.2 = .error (.one (.died 7)) ∧
    (hubWait (fun _ => .applyOk) exDes [exHubDone] exClient (HubAR.new [4] true true)).2.1.ready = false := by
  decide +kernel
end

/-- `wait()` says that the result is ready if and only if it is -/
theorem hub_wait_ready {V : Type} (kindOf : Nat → RKind) (des : List Nat → Option (V × List Nat)) (polls : List Hub) (c : Cl V) (a : HubAR V) (b : Bool)
    (h : (hubWait kindOf des polls c a).2.2 = .ok b) : b = true ↔ (hubWait kindOf des polls c a).2.1.ready = true := by
  revert h
  unfold hubWait
  by_cases hr : a.ready = true
  · simp [hr]
  · simp only [hr, Bool.false_eq_true, if_false]
    generalize (if a.ids.filter (fun m => (c.results m).isNone) = [] then (c, (Except.ok true : Except FErr Bool)) else pollLoop kindOf des (a.ids.filter (fun m => (c.results m).isNone)) polls c) = p
    obtain ⟨c1, r⟩ := p
    cases r with
    | error e => intro h; cases h
    | ok b' =>
      cases b' with
      | false =>
        intro h
        have : b = false := by injection h with h; exact h.symm
        simp [this, hr]
      | true =>
        by_cases ho : a.owner = true
        · simp only [ho, if_true]
          generalize popAll a.ids c1 = q
          obtain ⟨c2, ok⟩ := q
          cases ok with
          | false => intro h; cases h
          | true => intro h; injection h with h; simp [← h]
        · simp only [ho, Bool.false_eq_true, if_false]
          intro h; injection h with h; simp [← h]

end IPP.Client.Fetch
