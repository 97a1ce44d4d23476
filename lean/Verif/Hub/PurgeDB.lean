import Verif.Hub.PurgeProps

/-! # C32: the queries that `purge_results` sends to the databases — hub.py:1217-1262

These theorems justify the way `Verif.Hub.Msgs` describes the effect of a purge on the database. -/
namespace IPP.DB

/-- `dict(msg_id={'$in': msg_ids})` — hub.py:1239 -/
def idsCheck (ids : List Id) : Check := [("msg_id", .ops [.isin (ids.map Val.text)])]

/-- `dict(completed={'$ne': None})` — hub.py:1225 -/
def completedCheck : Check := [("completed", .ops [.ne .null])]

/-- `dict(engine_uuid=uid, completed={'$ne': None})` — hub.py:1255-1257 -/
def engineCheck (uid : String) : Check := [("engine_uuid", .plain (.text uid)), ("completed", .ops [.ne .null])]

theorem dropMatching_total {c : Cfg} {s : State} (h : Inv s) (check : Check) (p : Id × Rec → Bool)
    (hp : ∀ x ∈ s.records, matchOne (lastPlain check) x.2 check = some (p x)) :
    (step c s (.dropMatching check)).2 = .ok ∧ (step c s (.dropMatching check)).1.records = s.records.filter (fun x => !p x) ∧
    (step c s (.dropMatching check)).1.culled = s.culled := by
  have hm : matchAll check s.records = some (s.records.filter p) := by
    have gen : ∀ l : List (Id × Rec), (∀ x ∈ l, matchOne (lastPlain check) x.2 check = some (p x)) → matchAll check l = some (l.filter p) := by
      intro l
      induction l with
      | nil => intro _; rfl
      | cons a l ih =>
        intro hl
        rcases a with ⟨i, r⟩
        unfold matchAll
        rw [hl (i, r) (by simp), ih (fun x hx => hl x (by simp [hx]))]
        cases hq : p (i, r) <;> simp [hq]
    exact gen _ hp
  simp only [step, hm]
  obtain ⟨h1, -, h3, h4⟩ := dropAll_ok h (s.records.filter p) (h.uniq.sublist ((List.filter_sublist).map _)) (fun x hx => (List.mem_filter.1 hx).1)
  refine ⟨h1, ?_, h4⟩
  rw [h3]
  apply List.filter_congr
  intro x hx
  rw [Bool.eq_iff_iff]
  simp only [decide_eq_true_eq, Bool.not_eq_true', List.mem_map, List.mem_filter, not_exists, not_and, and_imp]
  constructor
  · intro h5
    cases hq : p x with
    | false => rfl
    | true => exact absurd rfl (h5 x hx hq)
  · intro h5 y hy hpy heq
    have e1 := lookup_of_mem h.uniq (show (x.1, x.2) ∈ s.records from hx)
    have e2 := lookup_of_mem h.uniq (show (y.1, y.2) ∈ s.records from hy)
    rw [heq, e1] at e2
    simp only [Option.some.injEq] at e2
    have : x = y := Prod.ext heq.symm e2
    rw [← this, h5] at hpy
    cases hpy

/-- DictDB: the query of a purge by ids drops exactly these ids. -/
theorem dict_drop_ids (c : Cfg) (ops : List Op) (ho : ∀ op ∈ ops, op.Own) (ids : List Id) :
    let s := run c ops
    let s' := step c s (.dropMatching (idsCheck ids))
    s'.2 = .ok ∧ s'.1.records = s.records.filter (fun x => x.1 ∉ ids) := by
  have h : Inv (run c ops) := by have := (both_inv c ops ho).1; rwa [both_fst] at this
  obtain ⟨h1, h2, -⟩ := dropMatching_total (c := c) h (idsCheck ids) (fun x => decide (x.1 ∈ ids)) (by
    intro x hx
    have := h.own x hx
    simp [idsCheck, matchOne, Cond.run, runTests, Test.run, this]
    by_cases hm : x.1 ∈ ids <;> simp [hm])
  refine ⟨h1, ?_⟩
  rw [h2]
  apply List.filter_congr
  intro x _
  by_cases hm : x.1 ∈ ids <;> simp [hm]

/-- DictDB: the query of `purge_results('all')` drops exactly the completed records. -/
theorem dict_drop_completed (c : Cfg) (ops : List Op) (ho : ∀ op ∈ ops, op.Own) :
    let s := run c ops
    let s' := step c s (.dropMatching completedCheck)
    s'.2 = .ok ∧ s'.1.records = s.records.filter (fun x => x.2.get "completed" = .null) := by
  have h : Inv (run c ops) := by have := (both_inv c ops ho).1; rwa [both_fst] at this
  obtain ⟨h1, h2, -⟩ := dropMatching_total (c := c) h completedCheck (fun x => decide (x.2.get "completed" ≠ .null)) (by
    intro x hx
    simp [completedCheck, matchOne, Cond.run, runTests, Test.run]
    by_cases hm : x.2.get "completed" = .null <;> simp [hm])
  refine ⟨h1, ?_⟩
  rw [h2]
  apply List.filter_congr
  intro x _
  by_cases hm : x.2.get "completed" = .null <;> simp [hm]

/-- DictDB: the query of a purge by engine drops nothing, whatever is stored. -/
theorem dict_drop_engine_nothing (c : Cfg) (ops : List Op) (ho : ∀ op ∈ ops, op.Own) (uid : String) :
    let s := run c ops
    let s' := step c s (.dropMatching (engineCheck uid))
    s'.2 = .ok ∧ s'.1.records = s.records := by
  have h : Inv (run c ops) := by have := (both_inv c ops ho).1; rwa [both_fst] at this
  obtain ⟨h1, h2, -⟩ := dropMatching_total (c := c) h (engineCheck uid) (fun _ => false) (by
    intro x hx
    simp [engineCheck, matchOne, Cond.run, lastPlain])
  refine ⟨h1, ?_⟩
  rw [h2]
  simp

namespace Sql

theorem sqlOr_eq_map (a : Val) (ha : a ≠ .null) (ids : List Id) :
    sqlOr ((ids.map Val.text).map (fun v => sqlCmp .eq a v)) = some (decide (∃ i ∈ ids, a = .text i)) := by
  induction ids with
  | nil => simp [sqlOr]
  | cons i ids ih =>
    simp only [List.map_cons, sqlOr]
    rw [ih]
    simp only [sqlCmp, ha, false_or]
    by_cases h1 : a = .text i
    · simp [h1]
    · by_cases h2 : ∃ i ∈ ids, a = .text i
      · simp [h1, h2]
      · simp [h1, h2]

/-- SQLite: the query of a purge by ids (at least one) drops exactly these ids. -/
theorem sql_drop_ids (rows : Rows) (hown : ∀ x ∈ rows, x.2.get "msg_id" = .text x.1) (ids : List Id) (hne : ids ≠ []) :
    step rows (.dropMatching (idsCheck ids)) = (rows.filter (fun x => x.1 ∉ ids), false) := by
  have hr : render (idsCheck ids) = .ok [.anyOf "msg_id" .eq (ids.map Val.text)] := by
    simp [render, idsCheck, renderConds, renderTests, renderTest, columns, bind, Except.bind, pure, Except.pure]
  have hw : wellFormed [.anyOf "msg_id" .eq (ids.map Val.text)] = true := by
    cases ids with
    | nil => exact absurd rfl hne
    | cons a l => simp [wellFormed, atomOk]
  simp only [step, hr, hw, if_true, Prod.mk.injEq, and_true]
  apply List.filter_congr
  intro x hx
  have ho := hown x hx
  have : sqlAnd [Atom.eval x.2 (.anyOf "msg_id" .eq (ids.map Val.text))] = some (decide (x.1 ∈ ids)) := by
    simp only [Atom.eval, ho]
    rw [sqlOr_eq_map _ (by simp)]
    by_cases h2 : x.1 ∈ ids
    · simp [sqlAnd, h2]
    · simp [sqlAnd, h2]
  simp only [selected, List.map_cons, List.map_nil, this]
  by_cases h2 : x.1 ∈ ids <;> simp [h2]

/-- SQLite: the query of `purge_results('all')` drops exactly the completed records. -/
theorem sql_drop_completed (rows : Rows) :
    step rows (.dropMatching completedCheck) = (rows.filter (fun x => x.2.get "completed" = .null), false) := by
  have hr : render completedCheck = .ok [.notNull "completed"] := by rfl
  simp only [step, hr]
  have hw : wellFormed [.notNull "completed"] = true := by rfl
  simp only [hw, if_true, Prod.mk.injEq, and_true]
  apply List.filter_congr
  intro x _
  by_cases hm : x.2.get "completed" = .null <;> simp [selected, Atom.eval, sqlAnd, hm]

/-- SQLite: the query of a purge by engine drops exactly the completed records of this engine. -/
theorem sql_drop_engine (rows : Rows) (uid : String) :
    step rows (.dropMatching (engineCheck uid)) =
      (rows.filter (fun x => ¬ (x.2.get "engine_uuid" = .text uid ∧ x.2.get "completed" ≠ .null)), false) := by
  have hr : render (engineCheck uid) = .ok [.cmp "engine_uuid" .eq (.text uid), .notNull "completed"] := by rfl
  have hw : wellFormed [.cmp "engine_uuid" .eq (.text uid), .notNull "completed"] = true := by rfl
  simp only [step, hr, hw, if_true, Prod.mk.injEq, and_true]
  apply List.filter_congr
  intro x _
  by_cases hm : x.2.get "completed" = .null <;> by_cases hu : x.2.get "engine_uuid" = .text uid <;> by_cases hn : x.2.get "engine_uuid" = .null <;>
    simp [selected, Atom.eval, sqlAnd, sqlCmp, hm, hu, hn]

end Sql
end IPP.DB
