import Verif.DB.Sqlite
/-!
# C36: SQLiteDB against the meaning of queries and against DictDB
-/
namespace IPP.DB.Sql

open IPP.DB

/-- The field is comparable with the operand: absent, or of the same ordered type. -/
def Comparable (a v : Val) : Prop := v ≠ .null ∧ (a = .null ∨ (pyLt a v).isSome)

/-- The conditions under which SQLite's NULL and typing rules do not matter for this record. -/
def TestOk (a : Val) : Test → Prop
  | .lt v | .gt v | .lte v | .gte v => Comparable a v
  | .ne v => v = .null ∨ a ≠ .null
  | .nin vs => a ≠ .null ∧ vs ≠ []
  | .isin vs => vs ≠ []
  | _ => True

def Fits (r : Rec) (check : Check) : Prop := ∀ kc ∈ check, ∀ ts, kc.2 = .ops ts → ∀ t ∈ ts, TestOk (r.get kc.1) t

theorem sqlAnd_true {l : List (Option Bool)} : sqlAnd l = some true ↔ ∀ x ∈ l, x = some true := by
  induction l with
  | nil => simp [sqlAnd]
  | cons x l ih =>
    unfold sqlAnd
    simp only [List.mem_cons, forall_eq_or_imp]
    rw [← ih]
    rcases x with _ | (_ | _) <;> rcases sqlAnd l with _ | (_ | _) <;> simp

theorem sqlOr_true {l : List (Option Bool)} : sqlOr l = some true ↔ ∃ x ∈ l, x = some true := by
  induction l with
  | nil => simp [sqlOr]
  | cons x l ih =>
    unfold sqlOr
    simp only [List.mem_cons, exists_eq_or_imp]
    rw [← ih]
    rcases x with _ | (_ | _) <;> rcases sqlOr l with _ | (_ | _) <;> simp

theorem less_iff {a b : Val} : Less a b ↔ pyLt a b = some true := by
  unfold Less pyLt
  split <;> simp

theorem pyLt_some_comm {a b : Val} : (pyLt a b).isSome ↔ (pyLt b a).isSome := by
  cases a <;> cases b <;> simp [pyLt]

theorem lessEq_iff {a b : Val} (h : (pyLt a b).isSome) : LessEq a b ↔ ¬ Less b a := by
  cases a <;> cases b <;> simp [pyLt, LessEq, Less] at h ⊢

theorem notnull_of_some {a b : Val} (h : (pyLt a b).isSome) : a ≠ .null ∧ b ≠ .null := by
  cases a <;> cases b <;> simp [pyLt] at h ⊢

theorem sqlLess_iff {a b : Val} (h : (pyLt a b).isSome) : sqlLess a b = true ↔ Less a b := by
  rw [less_iff]
  unfold sqlLess
  rw [Option.isSome_iff_exists] at h
  rcases h with ⟨x, hx⟩
  simp [hx]

theorem less_null {a b : Val} (h : a = .null) : ¬ Less a b ∧ ¬ Less b a ∧ ¬ LessEq a b ∧ ¬ LessEq b a := by
  subst h
  cases b <;> simp [Less, LessEq]

theorem atom_sat {k : Key} {t : Test} {a : Atom} {r : Rec} (h : renderTest k t = .ok a) (hf : TestOk (r.get k) t) :
    a.eval r = some true ↔ t.Sat (r.get k) := by
  generalize hv : r.get k = x at *
  have cmpc : ∀ v, Comparable x v → x ≠ .null → (pyLt x v).isSome ∧ (pyLt v x).isSome ∧ v ≠ .null := by
    intro v hc hn
    have h1 := hc.2.resolve_left hn
    exact ⟨h1, pyLt_some_comm.1 h1, hc.1⟩
  cases t with
  | lt v =>
    simp only [renderTest, Except.ok.injEq] at h; subst h
    simp only [Atom.eval, hv, sqlCmp, Test.Sat]
    by_cases hn : x = .null
    · simp [hn, (less_null (b := v) rfl).1]
    · have c := cmpc v hf hn
      simp [hn, c.2.2, sqlLess_iff c.1]
  | gt v =>
    simp only [renderTest, Except.ok.injEq] at h; subst h
    simp only [Atom.eval, hv, sqlCmp, Test.Sat]
    by_cases hn : x = .null
    · simp [hn, (less_null (b := v) rfl).2.1]
    · have c := cmpc v hf hn
      simp [hn, c.2.2, sqlLess_iff c.2.1]
  | lte v =>
    simp only [renderTest, Except.ok.injEq] at h; subst h
    simp only [Atom.eval, hv, sqlCmp, Test.Sat]
    by_cases hn : x = .null
    · simp [hn, (less_null (b := v) rfl).2.2.1]
    · have c := cmpc v hf hn
      have := sqlLess_iff c.2.1
      simp [hn, c.2.2, lessEq_iff c.1, ← this]
  | gte v =>
    simp only [renderTest, Except.ok.injEq] at h; subst h
    simp only [Atom.eval, hv, sqlCmp, Test.Sat]
    by_cases hn : x = .null
    · simp [hn, (less_null (b := v) rfl).2.2.2]
    · have c := cmpc v hf hn
      have := sqlLess_iff c.1
      simp [hn, c.2.2, lessEq_iff c.2.1, ← this]
  | eq v =>
    simp only [renderTest, Except.ok.injEq] at h; subst h
    by_cases hn : v = .null
    · subst hn; simp [Atom.eval, hv, Test.Sat]
    · simp only [hn, if_false, Atom.eval, hv, sqlCmp, Test.Sat, or_false]
      by_cases hx : x = .null
      · subst hx; simp; exact fun e => hn e.symm
      · simp [hx]
  | ne v =>
    simp only [renderTest, Except.ok.injEq] at h; subst h
    by_cases hn : v = .null
    · subst hn; simp [Atom.eval, hv, Test.Sat]
    · have hx : x ≠ .null := hf.resolve_left hn
      simp [hn, Atom.eval, hv, sqlCmp, Test.Sat, hx]
  | isin vs =>
    simp only [renderTest] at h
    split at h
    · cases h
    · rename_i hnn
      simp only [Except.ok.injEq] at h; subst h
      simp only [Atom.eval, hv, Test.Sat, sqlOr_true, List.mem_map]
      constructor
      · rintro ⟨o, ⟨v, hm, rfl⟩, e⟩
        simp only [sqlCmp] at e
        split at e
        · cases e
        · simp at e; rw [e]; exact hm
      · intro hm
        refine ⟨_, ⟨x, hm, rfl⟩, ?_⟩
        have : x ≠ .null := by rintro rfl; exact hnn hm
        simp [sqlCmp, this]
  | nin vs =>
    simp only [renderTest] at h
    split at h
    · cases h
    · rename_i hnn
      simp only [Except.ok.injEq] at h; subst h
      have hx : x ≠ .null := hf.1
      simp only [Atom.eval, hv, Test.Sat, sqlAnd_true, List.mem_map]
      constructor
      · intro hh hm
        have := hh _ ⟨x, hm, rfl⟩
        simp [sqlCmp, hx] at this
      · rintro hm _ ⟨v, hv', rfl⟩
        have h1 : v ≠ .null := by rintro rfl; exact hnn hv'
        have h2 : x ≠ v := by rintro rfl; exact hm hv'
        simp [sqlCmp, hx, h1, h2]
  | mod m r => simp [renderTest] at h
  | exist b => simp [renderTest] at h

theorem tests_sat {k : Key} {ts : List Test} {l : List Atom} {r : Rec} (h : renderTests k ts = .ok l) (hf : ∀ t ∈ ts, TestOk (r.get k) t) :
    (∀ a ∈ l, a.eval r = some true) ↔ ∀ t ∈ ts, t.Sat (r.get k) := by
  induction ts generalizing l with
  | nil => simp [renderTests] at h; subst h; simp
  | cons t ts ih =>
    unfold renderTests at h
    cases e : renderTest k t with
    | error x => simp [e] at h
    | ok a =>
      simp only [e] at h
      cases e2 : renderTests k ts with
      | error x => simp [e2] at h
      | ok l' =>
        simp only [e2, Except.ok.injEq] at h
        subst h
        have h1 := atom_sat e (hf t (List.mem_cons_self ..))
        have h2 := ih e2 (fun t hm => hf t (List.mem_cons_of_mem _ hm))
        simp only [List.mem_cons, forall_eq_or_imp]
        rw [h1, h2]

theorem conds_sat {check : Check} {l : List Atom} {r : Rec} (h : renderConds check = .ok l) (hf : Fits r check) :
    (∀ a ∈ l, a.eval r = some true) ↔ Sat r check := by
  induction check generalizing l with
  | nil => simp [renderConds] at h; subst h; simp [Sat]
  | cons kc check ih =>
    rcases kc with ⟨k, c⟩
    have hf' : Fits r check := fun kc hm => hf kc (List.mem_cons_of_mem _ hm)
    cases c with
    | plain v =>
      unfold renderConds at h
      cases e2 : renderConds check with
      | error x => simp [e2] at h
      | ok l' =>
        simp only [e2, Except.ok.injEq] at h
        subst h
        have h1 : (if v = .null then Atom.isNull k else .cmp k .eq v).eval r = some true ↔ r.get k = v := by
          have := atom_sat (k := k) (t := .eq v) (r := r) (a := if v = .null then Atom.isNull k else .cmp k .eq v) rfl trivial
          exact this
        have h2 := ih e2 hf'
        simp only [Sat, List.mem_cons, forall_eq_or_imp, Cond.Sat] at h2 ⊢
        rw [h1, h2]
    | ops ts =>
      unfold renderConds at h
      cases e : renderTests k ts with
      | error x => simp [e] at h
      | ok l1 =>
        simp only [e] at h
        cases e2 : renderConds check with
        | error x => simp [e2] at h
        | ok l' =>
          simp only [e2, Except.ok.injEq] at h
          subst h
          have h1 := tests_sat e (hf _ (List.mem_cons_self ..) ts rfl)
          have h2 := ih e2 hf'
          constructor
          · intro hh kc hkc
            rcases List.mem_cons.1 hkc with rfl | hkc
            · exact h1.1 (fun a ha => hh a (List.mem_append_left _ ha))
            · exact h2.1 (fun a ha => hh a (List.mem_append_right _ ha)) kc hkc
          · intro hh a ha
            rcases List.mem_append.1 ha with ha | ha
            · exact h1.2 (hh _ (List.mem_cons_self ..)) a ha
            · exact h2.2 (fun kc hkc => hh kc (List.mem_cons_of_mem _ hkc)) a ha

open Classical in
/-- **C36 (meaning)** Whenever SQLiteDB answers a query, it returns exactly the rows satisfying the query, provided its NULL/typing corner cases do not occur in the table
(`Fits`). -/
theorem sqlite_find_exact_partial (rows : Rows) (check : Check) (rs : List Rec) (hf : ∀ x ∈ rows, Fits x.2 check) (h : find rows check = .ok rs) :
    rs = (rows.map Prod.snd).filter (fun r => Sat r check) := by
  unfold find at h
  cases e : render check with
  | error x => simp [e] at h
  | ok l =>
    simp only [e] at h
    split at h
    · simp only [Except.ok.injEq] at h
      subst h
      unfold render at e
      split at e
      · cases e
      · apply List.filter_congr
        intro r hr
        rcases List.mem_map.1 hr with ⟨x, hx, rfl⟩
        have := conds_sat e (hf x hx)
        rw [Bool.eq_iff_iff]
        simp only [selected, decide_eq_true_eq, sqlAnd_true, List.mem_map]
        rw [← this]
        constructor
        · intro hh a ha; exact hh _ ⟨a, ha, rfl⟩
        · rintro hh _ ⟨a, ha, rfl⟩; exact hh a ha
    · cases h

/-- **C36 (matching deletion fails exactly when the query does)** `drop_matching_records` raises exactly when `find_records` with the same query raises, and then deletes nothing. -/
theorem drop_matching_raises (rows : Rows) (check : Check) :
    ((step rows (.dropMatching check)).2 = true ↔ ∃ e, find rows check = .error e) ∧ ((step rows (.dropMatching check)).2 = true → (step rows (.dropMatching check)).1 = rows) := by
  unfold step find
  cases e : render check with
  | error x => simp [e]
  | ok l => by_cases h : wellFormed l = true <;> simp [e, h]

open Classical in
/-- **C36 (matching deletion)** When `drop_matching_records` does not raise, it deletes exactly the rows satisfying the query and keeps the others in order (the same
corner cases excepted as for `find_records`). -/
theorem drop_matching_exact_partial (rows : Rows) (check : Check) (hf : ∀ x ∈ rows, Fits x.2 check) (h : (step rows (.dropMatching check)).2 = false) :
    (step rows (.dropMatching check)).1 = rows.filter (fun x => ¬ Sat x.2 check) := by
  unfold step at h ⊢
  cases e : render check with
  | error x => simp [e] at h
  | ok l =>
    simp only [e] at h ⊢
    by_cases hw : wellFormed l = true
    · rw [if_pos hw]
      unfold render at e
      split at e
      · cases e
      · apply List.filter_congr
        intro x hx
        have := conds_sat e (hf x hx)
        rw [Bool.eq_iff_iff]
        simp only [selected, Bool.not_eq_true', decide_eq_false_iff_not, sqlAnd_true, List.mem_map, decide_eq_true_eq]
        apply not_congr
        rw [← this]
        constructor
        · intro hh a ha; exact hh _ ⟨a, ha, rfl⟩
        · rintro hh _ ⟨a, ha, rfl⟩; exact hh a ha
    · simp [hw] at h

/-- the hypotheses are met: of two rows, the one with the matching session is deleted -/
example : (step [("a", [("client_uuid", .text "x")]), ("b", [("client_uuid", .text "y")])] (.dropMatching [("client_uuid", .plain (.text "x"))])) = ([("b", [("client_uuid", .text "y")])], false) := by decide +kernel

/-- **C36 (agreement on queries)** On the same records both databases give the same answer, for the queries that both answer and on which neither is known to be wrong. -/
theorem find_agree_partial (s : State) (check : Check) (rs rs' : List Rec) (hg : NoGt check) (hp : PlainLast check) (hf : ∀ x ∈ s.records, Fits x.2 check)
    (h : IPP.DB.find s check none = some rs) (h' : find s.records check = .ok rs') : rs = rs' := by
  classical
  rw [find_exact_partial s check rs hg hp h, sqlite_find_exact_partial s.records check rs' hf h']

/-- **C36 (well-formed)** A query over known columns with supported operators (no `$mod`, `$exists`), at least one condition, non-empty operator dicts, non-empty lists without
None renders to a well-formed clause. -/
def Legal (check : Check) : Prop := check ≠ [] ∧ ∀ kc ∈ check, kc.1 ∈ columns ∧ ∀ ts, kc.2 = .ops ts → ts ≠ [] ∧ ∀ t ∈ ts, match t with
  | .isin vs | .nin vs => vs ≠ [] ∧ .null ∉ vs
  | .mod _ _ | .exist _ => False
  | _ => True

theorem legal_tests (k : Key) (ts : List Test) (h : ∀ t ∈ ts, match t with
    | .isin vs | .nin vs => vs ≠ [] ∧ Val.null ∉ vs
    | .mod _ _ | .exist _ => False
    | _ => True) : ∃ l, renderTests k ts = .ok l ∧ l.length = ts.length ∧ ∀ a ∈ l, atomOk a = true := by
  induction ts with
  | nil => exact ⟨[], rfl, rfl, by simp⟩
  | cons t ts ih =>
    rcases ih (fun t hm => h t (List.mem_cons_of_mem _ hm)) with ⟨l, h1, h2, h3⟩
    have ht := h t (List.mem_cons_self ..)
    have : ∃ a, renderTest k t = .ok a ∧ atomOk a = true := by
      cases t with
      | isin vs =>
        simp only at ht
        refine ⟨_, by simp only [renderTest, if_neg ht.2]; rfl, ?_⟩
        cases vs with
        | nil => exact absurd rfl ht.1
        | cons => rfl
      | nin vs =>
        simp only at ht
        refine ⟨_, by simp only [renderTest, if_neg ht.2]; rfl, ?_⟩
        cases vs with
        | nil => exact absurd rfl ht.1
        | cons => rfl
      | mod => exact absurd ht (by simp)
      | exist => exact absurd ht (by simp)
      | eq v => refine ⟨_, rfl, ?_⟩; by_cases hv : v = .null <;> simp [hv, atomOk]
      | ne v => refine ⟨_, rfl, ?_⟩; by_cases hv : v = .null <;> simp [hv, atomOk]
      | lt v => exact ⟨_, rfl, rfl⟩
      | gt v => exact ⟨_, rfl, rfl⟩
      | lte v => exact ⟨_, rfl, rfl⟩
      | gte v => exact ⟨_, rfl, rfl⟩
    rcases this with ⟨a, ha, hok⟩
    refine ⟨a :: l, by simp [renderTests, ha, h1], by simp [h2], ?_⟩
    intro b hb
    rcases List.mem_cons.1 hb with rfl | hb
    · exact hok
    · exact h3 b hb

theorem render_wellFormed (check : Check) (h : Legal check) : ∃ l, render check = .ok l ∧ wellFormed l = true := by
  have hcols : check.any (fun kc => kc.1 ∉ columns) = false := by
    rw [List.any_eq_false]
    intro kc hm
    simp [(h.2 kc hm).1]
  have gen : ∀ check : Check, (∀ kc ∈ check, ∀ ts, kc.2 = .ops ts → ts ≠ [] ∧ ∀ t ∈ ts, match t with
      | .isin vs | .nin vs => vs ≠ [] ∧ Val.null ∉ vs
      | .mod _ _ | .exist _ => False
      | _ => True) → ∃ l, renderConds check = .ok l ∧ (check ≠ [] → l ≠ []) ∧ ∀ a ∈ l, atomOk a = true := by
    intro check
    induction check with
    | nil => intro _; exact ⟨[], rfl, by simp, by simp⟩
    | cons kc check ih =>
      intro h
      rcases kc with ⟨k, c⟩
      rcases ih (fun kc hm => h kc (List.mem_cons_of_mem _ hm)) with ⟨l, h1, h2, h3⟩
      cases c with
      | plain v =>
        refine ⟨(if v = .null then .isNull k else .cmp k .eq v) :: l, by simp [renderConds, h1], by simp, ?_⟩
        intro a ha
        rcases List.mem_cons.1 ha with rfl | ha
        · by_cases hv : v = .null <;> simp [hv, atomOk]
        · exact h3 a ha
      | ops ts =>
        have hts := h _ (List.mem_cons_self ..) ts rfl
        rcases legal_tests k ts hts.2 with ⟨l1, g1, g2, g3⟩
        refine ⟨l1 ++ l, by simp [renderConds, h1, g1], ?_, ?_⟩
        · intro _ he
          have h4 : l1 = [] := (List.append_eq_nil_iff.1 he).1
          rw [h4] at g2
          exact hts.1 (List.length_eq_zero_iff.1 g2.symm)
        · intro a ha
          rcases List.mem_append.1 ha with ha | ha
          · exact g3 a ha
          · exact h3 a ha
  rcases gen check (fun kc hm => (h.2 kc hm).2) with ⟨l, h1, h2, h3⟩
  refine ⟨l, by unfold render; rw [hcols]; exact h1, ?_⟩
  unfold wellFormed
  simp only [decide_eq_true_eq]
  refine ⟨h2 h.1, ?_⟩
  rw [List.all_eq_true]
  exact h3

/-- an example inside the fragment -/
def exCheck2 : Check := [("completed", .ops [.eq .null]), ("submitted", .ops [.lt (.date 4), .gte (.date 2)]), ("msg_id", .plain (.text "c"))]

example : Legal exCheck2 ∧ (∀ x ∈ (IPP.DB.run exCfg exOps).records, Fits x.2 exCheck2) ∧ find (IPP.DB.run exCfg exOps).records exCheck2 = .ok [exRec "c" 3 30] ∧
    IPP.DB.find (IPP.DB.run exCfg exOps) exCheck2 none = some [exRec "c" 3 30] := by
  refine ⟨⟨by decide, ?_⟩, ?_, by rfl, by decide⟩
  · intro kc h
    simp only [exCheck2, List.mem_cons, List.not_mem_nil, or_false] at h
    rcases h with rfl | rfl | rfl <;> refine ⟨by decide, ?_⟩ <;> intro ts e <;> simp at e <;> subst e <;> simp
  · have hr : (IPP.DB.run exCfg exOps).records = [("b", ("completed", .date 6) :: exRec "b" 2 20), ("c", exRec "c" 3 30)] := by decide
    rw [hr]
    intro x hx kc h ts e t ht
    simp only [List.mem_cons, List.not_mem_nil, or_false] at hx
    simp only [exCheck2, List.mem_cons, List.not_mem_nil, or_false] at h
    rcases h with rfl | rfl | rfl <;> simp at e <;> subst e <;> simp at ht
    · subst ht; trivial
    · rcases hx with rfl | rfl <;> rcases ht with rfl | rfl <;> exact ⟨by decide, Or.inr rfl⟩

/-! ### the store -/

/-- state and plain map after a history of calls (`raised` as reported by SQLiteDB) -/
def both (ops : List Op) : Rows × (Id → Option Rec) :=
  ops.foldl (fun rm op => ((step rm.1 op).1, mapStep rm.2 op (step rm.1 op).2)) ([], fun _ => none)

/-- same ids, and every column holds the value as it reads back (`norm`, see `reads_back`) -/
def SameStore (rows : Rows) (m : Id → Option Rec) : Prop :=
  ∀ i, match rowOf rows i, m i with
    | none, none => True
    | some row, some r => ∀ k ∈ columns, row.get k = norm k (r.get k)
    | _, _ => False

theorem norm_norm (k : Key) (v : Val) : norm k (norm k v) = norm k v := by
  cases v with
  | bufs l => cases l <;> rfl
  | obj n => by_cases h : k = "error" ∨ k = "execute_result" <;> simp [norm, h]
  | _ => rfl

/-- **C36 (values)** What a column gives back is what was put in, but for an empty list of buffers (None), and for dicts in the two columns `error` and `execute_result` (their JSON text). -/
theorem reads_back (k : Key) (v : Val) (h1 : v ≠ .bufs []) (h2 : (k = "error" ∨ k = "execute_result") → ∀ n, v ≠ .obj n) : norm k v = v := by
  cases v with
  | bufs l => cases l with
    | nil => exact absurd rfl h1
    | cons => rfl
  | obj n =>
    simp only [norm]
    rw [if_neg]
    exact fun hk => h2 hk n rfl
  | _ => rfl

theorem get_normRec (r : Rec) (k : Key) (h : k ∈ columns) : (normRec r).get k = norm k (r.get k) := by
  unfold normRec
  have gen : ∀ l : List Key, k ∈ l → Rec.get (l.map (fun k => (k, norm k (r.get k)))) k = norm k (r.get k) := by
    intro l
    induction l with
    | nil => intro h; cases h
    | cons a l ih =>
      intro h
      by_cases e : a = k
      · subst e; simp [Rec.get]
      · have := ih ((List.mem_cons.1 h).resolve_left (fun h => e h.symm))
        simp only [Rec.get, List.map_cons] at this ⊢
        rw [List.find?_cons_of_neg (by simpa using e)]
        exact this
  exact gen columns h

theorem rowOf_filter (rows : Rows) (i j : Id) : rowOf (rows.filter (fun x => x.1 ≠ i)) j = if j = i then none else rowOf rows j := by
  unfold rowOf
  induction rows with
  | nil => simp
  | cons a l ih =>
    by_cases ha : a.1 = i
    · have e : (a :: l).filter (fun x => x.1 ≠ i) = l.filter (fun x => x.1 ≠ i) := by simp [ha]
      rw [e, ih]
      by_cases hj : j = i
      · simp [hj]
      · have : ¬ a.1 = j := by rw [ha]; exact fun h => hj h.symm
        rw [if_neg hj, if_neg hj, List.find?_cons_of_neg (by simpa using this)]
    · have e : (a :: l).filter (fun x => x.1 ≠ i) = a :: l.filter (fun x => x.1 ≠ i) := by simp [ha]
      rw [e]
      by_cases haj : a.1 = j
      · have hj : ¬ j = i := by rw [← haj]; exact ha
        rw [if_neg hj, List.find?_cons_of_pos (by simpa using haj), List.find?_cons_of_pos (by simpa using haj)]
      · rw [List.find?_cons_of_neg (by simpa using haj), List.find?_cons_of_neg (by simpa using haj), ih]

theorem rowOf_map (rows : Rows) (i j : Id) (f : Rec → Rec) :
    rowOf (rows.map (fun x => if x.1 = i then (i, f x.2) else x)) j = if j = i then (rowOf rows i).map f else rowOf rows j := by
  unfold rowOf
  induction rows with
  | nil => simp
  | cons a l ih =>
    rw [List.map_cons]
    by_cases ha : a.1 = i
    · rw [if_pos ha]
      by_cases hj : j = i
      · subst hj
        rw [if_pos rfl, List.find?_cons_of_pos (by simp), List.find?_cons_of_pos (by simpa using ha)]
        rfl
      · have h1 : ¬ i = j := fun h => hj h.symm
        have h2 : ¬ a.1 = j := by rw [ha]; exact h1
        rw [List.find?_cons_of_neg (by simpa using h1), ih, if_neg hj, if_neg hj, List.find?_cons_of_neg (by simpa using h2)]
    · rw [if_neg ha]
      by_cases haj : a.1 = j
      · have hj : ¬ j = i := by rw [← haj]; exact ha
        rw [if_neg hj, List.find?_cons_of_pos (by simpa using haj), List.find?_cons_of_pos (by simpa using haj)]
      · rw [List.find?_cons_of_neg (by simpa using haj), List.find?_cons_of_neg (by simpa using ha), List.find?_cons_of_neg (by simpa using haj), ih]

theorem sameStore_step {rows : Rows} {m : Id → Option Rec} {op : Op} (h : SameStore rows m) (ho : op.Own) (hn : ∀ c, op ≠ .dropMatching c) :
    SameStore (step rows op).1 (mapStep m op (step rows op).2) := by
  cases op with
  | add i r =>
    unfold step
    simp only
    split
    · intro j; simpa [mapStep] using h j
    · rename_i hnone
      have hnone' : rowOf rows i = none := by cases e : rowOf rows i <;> simp [e] at hnone ⊢
      intro j
      have hr : rowOf (rows ++ [(i, normRec (("msg_id", .text i) :: r))]) j = if j = i then some (normRec (("msg_id", .text i) :: r)) else rowOf rows j := by
        unfold rowOf at *
        rw [List.find?_append]
        by_cases e : j = i
        · subst e
          rw [Option.map_eq_none_iff] at hnone'
          simp [hnone']
        · have : ¬ i = j := fun h => e h.symm
          simp [e, this]
      simp only [hr, mapStep]
      by_cases e : j = i
      · subst e
        simp only [if_true, Bool.false_eq_true, if_false]
        intro k hk
        rw [get_normRec _ k hk]
        by_cases hk2 : k = "msg_id"
        · subst hk2
          have : r.get "msg_id" = .text j := ho
          rw [this]; simp [Rec.get]
        · have : ¬ "msg_id" = k := fun h => hk2 h.symm
          simp [Rec.get, this]
      · simp only [e, if_false, Bool.false_eq_true]
        exact h j
  | update i new =>
    unfold step
    simp only
    split
    · intro j; simpa [mapStep] using h j
    · intro j
      simp only [rowOf_map rows i j (fun r => normRec (new ++ r)), mapStep]
      by_cases e : j = i
      · subst e
        have := h j
        simp only [if_true, Bool.false_eq_true, if_false]
        cases e1 : rowOf rows j with
        | none =>
          cases e2 : m j with
          | none => simp
          | some r => simp [e1, e2] at this
        | some row =>
          cases e2 : m j with
          | none => simp [e1, e2] at this
          | some r =>
            simp only [e1, e2] at this
            simp only [Option.map_some]
            intro k hk
            rw [get_normRec _ k hk, get_append, get_append]
            split
            · rfl
            · rw [this k hk, norm_norm]
      · simp only [e, if_false, Bool.false_eq_true]
        exact h j
  | drop i =>
    intro j
    simp only [step, rowOf_filter, mapStep]
    by_cases e : j = i
    · simp [e]
    · simp only [e, if_false, Bool.false_eq_true]; exact h j
  | dropMatching c => exact absurd rfl (hn c)

/-- **C36 (store)** After any history of add/update/drop, SQLiteDB holds the same ids as a plain map and the same value in every column, as
`reads_back` says. -/
theorem sqlite_like_map (ops : List Op) (ho : ∀ op ∈ ops, op.Own) (hn : ∀ op ∈ ops, ∀ c, op ≠ .dropMatching c) :
    SameStore (both ops).1 (both ops).2 := by
  have gen : ∀ (ops : List Op), (∀ op ∈ ops, op.Own) → (∀ op ∈ ops, ∀ c, op ≠ .dropMatching c) → ∀ rm : Rows × (Id → Option Rec), SameStore rm.1 rm.2 →
      SameStore (ops.foldl (fun rm op => ((step rm.1 op).1, mapStep rm.2 op (step rm.1 op).2)) rm).1
        (ops.foldl (fun rm op => ((step rm.1 op).1, mapStep rm.2 op (step rm.1 op).2)) rm).2 := by
    intro ops
    induction ops with
    | nil => intro _ _ rm h; exact h
    | cons op ops ih =>
      intro ho hn rm h
      exact ih (fun o h => ho o (List.mem_cons_of_mem _ h)) (fun o h => hn o (List.mem_cons_of_mem _ h)) _
        (sameStore_step h (ho op (List.mem_cons_self ..)) (hn op (List.mem_cons_self ..)))
  exact gen ops ho hn _ (by intro i; simp [rowOf])

example : (rowOf (both exOps).1 "a").map (fun r => (r.get "completed", r.get "result_buffers")) = some (.date 5, .bufs [7]) := by decide

/-- **C36 (errors)** Which calls of SQLiteDB raise: adding an id that is there, and updating with no column or with a key that is no column; dropping never does.
A call that raises changes nothing. -/
theorem raises_iff (rows : Rows) (i : Id) (r : Rec) :
    ((step rows (.add i r)).2 = true ↔ ∃ x ∈ rows, x.1 = i) ∧
    ((step rows (.update i r)).2 = true ↔ r = [] ∨ ∃ k, k ∉ columns ∧ ∃ v, (k, v) ∈ r) ∧
    (step rows (.drop i)).2 = false ∧
    ∀ op, (step rows op).2 = true → (step rows op).1 = rows := by
  refine ⟨?_, ?_, rfl, ?_⟩
  · unfold step rowOf
    simp only [Option.isSome_map, List.find?_isSome, decide_eq_true_eq]
    split <;> simp_all
  · unfold step
    simp only [List.any_eq_true, decide_eq_true_eq]
    constructor
    · intro h
      split at h
      · rename_i hc
        rcases hc with ⟨x, hx, hk⟩ | h0
        · exact Or.inr ⟨x.1, hk, x.2, hx⟩
        · exact Or.inl h0
      · cases h
    · intro h
      rw [if_pos]
      rcases h with h | ⟨k, hk, v, hv⟩
      · exact Or.inr h
      · exact Or.inl ⟨(k, v), hv, hk⟩
  · intro op h
    cases op with
    | add i r => unfold step at h ⊢; simp only at h ⊢; split at h <;> simp_all
    | update i r => unfold step at h ⊢; simp only at h ⊢; split at h <;> simp_all
    | drop i => simp [step] at h
    | dropMatching c =>
      unfold step at h ⊢
      simp only at h ⊢
      split at h
      · rfl
      · split at h
        · cases h
        · simp_all

example : (step [("a", exRec "a" 1 0)] (.update "a" [("completed", .date 1), ("nonsense", .null)])).2 = true := by decide

/-! ### where the two databases differ -/

/-- **C36 is violated**: the empty query (used by `db_query({})`) returns everything from DictDB and is a syntax error for SQLite. -/
theorem empty_query_violated (s : State) : IPP.DB.find s [] none = some (s.records.map Prod.snd) ∧ find s.records [] = .error .syntaxError := by
  constructor
  · have h : matchAll [] s.records = some s.records := by
      generalize s.records = l
      induction l with
      | nil => rfl
      | cons a l ih => rcases a with ⟨i, r⟩; simp [matchAll, matchOne, ih]
    simp [IPP.DB.find, h]
  · rfl

/-- **C36 is violated**: `{'completed': {'$ne': t}}` finds unfinished tasks in DictDB but not in SQLite (NULL != t is NULL). -/
theorem ne_null_violated :
    let s := IPP.DB.run exCfg [.add "a" (exRec "a" 1 0)]
    let check : Check := [("completed", .ops [.ne (.date 5)])]
    IPP.DB.find s check none = some [exRec "a" 1 0] ∧ find s.records check = .ok [] := by
  exact ⟨by decide, by rfl⟩

/-- **C36 is violated**: `$in []` finds nothing in DictDB and is a syntax error for SQLite (e.g. purging an empty list of ids). -/
theorem empty_in_violated :
    let s := IPP.DB.run exCfg [.add "a" (exRec "a" 1 0)]
    let check : Check := [("msg_id", .ops [.isin []])]
    IPP.DB.find s check none = some [] ∧ find s.records check = .error .syntaxError := by
  exact ⟨by decide, by rfl⟩

/-- **C36 is violated**: `$gt` is right in SQLite and wrong in DictDB. -/
theorem gt_disagree_violated :
    let s := IPP.DB.run { exCfg with recordLimit := 10 } [.add "a" (exRec "a" 1 0), .add "b" (exRec "b" 3 0)]
    let check : Check := [("submitted", .ops [.gt (.date 2)])]
    IPP.DB.find s check none = some [exRec "a" 1 0] ∧ find s.records check = .ok [exRec "b" 3 0] := by
  exact ⟨by decide, by rfl⟩

/-- **C36 is violated**: updating an unknown id raises KeyError in DictDB and is silently ignored by SQLite. -/
theorem update_unknown_violated :
    (IPP.DB.step exCfg init (.update "a" [("completed", .date 1)])).2 = .keyError ∧ step [] (.update "a" [("completed", .date 1)]) = ([], false) := by
  decide

end IPP.DB.Sql
