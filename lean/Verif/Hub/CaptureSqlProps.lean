import Verif.Hub.CaptureSql
import Verif.Hub.CaptureFields
import Verif.DB.SqliteProps
/-!
# What the hub records with the SQLite database (C59, C61)

After every history the table holds what the in-memory database without limits holds, column by column, as SQLite gives it back.
-/
namespace IPP.Capture

open IPP.DB IPP.DB.Sql

/-! ### specification -/

/-- errors and results that are reported are not empty dicts -/
def Filled (evs : List CEv) : Prop := ∀ m c, (CEv.iopub m (.error c) ∈ evs ∨ CEv.iopub m (.executeResult c) ∈ evs) → c ≠ 0

/-- the row gives back the record: every column as it was put in, but for an empty list of buffers, which reads as None, and the two columns `error` and `execute_result`, which read as text -/
def GivesBack (row r : Rec) : Prop := ∀ k ∈ columns, (r.get k = .bufs [] ∧ row.get k = .null) ∨
  (∃ n, r.get k = .obj n ∧ (k = "error" ∨ k = "execute_result") ∧ row.get k = .text (jsonText n)) ∨ row.get k = r.get k

/-! ### proofs -/

theorem givesBack_norm (r : Rec) : GivesBack (normRec r) r := by
  intro k hk
  rw [get_normRec r k hk]
  cases h : r.get k with
  | bufs l =>
    cases l with
    | nil => exact .inl ⟨rfl, rfl⟩
    | cons => exact .inr (.inr rfl)
  | obj n =>
    by_cases hk' : k = "error" ∨ k = "execute_result"
    · exact .inr (.inl ⟨n, rfl, hk', by simp [norm, hk']⟩)
    · exact .inr (.inr (by simp [norm, hk']))
  | _ => exact .inr (.inr rfl)

theorem normRec_congr {a b : Rec} (h : ∀ k ∈ columns, norm k (a.get k) = norm k (b.get k)) : normRec a = normRec b := by
  unfold normRec
  apply List.map_congr_left
  intro k hk
  rw [h k hk]

theorem normRec_app (a r : Rec) : normRec (a ++ normRec r) = normRec (a ++ r) := by
  apply normRec_congr
  intro k hk
  rw [IPP.DB.get_append, IPP.DB.get_append]
  split
  · rfl
  · rw [get_normRec r k hk, norm_norm]

/-- the fields that SQLite gives back as text are not empty dicts -/
def Full (r : Rec) : Prop := r.get "error" ≠ .obj 0 ∧ r.get "execute_result" ≠ .obj 0

theorem jsonText_ne (n : Nat) : jsonText n ≠ "" := by
  intro h
  have := congrArg String.length h
  simp only [jsonText, String.length_append] at this
  have h1 : "{".length = 1 := rfl
  have h2 : "".length = 0 := rfl
  omega

theorem truthy_norm {k : Key} {r : Rec} (h : Full r) : truthy (norm k (r.get k)) = truthy (r.get k) := by
  cases hv : r.get k with
  | bufs l => cases l <;> simp [norm, truthy]
  | obj n =>
    by_cases hk : k = "error" ∨ k = "execute_result"
    · have hn : n ≠ 0 := by
        rintro rfl
        rcases hk with rfl | rfl
        · exact h.1 hv
        · exact h.2 hv
      simp [norm, hk, truthy, hn, jsonText_ne]
    · simp [norm, hk, truthy]
  | _ => rfl

theorem resub_col : "resubmitted" ∈ columns := by decide

theorem normRec_merge (k : Kind) (m : Id) (q : Req) (e : Rec) (h : Full e) :
    normRec (merge k (normRec e) (resubmitPop k (normRec e) (initRecord k m q)) ++ normRec e) = normRec (merge k e (resubmitPop k e (initRecord k m q)) ++ e) := by
  apply normRec_congr
  intro key hk
  have ht : truthy ((normRec e).get "resubmitted") = truthy (e.get "resubmitted") := by rw [get_normRec e _ resub_col, truthy_norm h]
  have hv : truthy ((normRec e).get key) = truthy (e.get key) := by rw [get_normRec e _ hk, truthy_norm h]
  have hp : (resubmitPop k (normRec e) (initRecord k m q)).get key = (resubmitPop k e (initRecord k m q)).get key := by rw [get_pop, get_pop, ht]
  have hm : (∃ kv ∈ merge k (normRec e) (resubmitPop k (normRec e) (initRecord k m q)), kv.1 = key) ↔ (∃ kv ∈ merge k e (resubmitPop k e (initRecord k m q)), kv.1 = key) := by
    rw [mem_keys_merge, mem_keys_merge, mem_keys_pop, mem_keys_pop, ht, hv, hp]
  rw [IPP.DB.get_append, IPP.DB.get_append]
  by_cases hx : ∃ kv ∈ merge k e (resubmitPop k e (initRecord k m q)), kv.1 = key
  · rw [if_pos hx, if_pos (hm.2 hx), get_merge, get_merge, hv, hp]
    split
    · rw [get_normRec e key hk, norm_norm]
    · rfl
  · rw [if_neg hx, if_neg (fun h => hx (hm.1 h)), get_normRec e key hk, norm_norm]

theorem init_keys (k : Kind) (m : Id) (q : Req) : (initRecord k m q).map Prod.fst = columns := rfl

theorem row_keys (r : Rec) : (normRec r).map Prod.fst = columns := by
  unfold normRec
  rw [List.map_map]
  exact (List.map_congr_left (fun _ _ => rfl)).trans (List.map_id _)

theorem merge_cols (k : Kind) (m : Id) (q : Req) (e : Rec) : (merge k (normRec e) (resubmitPop k (normRec e) (initRecord k m q))).any (fun kv => kv.1 ∉ columns) = false := by
  rw [List.any_eq_false]
  intro kv hkv
  have : ∃ x ∈ merge k (normRec e) (resubmitPop k (normRec e) (initRecord k m q)), x.1 = kv.1 := ⟨kv, hkv, rfl⟩
  rw [mem_keys_merge, mem_keys_pop] at this
  simp only [decide_not, Bool.not_eq_true', decide_eq_false_iff_not, Decidable.not_not, Bool.not_eq_false, decide_eq_true_eq]
  rcases this with ⟨-, h, -⟩ | ⟨h, -⟩
  · refine Classical.byContradiction fun hx => ?_
    rw [get_not_mem (by rw [row_keys]; exact hx)] at h
    simp [truthy] at h
  · rw [init_keys] at h; exact h

theorem merge_ne (k : Kind) (m : Id) (q : Req) (e : Rec) : merge k e (resubmitPop k e (initRecord k m q)) ≠ [] := by
  intro h
  have : ∃ kv ∈ merge k e (resubmitPop k e (initRecord k m q)), kv.1 = "msg_id" := by
    rw [mem_keys_merge, mem_keys_pop]
    exact .inr ⟨by rw [init_keys]; decide, by simp⟩
  rw [h] at this
  simp at this

/-- the calls of the database, as seen for one id -/
theorem call_update (s : SHub) (i m : Id) (new : Rec) (h1 : new.any (fun kv => kv.1 ∉ columns) = false) (h2 : new ≠ []) :
    rowOf (s.call (.update i new)).rows m = if m = i then (rowOf s.rows i).map (fun r => normRec (new ++ r)) else rowOf s.rows m := by
  have : ¬ (new.any (fun kv => kv.1 ∉ columns) = true ∨ new = []) := by rw [h1]; simp [h2]
  simp only [SHub.call, Sql.step]
  rw [if_neg this]
  exact rowOf_map s.rows i m (fun r => normRec (new ++ r))

theorem call_bad (s : SHub) (i : Id) (new : Rec) (h1 : new.any (fun kv => kv.1 ∉ columns) = true) : (s.call (.update i new)).rows = s.rows := by
  simp only [SHub.call, Sql.step]
  rw [if_pos (.inl h1)]

theorem call_add (s : SHub) (i m : Id) (r : Rec) (h : rowOf s.rows i = none) (ho : r.get "msg_id" = .text i) :
    rowOf (s.call (.add i r)).rows m = if m = i then some (normRec r) else rowOf s.rows m := by
  simp only [SHub.call, Sql.step]
  rw [if_neg (by simp [h])]
  have hn : normRec (("msg_id", .text i) :: r) = normRec r := by
    apply normRec_congr
    intro k _
    by_cases e : "msg_id" = k
    · subst e; rw [ho]; simp [Rec.get]
    · simp [Rec.get, e]
  simp only [hn]
  unfold rowOf at *
  rw [List.find?_append]
  by_cases e : m = i
  · subst e
    rw [Option.map_eq_none_iff] at h
    simp [h]
  · have : ¬ i = m := fun h => e h.symm
    simp [e, this]

theorem call_drop (s : SHub) (i m : Id) : rowOf (s.call (.drop i)).rows m = if m = i then none else rowOf s.rows m := by
  simp only [SHub.call, Sql.step]
  exact rowOf_filter s.rows i m

theorem result_cols (k : Kind) (r : Rep) : (resultFields k r).any (fun kv => kv.1 ∉ columns) = false ∧ resultFields k r ≠ [] := by
  constructor
  · rw [List.any_eq_false]
    intro kv hkv
    cases k <;> simp only [resultFields, List.cons_append, List.nil_append, List.append_nil, List.mem_cons, List.not_mem_nil, or_false] at hkv
    · rcases hkv with rfl | rfl | rfl | rfl | rfl | rfl | rfl <;> simp [columns]
    · rcases hkv with rfl | rfl | rfl | rfl | rfl | rfl | rfl | rfl <;> simp [columns]
  · simp [resultFields]

/-- what an event does to the row of `m`, given the record it stands for -/
theorem row_step (s : SHub) (old : Id → Option Rec) (h : ∀ m, rowOf s.rows m = (old m).map normRec) (hf : ∀ m r, old m = some r → Full r) (e : CEv) (m : Id) :
    rowOf (stepSql s e).rows m = (recStep m (m ∈ s.pending) (m ∈ s.done) (old m) e).map normRec := by
  cases e with
  | request k i q =>
    have hr : (stepSql s (.request k i q)).rows = (s.call (match rowOf s.rows i with
      | some existing => .update i (merge k existing (resubmitPop k existing (initRecord k i q)))
      | none => .add i (initRecord k i q))).rows := rfl
    rw [hr, h i]
    cases ho : old i with
    | none =>
      simp only [Option.map_none]
      rw [call_add s i m _ (by rw [h i, ho]; rfl) (init_msg k i q)]
      by_cases e : m = i
      · subst e; simp [recStep, ho]
      · have : ¬ i = m := fun x => e x.symm
        simp [recStep, e, this, h m]
    | some x =>
      simp only [Option.map_some]
      rw [call_update s i m _ (merge_cols k i q x) (merge_ne k i q _)]
      by_cases e : m = i
      · subst e
        simp only [recStep, ho, if_true, h m, Option.map_some]
        rw [normRec_merge k m q x (hf m x ho)]
      · have : ¬ i = m := fun x => e x.symm
        simp [recStep, e, this, h m]
  | result k i r =>
    have hc := result_cols k r
    have key : ∀ s' : SHub, s'.rows = s.rows → rowOf (s'.call (.update i (resultFields k r))).rows m = if m = i then (old i).map (fun x => normRec (resultFields k r ++ x)) else (old m).map normRec := by
      intro s' hs'
      rw [call_update s' i m _ hc.1 hc.2, hs', h i, h m]
      cases old i with
      | none => rfl
      | some x => simp [normRec_app]
    simp only [stepSql, resultSql, recStep]
    by_cases hp : i ∈ s.pending
    · rw [if_pos hp]
      refine (key { s with pending := _, done := _ } rfl).trans ?_
      by_cases e : m = i
      · subst e; simp [hp, Function.comp_def]
      · have : ¬ i = m := fun x => e x.symm
        simp [e, this]
    · rw [if_neg hp]
      cases k with
      | task =>
        simp only [h m]
        by_cases e : i = m
        · subst e; simp [hp]
        · simp [e]
      | mux u =>
        simp only
        by_cases hd : i ∈ s.done
        · rw [if_pos hd, key _ rfl]
          by_cases e : m = i
          · subst e; simp [hd, Function.comp_def]
          · have : ¬ i = m := fun x => e x.symm
            simp [e, this]
        · rw [if_neg hd, h m]
          by_cases e : i = m
          · subst e; simp [hp, hd]
          · simp [e]
  | destination i u =>
    simp only [stepSql, recStep]
    rw [call_update s i m _ (by simp [columns]) (by simp), h i, h m]
    by_cases e : m = i
    · subst e
      cases old m with
      | none => simp
      | some x => simp only [if_true, Option.map_some]; rw [normRec_app]
    · have : ¬ i = m := fun x => e x.symm
      simp [e, this]
  | purge i =>
    simp only [stepSql, recStep]
    by_cases hp : i ∈ s.pending
    · rw [if_pos hp, h m]
      by_cases e : i = m
      · subst e; simp [hp]
      · simp [e]
    · rw [if_neg hp, call_drop, h m]
      by_cases e : m = i
      · subst e; simp [hp]
      · have : ¬ i = m := fun x => e x.symm
        simp [e, this]
  | iopub i o =>
    have hout : outFields (rowOf s.rows i) o = outFields (old i) o := by
      rw [h i]
      cases old i with
      | none => rfl
      | some x =>
        cases o with
        | stream n t =>
          have hn : n.key ∈ columns := by cases n <;> decide
          simp only [outFields, Option.map_some, get_normRec x _ hn]
          have hk : ¬ (n.key = "error" ∨ n.key = "execute_result") := by cases n <;> simp [Stream.key]
          cases hv : x.get n.key with
          | bufs l => cases l <;> rfl
          | obj c => simp [norm, hk]
          | _ => rfl
        | _ => rfl
    simp only [stepSql, iopubSql, recStep]
    rw [hout]
    by_cases hd : outFields (old i) o = []
    · rw [if_pos hd, h m]
      by_cases e : i = m
      · subst e; simp [hd]
      · simp [e]
    · rw [if_neg hd]
      cases ho : old i with
      | none =>
        have hri : rowOf s.rows i = none := by rw [h i, ho]; rfl
        simp only [hri]
        rw [ho] at hd
        rw [call_add s i m _ hri (empty_msg i o)]
        by_cases e : m = i
        · subst e; simp [ho, hd, Rec.update]
        · have : ¬ i = m := fun x => e x.symm
          simp [e, this, h m]
      | some x =>
        have hri : rowOf s.rows i = some (normRec x) := by rw [h i, ho]; rfl
        simp only [hri]
        rw [ho] at hd
        by_cases hcols : (outFields (some x) o).any (fun kv => kv.1 ∉ columns) = true
        · rw [call_bad s i _ hcols, h m]
          by_cases e : i = m
          · subst e
            rw [ho]
            simp only [Option.map_some, true_and]
            rw [if_pos hd]
            simp only [Option.map_some, Option.getD_some, Option.some.injEq]
            -- the message is display data
            cases o with
            | displayData c =>
              apply normRec_congr
              intro k hk
              have : ¬ "display_data" = k := by rintro rfl; revert hk; decide
              rw [IPP.DB.get_append, if_neg (by simp [outFields, this])]
            | stream n t => cases n <;> simp [outFields, columns, Stream.key] at hcols
            | error c => simp [outFields, columns] at hcols
            | input c => simp [outFields, columns] at hcols
            | executeResult c => simp [outFields, columns] at hcols
            | ignored => simp [outFields] at hd
          · simp [e]
        · have hcols : (outFields (some x) o).any (fun kv => kv.1 ∉ columns) = false := by simpa using hcols
          rw [call_update s i m _ hcols hd, hri]
          by_cases e : m = i
          · subst e; simp [ho, hd, normRec_app]
          · have : ¬ i = m := fun x => e x.symm
            simp [e, this, h m]

theorem full_app {a r : Rec} (ha : Full a) (hr : Full r) : Full (a ++ r) := by
  constructor <;> rw [IPP.DB.get_append] <;> split
  · exact ha.1
  · exact hr.1
  · exact ha.2
  · exact hr.2

theorem full_step (m : Id) (p d : Bool) (old : Option Rec) (e : CEv) (hf : Filled [e]) (h : ∀ r, old = some r → Full r) : ∀ r, recStep m p d old e = some r → Full r := by
  intro r hr
  cases e with
  | request k i q =>
    simp only [recStep] at hr
    split at hr
    · cases old with
      | none => simp only [Option.some.injEq] at hr; subst hr; exact ⟨by simp [init_last k m q (key := "error") (by simp [lastKeys])], by
          simp [init_last k m q (key := "execute_result") (by simp [lastKeys])]⟩
      | some x =>
        simp only [Option.some.injEq] at hr
        subst hr
        have hx := h x rfl
        refine full_app ⟨?_, ?_⟩ hx
        · have hn : (resubmitPop k x (initRecord k m q)).get "error" = .null := by
            rw [get_pop, init_last k m q (key := "error") (by simp [lastKeys])]; split <;> rfl
          rw [get_merge, hn]
          split
          · exact hx.1
          · simp
        · have hn : (resubmitPop k x (initRecord k m q)).get "execute_result" = .null := by
            rw [get_pop, init_last k m q (key := "execute_result") (by simp [lastKeys])]; split <;> rfl
          rw [get_merge, hn]
          split
          · exact hx.2
          · simp
    · exact h r hr
  | result k i r' =>
    simp only [recStep] at hr
    split at hr
    · cases old with
      | none => simp at hr
      | some x =>
        simp only [Option.map_some, Option.some.injEq] at hr
        subst hr
        exact full_app ⟨by cases k <;> simp [resultFields, Rec.get], by cases k <;> simp [resultFields, Rec.get]⟩ (h x rfl)
    · exact h r hr
  | destination i u =>
    simp only [recStep] at hr
    split at hr
    · cases old with
      | none => simp at hr
      | some x =>
        simp only [Option.map_some, Option.some.injEq] at hr
        subst hr
        exact full_app ⟨by simp [Rec.get], by simp [Rec.get]⟩ (h x rfl)
    · exact h r hr
  | purge i =>
    simp only [recStep] at hr
    split at hr
    · cases hr
    · exact h r hr
  | iopub i o =>
    simp only [recStep] at hr
    split at hr
    · simp only [Option.some.injEq] at hr
      subst hr
      refine full_app ?_ ?_
      · cases o with
        | error c =>
          have := hf i c (.inl (by simp))
          exact ⟨by simp [outFields, Rec.get, this], by simp [outFields, Rec.get]⟩
        | executeResult c =>
          have := hf i c (.inr (by simp))
          exact ⟨by simp [outFields, Rec.get], by simp [outFields, Rec.get, this]⟩
        | stream n t => cases n <;> exact ⟨by simp [outFields, Rec.get, Stream.key], by simp [outFields, Rec.get, Stream.key]⟩
        | _ => exact ⟨by simp [outFields, Rec.get], by simp [outFields, Rec.get]⟩
      · cases old with
        | none => exact ⟨by simp [empty_last m (key := "error") (by simp [lastKeys])], by simp [empty_last m (key := "execute_result") (by simp [lastKeys])]⟩
        | some x => exact h x rfl
    · exact h r hr

/-! ### an in-memory database that is large enough -/

theorem maybeCull_big (c : Cfg) (s : State) (h1 : s.records.length ≤ c.recordLimit) (h2 : s.bytes ≤ c.sizeLimit) : maybeCull c s = (s, false) := by
  have h1 : ¬ s.records.length > c.recordLimit := by omega
  simp only [maybeCull, if_neg h1]
  rw [if_neg (by omega)]

/-- with limits this large an operation ends the same, and culls nothing -/
theorem op_big (s : State) (op : Op) (hn : ∀ ch, op ≠ .dropMatching ch) : ∃ (L : Nat) (s' : State), s'.culled = s.culled ∧
    ∀ c : Cfg, L ≤ c.recordLimit → (L : Int) ≤ c.sizeLimit → (IPP.DB.step c s op).1 = s' := by
  cases op with
  | add i r =>
    by_cases h1 : (lookup s i).isSome
    · exact ⟨0, s, rfl, fun c _ _ => by simp [IPP.DB.step, h1]⟩
    · by_cases h2 : datesOk r = true
      · refine ⟨(s.records ++ [(i, r)]).length + (s.bytes + recBytes r).toNat, { s with records := s.records ++ [(i, r)], bytes := s.bytes + recBytes r }, rfl, fun c a b => ?_⟩
        have hb := maybeCull_big c { s with records := s.records ++ [(i, r)], bytes := s.bytes + recBytes r } (by simp only; omega) (by simp only; omega)
        simp [IPP.DB.step, h1, h2, hb]
      · exact ⟨0, s, rfl, fun c _ _ => by simp [IPP.DB.step, h1, h2]⟩
  | update i new =>
    by_cases h1 : i ∈ s.culled
    · exact ⟨0, s, rfl, fun c _ _ => by simp [IPP.DB.step, h1]⟩
    · by_cases h2 : datesOk new = true
      · cases h3 : lookup s i with
        | none => exact ⟨0, s, rfl, fun c _ _ => by simp [IPP.DB.step, h1, h2, h3]⟩
        | some old =>
          refine ⟨(s.records.map (fun x => if x.1 = i then (i, old.update new) else x)).length + (s.bytes - recBytes old + recBytes (old.update new)).toNat,
            { s with records := s.records.map (fun x => if x.1 = i then (i, old.update new) else x), bytes := s.bytes - recBytes old + recBytes (old.update new) }, rfl, fun c a b => ?_⟩
          have hb := maybeCull_big c { s with records := s.records.map (fun x => if x.1 = i then (i, old.update new) else x), bytes := s.bytes - recBytes old + recBytes (old.update new) }
            (by simp only; omega) (by simp only; omega)
          simp [IPP.DB.step, h1, h2, h3, hb]
      · exact ⟨0, s, rfl, fun c _ _ => by simp [IPP.DB.step, h1, h2]⟩
  | drop i =>
    cases h : lookup s i with
    | none => exact ⟨0, s, rfl, fun c _ _ => by simp [IPP.DB.step, h]⟩
    | some r => exact ⟨0, erase s i, by simp [erase, h], fun c _ _ => by simp [IPP.DB.step, h]⟩
  | dropMatching ch => exact absurd rfl (hn ch)

theorem cop_not_matching (s : CHub) (e : CEv) (op : Op) (h : cop s e = some op) : ∀ ch, op ≠ .dropMatching ch := by
  intro ch hx
  subst hx
  cases e with
  | request k m q => simp only [cop, Option.some.injEq] at h; cases hg : get s.db m <;> rw [hg] at h <;> cases h
  | result k m r => simp only [cop] at h; split at h <;> cases h
  | destination m u => cases h
  | iopub m o => simp only [cop] at h; split at h; · cases h
                 · cases hg : get s.db m <;> rw [hg] at h <;> cases h
  | purge m => simp only [cop] at h; split at h <;> cases h

theorem tables_const (c c' : Cfg) (s : CHub) (e : CEv) : (cstep c s e).pending = (cstep c' s e).pending ∧ (cstep c s e).done = (cstep c' s e).done := by
  cases e with
  | request k m q => exact ⟨rfl, rfl⟩
  | result k m r =>
    simp only [cstep, result]
    by_cases h : m ∈ s.pending
    · simp [h]
    · cases k with
      | mux u => by_cases h2 : m ∈ s.done <;> simp [h, h2]
      | task => simp [h]
  | destination m u => exact ⟨rfl, rfl⟩
  | iopub m o =>
    simp only [cstep, iopub]
    cases h : get s.db m with
    | none => by_cases h2 : outFields none o = [] <;> simp [h2]
    | some r => by_cases h2 : outFields (some r) o = [] <;> simp [h2]
  | purge m => by_cases h : m ∈ s.pending <;> simp [cstep, purge, h]

/-- for every history there are limits from which on nothing is evicted -/
theorem big (evs : List CEv) : ∃ (L : Nat) (X : CHub), X.db.culled = [] ∧ ∀ c : Cfg, L ≤ c.recordLimit → (L : Int) ≤ c.sizeLimit → crun c evs = X := by
  refine snoc_ind (P := fun evs => ∃ (L : Nat) (X : CHub), X.db.culled = [] ∧ ∀ c : Cfg, L ≤ c.recordLimit → (L : Int) ≤ c.sizeLimit → crun c evs = X) ?_ ?_ evs
  · exact ⟨0, chub0, rfl, fun _ _ _ => rfl⟩
  · rintro evs e ⟨L, X, hX, h⟩
    obtain ⟨L', s', h1, h2⟩ : ∃ (L' : Nat) (s' : State), s'.culled = X.db.culled ∧ ∀ c : Cfg, L' ≤ c.recordLimit → (L' : Int) ≤ c.sizeLimit → (cstep c X e).db = s' := by
      cases hop : cop X e with
      | none => exact ⟨0, X.db, rfl, fun c _ _ => by rw [cstep_db, hop]⟩
      | some op =>
        obtain ⟨L', s', a, b⟩ := op_big X.db op (cop_not_matching X e op hop)
        exact ⟨L', s', a, fun c x y => by rw [cstep_db, hop]; exact b c x y⟩
    refine ⟨L + L', ⟨s', (cstep ⟨0, 0, 0, 0⟩ X e).pending, (cstep ⟨0, 0, 0, 0⟩ X e).done⟩, h1.trans hX, fun c a b => ?_⟩
    rw [crun_snoc, h c (by omega) (by omega)]
    have hd := h2 c (by omega) (by omega)
    have ht := tables_const c ⟨0, 0, 0, 0⟩ X e
    cases hs : cstep c X e with
    | mk db p d => rw [hs] at hd ht; simp only at hd ht; simp [hd, ht.1, ht.2]

theorem tables_sql (c : Cfg) (s : SHub) (t : CHub) (e : CEv) (h1 : s.pending = t.pending) (h2 : s.done = t.done) :
    (stepSql s e).pending = (cstep c t e).pending ∧ (stepSql s e).done = (cstep c t e).done := by
  cases e with
  | request k m q => simp [stepSql, requestSql, SHub.call, cstep, request, h1, h2]
  | result k m r =>
    simp only [cstep, result, stepSql, resultSql]
    by_cases h : m ∈ t.pending
    · simp [h1, h2, h, SHub.call]
    · cases k with
      | mux u => by_cases h3 : m ∈ t.done <;> simp [h1, h2, h, h3, SHub.call]
      | task => simp [h1, h2, h]
  | destination m u => exact ⟨h1, h2⟩
  | iopub m o =>
    have a : (stepSql s (.iopub m o)).pending = s.pending ∧ (stepSql s (.iopub m o)).done = s.done := by
      simp only [stepSql, iopubSql]
      split
      · exact ⟨rfl, rfl⟩
      · split <;> exact ⟨rfl, rfl⟩
    have b := tables_out c t m o
    exact ⟨a.1.trans (h1.trans b.1.symm), a.2.trans (h2.trans b.2.symm)⟩
  | purge m => by_cases h : m ∈ t.pending <;> simp [stepSql, cstep, purge, h1, h2, h, SHub.call]

/-- **C59, C61 (SQLite)** For every history: a hub with the SQLite database has the same tasks pending and completed, and the same records as the in-memory database with large enough limits; every
column of a record is what SQLite gives back of it. -/
theorem sql_same (evs : List CEv) (hf : Filled evs) : ∃ c : Cfg, (crun c evs).db.culled = [] ∧ (crun c (silent evs)).db.culled = [] ∧
    (runSql evs).pending = (crun c evs).pending ∧ (runSql evs).done = (crun c evs).done ∧
    ∀ m, rowOf (runSql evs).rows m = (IPP.DB.get (crun c evs).db m).map normRec := by
  obtain ⟨L, X, hX, hL⟩ := big evs
  obtain ⟨L', X', hX', hL'⟩ := big (silent evs)
  refine ⟨⟨L + L', 0, (L + L' : Nat), 0⟩, by rw [hL _ (by simp) (by simp only; omega)]; exact hX, by rw [hL' _ (by simp) (by simp only; omega)]; exact hX', ?_⟩
  have hcul : (crun ⟨L + L', 0, (L + L' : Nat), 0⟩ evs).db.culled = [] := by rw [hL _ (by simp) (by simp only; omega)]; exact hX
  generalize (⟨L + L', 0, (L + L' : Nat), 0⟩ : Cfg) = c at hcul
  clear hL hL' hX hX' L L' X X'
  suffices h : (runSql evs).pending = (crun c evs).pending ∧ (runSql evs).done = (crun c evs).done ∧ (∀ m, rowOf (runSql evs).rows m = (lookup (crun c evs).db m).map normRec) ∧
      ∀ m r, lookup (crun c evs).db m = some r → Full r by
    refine ⟨h.1, h.2.1, fun m => ?_⟩
    rw [h.2.2.1 m, get_uncut (by rw [hcul]; simp)]
  revert hcul hf
  refine snoc_ind (P := fun evs => Filled evs → (crun c evs).db.culled = [] → (runSql evs).pending = (crun c evs).pending ∧ (runSql evs).done = (crun c evs).done ∧
    (∀ m, rowOf (runSql evs).rows m = (lookup (crun c evs).db m).map normRec) ∧ ∀ m r, lookup (crun c evs).db m = some r → Full r) ?_ ?_ evs
  · intro _ _
    exact ⟨rfl, rfl, fun m => rfl, fun m r h => by cases h⟩
  · intro evs e ih hf hcul
    have hsn : runSql (evs ++ [e]) = stepSql (runSql evs) e := by simp [runSql]
    rw [crun_snoc] at hcul ⊢
    rw [hsn]
    have hI := cinv_run c evs
    have hcul0 : (crun c evs).db.culled = [] := by
      cases hx : (crun c evs).db.culled with
      | nil => rfl
      | cons a l => exact absurd (by rw [hx]; simp) (culled_step c hI e (m := a) (by rw [hcul]; simp))
    obtain ⟨h1, h2, h3, h4⟩ := ih (fun m c h => hf m c (h.imp (List.mem_append_left _) (List.mem_append_left _))) hcul0
    have ht := tables_sql c (runSql evs) (crun c evs) e h1 h2
    have hl : ∀ m, lookup (cstep c (crun c evs) e).db m = recStep m (m ∈ (crun c evs).pending) (m ∈ (crun c evs).done) (lookup (crun c evs).db m) e :=
      fun m => look_step c hI e (by rw [hcul]; simp)
    refine ⟨ht.1, ht.2, fun m => ?_, fun m r hr => ?_⟩
    · rw [hl m, row_step (runSql evs) (lookup (crun c evs).db) h3 h4 e m, h1, h2]
    · rw [hl m] at hr
      exact full_step m _ _ _ e (fun m c h => hf m c (by simp only [List.mem_singleton] at h; simp only [List.mem_append, List.mem_singleton]; exact h.imp .inr .inr)) (h4 m) r hr

/-! ### C59 -/

theorem row_get {evs : List CEv} (hf : Filled evs) (m : Id) (row : Rec) (h : rowOf (runSql evs).rows m = some row) : ∃ c r, (crun c evs).db.culled = [] ∧
    IPP.DB.get (crun c evs).db m = some r ∧ row = normRec r := by
  obtain ⟨c, h1, -, -, -, h5⟩ := sql_same evs hf
  rw [h5 m] at h
  cases hg : IPP.DB.get (crun c evs).db m with
  | none => rw [hg] at h; cases h
  | some r => rw [hg] at h; cases h; exact ⟨c, r, h1, hg, rfl⟩

/-- **C59 (streams, SQLite)** The recorded stdout and stderr of a task are everything it wrote, in order. -/
theorem sql_streams_complete (evs : List CEv) (hf : Filled evs) (m : Id) (hp : NoPurge m evs) (row : Rec) (h : rowOf (runSql evs).rows m = some row) (n : Stream) :
    row.get n.key = .text (said n m evs) := by
  obtain ⟨c, r, -, h2, rfl⟩ := row_get hf m row h
  rw [get_normRec r _ (by cases n <;> decide), streams_complete c evs m hp r h2 n]
  rfl

/-- **C59 (recorded, SQLite)** A task that was requested or that produced output has a record. -/
theorem sql_output_recorded (evs : List CEv) (hf : Filled evs) (m : Id) (hp : NoPurge m evs) (e : CEv) (he : e ∈ evs) (ho : e.isOut m = true ∨ e.isRequest m = true) :
    ∃ row, rowOf (runSql evs).rows m = some row := by
  obtain ⟨c, h1, -, -, -, h5⟩ := sql_same evs hf
  obtain ⟨r, hr⟩ := output_recorded c evs m hp (by rw [h1]; simp) e he ho
  exact ⟨_, by rw [h5 m, hr]; rfl⟩

/-- **C59 (input, SQLite)** The recorded input is the one reported last (if not empty). -/
theorem sql_last_input_partial (evs : List CEv) (hf : Filled evs) (m : Id) (hp : NoPurge m evs)
    (ht : ∀ e ∈ evs, ∀ v, valueOf "execute_input" m e = some v → truthy v = true) (row : Rec) (h : rowOf (runSql evs).rows m = some row) :
    row.get "execute_input" = (lastOf (valueOf "execute_input" m) evs).getD .null := by
  obtain ⟨c, r, -, h2, rfl⟩ := row_get hf m row h
  rw [get_normRec r _ (by decide), last_report_kept_partial c evs m hp "execute_input" (by simp [lastKeys]) ht r h2]
  have : ∀ evs v, lastOf (valueOf "execute_input" m) evs = some v → ∃ s, v = .text s := by
    intro evs
    induction evs with
    | nil => intro v hv; cases hv
    | cons e evs ih =>
      intro v hv
      simp only [lastOf] at hv
      cases hl : lastOf (valueOf "execute_input" m) evs with
      | some w => rw [hl] at hv; simp only [Option.some_or, Option.some.injEq] at hv; subst hv; exact ih _ hl
      | none =>
        rw [hl] at hv
        simp only [Option.none_or] at hv
        cases e with
        | iopub i o => cases o <;> simp [valueOf] at hv; exact ⟨_, hv.2.symm⟩
        | _ => simp [valueOf] at hv
  cases hl : lastOf (valueOf "execute_input" m) evs with
  | none => rfl
  | some v => obtain ⟨s, rfl⟩ := this evs v hl; rfl

/-- **C59 (SQLite), violated**: the error and the result that were reported last are recorded, but read back as text: a client that fetches the result from the hub gets a string where the
in-memory database gives a dict, and `metadata.execute_result.get` raises AttributeError. -/
theorem sql_error_as_text_violated (evs : List CEv) (hf : Filled evs) (m : Id) (hp : NoPurge m evs) (row : Rec) (h : rowOf (runSql evs).rows m = some row) (n : Nat) (key : Key)
    (hk : key = "error" ∨ key = "execute_result") (hl : lastOf (valueOf key m) evs = some (.obj n)) : row.get key = .text (jsonText n) := by
  obtain ⟨c, r, -, h2, rfl⟩ := row_get hf m row h
  have hkl : key ∈ lastKeys := by rcases hk with rfl | rfl <;> simp [lastKeys]
  have hc : key ∈ columns := by rcases hk with rfl | rfl <;> decide
  rw [get_normRec r _ hc, last_report_kept_partial c evs m hp key hkl ?_ r h2, hl]
  · simp [norm, hk]
  · intro e he v hv
    cases e with
    | iopub i o =>
      cases o with
      | error c' =>
        have := hf i c' (.inl he)
        simp only [valueOf] at hv
        split at hv <;> cases hv
        simp [truthy, this]
      | executeResult c' =>
        have := hf i c' (.inr he)
        simp only [valueOf] at hv
        split at hv <;> cases hv
        simp [truthy, this]
      | displayData c' => simp only [valueOf] at hv; split at hv; · rename_i hx; rcases hk with rfl | rfl <;> simp at hx
                          · cases hv
      | input c' => simp only [valueOf] at hv; split at hv; · rename_i hx; rcases hk with rfl | rfl <;> simp at hx
                    · cases hv
      | stream n t => cases hv
      | ignored => cases hv
    | _ => cases hv

/-- **C59 (SQLite), violated**: rich output is not recorded at all: the table has no column for it. -/
theorem sql_display_lost_violated (evs : List CEv) (hf : Filled evs) (m : Id) (row : Rec) (h : rowOf (runSql evs).rows m = some row) : row.get "display_data" = .null := by
  obtain ⟨c, r, -, -, rfl⟩ := row_get hf m row h
  exact get_not_mem (by rw [row_keys]; decide)

theorem tables_const' (c c' : Cfg) (s t : CHub) (e : CEv) (h1 : s.pending = t.pending) (h2 : s.done = t.done) : (cstep c s e).pending = (cstep c' t e).pending ∧ (cstep c s e).done = (cstep c' t e).done := by
  have a := tables_sql c ⟨[], s.pending, s.done⟩ s e rfl rfl
  have b := tables_sql c' ⟨[], s.pending, s.done⟩ t e h1 h2
  exact ⟨a.1.symm.trans b.1, a.2.symm.trans b.2⟩

/-- limits that evict nothing do not matter -/
theorem same_look (evs : List CEv) (c c' : Cfg) (h : (crun c evs).db.culled = []) (h' : (crun c' evs).db.culled = []) (m : Id) : lookup (crun c evs).db m = lookup (crun c' evs).db m := by
  suffices H : (crun c evs).pending = (crun c' evs).pending ∧ (crun c evs).done = (crun c' evs).done ∧ ∀ m, lookup (crun c evs).db m = lookup (crun c' evs).db m from H.2.2 m
  revert h h'
  refine snoc_ind (P := fun evs => (crun c evs).db.culled = [] → (crun c' evs).db.culled = [] → (crun c evs).pending = (crun c' evs).pending ∧
    (crun c evs).done = (crun c' evs).done ∧ ∀ m, lookup (crun c evs).db m = lookup (crun c' evs).db m) ?_ ?_ evs
  · intro _ _; exact ⟨rfl, rfl, fun _ => rfl⟩
  · intro evs e ih h h'
    rw [crun_snoc] at h h' ⊢
    rw [crun_snoc]
    have back : ∀ c, (cstep c (crun c evs) e).db.culled = [] → (crun c evs).db.culled = [] := by
      intro c hcul
      cases hx : (crun c evs).db.culled with
      | nil => rfl
      | cons a l => exact absurd (by rw [hx]; simp) (culled_step c (cinv_run c evs) e (m := a) (by rw [hcul]; simp))
    obtain ⟨h1, h2, h3⟩ := ih (back c h) (back c' h')
    have ht := tables_const' c c' (crun c evs) (crun c' evs) e h1 h2
    refine ⟨ht.1, ht.2, fun m => ?_⟩
    rw [look_step c (cinv_run c evs) e (m := m) (by rw [h]; simp), look_step c' (cinv_run c' evs) e (m := m) (by rw [h']; simp), h1, h2, h3 m]

/-- **C59 (no interference, SQLite)** Every column but those of the output is what it would be without the output; the tables of pending and completed tasks too. -/
theorem sql_output_does_not_interfere_partial (evs : List CEv) (hf : Filled evs) (m : Id) (hp : NoPurge m evs) (hd : DestOrdered m evs) (row row' : Rec)
    (h : rowOf (runSql evs).rows m = some row) (h' : rowOf (runSql (silent evs)).rows m = some row') (k : Key) (hk : k ∉ outKeys) (hc : k ∈ columns) : row.get k = row'.get k := by
  have hfs : Filled (silent evs) := fun m c h => hf m c (h.imp (fun x => (List.mem_filter.1 x).1) (fun x => (List.mem_filter.1 x).1))
  obtain ⟨c, a1, a2, -, -, a5⟩ := sql_same evs hf
  obtain ⟨c', b1, -, -, -, b5⟩ := sql_same (silent evs) hfs
  rw [a5 m] at h
  rw [b5 m] at h'
  cases hg : IPP.DB.get (crun c evs).db m with
  | none => rw [hg] at h; cases h
  | some r =>
    cases hg' : IPP.DB.get (crun c' (silent evs)).db m with
    | none => rw [hg'] at h'; cases h'
    | some r' =>
      rw [hg] at h; cases h
      rw [hg'] at h'; cases h'
      rw [get_normRec r k hc, get_normRec r' k hc]
      have hs : lookup (crun c (silent evs)).db m = lookup (crun c' (silent evs)).db m := same_look (silent evs) c c' a2 b1 m
      rw [output_does_not_interfere_partial c evs m hp hd r r' hg (by rw [get_uncut (by rw [a2]; simp), hs, (get_of hg').2]) k hk]

/-! ### C61 -/

/-- **C61 (request, SQLite)** While a task is not purged, its row gives back the record that tells exactly the request that was submitted. -/
theorem sql_request_recorded (m : Id) (k : Kind) (q : Req) (a b : List CEv) (hf : Filled (a ++ .request k m q :: b)) (ha : ∀ e ∈ a, e.isRequest m = false)
    (hb : ∀ e ∈ b, e.isRequest m = false) (hp : NoPurge m (a ++ .request k m q :: b)) :
    ∃ row r, rowOf (runSql (a ++ .request k m q :: b)).rows m = some row ∧ Tells r k m q ∧ GivesBack row r := by
  obtain ⟨c, h1, -, -, -, h5⟩ := sql_same _ hf
  obtain ⟨r, h, ht⟩ := request_recorded c m k q a b ha hb hp (by rw [h1]; simp)
  exact ⟨normRec r, r, by rw [h5 m, h]; rfl, ht, givesBack_norm r⟩

/-- **C61 (result, SQLite)** The first result that arrives after a request is what the row tells as the result (but for further results of a direct queue). -/
theorem sql_result_recorded_partial (m : Id) (k k' : Kind) (q : Req) (p : Rep) (a0 a1 b : List CEv) (hf : Filled (a0 ++ .request k' m q :: a1 ++ .result k m p :: b))
    (ha : ∀ e ∈ a1, e.isResult m = false) (hb : ∀ e ∈ b, e.isRequest m = false) (hmux : ∀ e ∈ b, e.isMuxResult m = false)
    (hp : NoPurge m (a0 ++ .request k' m q :: a1 ++ .result k m p :: b)) :
    ∃ row r, rowOf (runSql (a0 ++ .request k' m q :: a1 ++ .result k m p :: b)).rows m = some row ∧ TellsResult r p ∧ GivesBack row r := by
  obtain ⟨c, h1, -, -, -, h5⟩ := sql_same _ hf
  obtain ⟨r, h, ht⟩ := result_recorded_partial c m k k' q p a0 a1 b ha hb hmux hp (by rw [h1]; simp)
  exact ⟨normRec r, r, by rw [h5 m, h]; rfl, ht, givesBack_norm r⟩

/-- **C61 (destination, SQLite)** After the scheduler has announced where a task runs, its row names that engine. -/
theorem sql_destination_recorded (m : Id) (u : String) (a b : List CEv) (hf : Filled (a ++ .destination m u :: b)) (hreq : ∃ e ∈ a, e.isRequest m = true) (hb : ∀ e ∈ b, e.places m = false)
    (hp : NoPurge m (a ++ .destination m u :: b)) : ∃ row, rowOf (runSql (a ++ .destination m u :: b)).rows m = some row ∧ row.get "engine_uuid" = .text u := by
  obtain ⟨c, h1, -, -, -, h5⟩ := sql_same _ hf
  obtain ⟨r, h, ht⟩ := destination_recorded c m u a b hreq hb hp (by rw [h1]; simp)
  exact ⟨normRec r, by rw [h5 m, h]; rfl, by rw [get_normRec r _ (by decide), ht]; rfl⟩

/-- **C61 (engine of the result, SQLite)** -/
theorem sql_result_engine_recorded (m : Id) (k' : Kind) (q : Req) (p : Rep) (a0 a1 b : List CEv) (hf : Filled (a0 ++ .request k' m q :: a1 ++ .result .task m p :: b))
    (ha : ∀ e ∈ a1, e.isResult m = false) (hb : ∀ e ∈ b, e.places m = false) (hp : NoPurge m (a0 ++ .request k' m q :: a1 ++ .result .task m p :: b)) :
    ∃ row, rowOf (runSql (a0 ++ .request k' m q :: a1 ++ .result .task m p :: b)).rows m = some row ∧ row.get "engine_uuid" = .text p.engine := by
  obtain ⟨c, h1, -, -, -, h5⟩ := sql_same _ hf
  obtain ⟨r, h, ht⟩ := result_engine_recorded c m k' q p a0 a1 b ha hb hp (by rw [h1]; simp)
  exact ⟨normRec r, by rw [h5 m, h]; rfl, by rw [get_normRec r _ (by decide), ht]; rfl⟩

/-! ### a case -/

/-- output before the request, a result, an error and a display -/
def exSql : List CEv := [.iopub "t" (.stream .stdout "hello "), .request .task "t" exQ, .destination "t" "E", .iopub "t" (.stream .stdout "world"), .iopub "t" (.error 3), .iopub "t" (.displayData 5),
  .result .task "t" exR, .iopub "t" (.executeResult 4)]

theorem exSql_filled : Filled exSql := by
  intro m c h
  simp only [exSql, List.mem_cons, List.not_mem_nil, or_false, reduceCtorEq, false_or, CEv.iopub.injEq, Out.error.injEq, Out.executeResult.injEq, and_false] at h
  omega

/-- the hypotheses of the theorems above are met -/
example : NoPurge "t" exSql ∧ DestOrdered "t" exSql ∧ (∃ row, rowOf (runSql exSql).rows "t" = some row) ∧ (∃ row, rowOf (runSql (silent exSql)).rows "t" = some row) ∧
    lastOf (valueOf "error" "t") exSql = some (.obj 3) := by
  refine ⟨by unfold NoPurge; decide +kernel, ?_, Option.isSome_iff_exists.1 (by decide +kernel), Option.isSome_iff_exists.1 (by decide +kernel), by decide +kernel⟩
  intro pre u post h
  refine ⟨.request .task "t" exQ, ?_, by simp [CEv.isRequest]⟩
  match pre, h with
  | [], h => simp [exSql] at h
  | [_], h => simp [exSql] at h
  | a :: b :: pre, h =>
    simp only [exSql, List.cons_append, List.cons.injEq] at h
    simp [← h.2.1]

example : ∃ row r, rowOf (runSql exSql).rows "t" = some row ∧ Tells r .task "t" exQ ∧ GivesBack row r :=
  sql_request_recorded "t" .task exQ (exSql.take 1) (exSql.drop 2) exSql_filled (by decide) (by decide) (by unfold NoPurge; decide +kernel)

example : ∃ row r, rowOf (runSql exSql).rows "t" = some row ∧ TellsResult r exR ∧ GivesBack row r :=
  sql_result_recorded_partial "t" .task .task exQ exR (exSql.take 1) ((exSql.drop 2).take 4) (exSql.drop 7) exSql_filled (by decide) (by decide) (by decide) (by unfold NoPurge; decide +kernel)

example : ∃ row, rowOf (runSql exSql).rows "t" = some row ∧ row.get "engine_uuid" = .text exR.engine :=
  sql_result_engine_recorded "t" .task exQ exR (exSql.take 1) ((exSql.drop 2).take 4) (exSql.drop 7) exSql_filled (by decide) (by decide) (by unfold NoPurge; decide +kernel)

end IPP.Capture
