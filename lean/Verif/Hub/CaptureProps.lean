import Verif.Hub.Capture
/-!
# Output captured by the hub (C59)
-/
namespace IPP.Capture

open IPP.DB

/-! ### specification -/

/-- Everything the task `m` wrote to a stream, in the order in which the hub heard of it. -/
def said (n : Stream) (m : Id) : List CEv → String
  | [] => ""
  | .iopub m' (.stream n' t) :: evs => (if m' = m ∧ n' = n then t else "") ++ said n m evs
  | _ :: evs => said n m evs

/-- the value reported last, if any -/
def lastOf {α : Type} (f : CEv → Option α) : List CEv → Option α
  | [] => none
  | e :: evs => (lastOf f evs).or (f e)

/-- the value that a message reports for one of these fields -/
def valueOf (key : Key) (m : Id) : CEv → Option Val
  | .iopub m' (.error c) => if m' = m ∧ key = "error" then some (.obj c) else none
  | .iopub m' (.executeResult c) => if m' = m ∧ key = "execute_result" then some (.obj c) else none
  | .iopub m' (.displayData c) => if m' = m ∧ key = "display_data" then some (.obj c) else none
  | .iopub m' (.input code) => if m' = m ∧ key = "execute_input" then some (.text code) else none
  | _ => none

/-- the fields in which output is kept -/
def outKeys : List Key := ["stdout", "stderr", "error", "execute_input", "execute_result", "display_data"]

/-- the same traffic without the output -/
def silent (evs : List CEv) : List CEv := evs.filter (fun | .iopub .. => false | _ => true)

/-- is this output that is recorded? -/
def CEv.isOut (m : Id) : CEv → Bool
  | .iopub m' o => m' = m ∧ o ≠ .ignored
  | _ => false

def CEv.isRequest (m : Id) : CEv → Bool
  | .request _ m' _ => m' = m
  | _ => false

/-! ### the record of one message -/

/-- what an event does to the record of `m` while nothing is evicted -/
def recStep (m : Id) (pend don : Bool) (old : Option Rec) : CEv → Option Rec
  | .request k m' q => if m' = m then
      (match old with
       | some e => some (merge k e (resubmitPop k e (initRecord k m q)) ++ e)
       | none => some (initRecord k m q))
    else old
  | .result k m' r => if m' = m ∧ (pend ∨ (k ≠ .task ∧ don)) then old.map (fun e => resultFields k r ++ e) else old
  | .destination m' u => if m' = m then old.map (fun e => [("engine_uuid", .text u)] ++ e) else old
  | .iopub m' o => if m' = m ∧ outFields old o ≠ [] then some (outFields old o ++ old.getD (emptyRecord m)) else old
  | .purge m' => if m' = m ∧ ¬ pend then none else old

structure CInv (s : CHub) : Prop where
  inv : Inv s.db
  dates : ∀ x ∈ s.db.records, datesOk x.2 = true

theorem get_app (a b : Rec) (k : Key) : Rec.get (a ++ b) k = if ∃ kv ∈ a, kv.1 = k then Rec.get a k else Rec.get b k := get_append a b k

theorem datesOk_iff (r : Rec) : datesOk r = true ↔ ∀ k ∈ ["submitted", "started", "completed", "received"], r.get k = .null ∨ ∃ t, r.get k = .date t := by
  unfold datesOk
  rw [List.all_eq_true]
  apply forall_congr'
  intro k
  apply imp_congr_right
  intro _
  cases r.get k <;> simp

theorem datesOk_app {a b : Rec} (ha : datesOk a = true) (hb : datesOk b = true) : datesOk (a ++ b) = true := by
  rw [datesOk_iff] at *
  intro k hk
  rw [get_app]
  split
  · exact ha k hk
  · exact hb k hk

theorem culled_mono {c : Cfg} {s : State} {op : Op} (h : Inv s) (ho : op.Own) {i : Id} (hi : i ∈ s.culled) : i ∈ (step c s op).1.culled := by
  have r := step_rel c s op
  generalize (step c s op).1 = s' at r
  generalize (step c s op).2 = res at r
  cases r with
  | raise => exact hi
  | add j r _ _ hn hr hc =>
    have h1 := inv_append h hn ho
    exact Classical.byContradiction fun hx => ((hc _ rfl h1).2.2.look i hx).1 hi
  | update j old new _ _ hn hcul hr hc =>
    have h1 := inv_replace (r := old.update new) h hn (own_update (h.own _ (lookup_mem hn)) ho)
    exact Classical.byContradiction fun hx => ((hc _ rfl h1).2.2.look i hx).1 hi
  | drop j r hn => rw [erase_culled]; exact hi
  | dropM check ms hm =>
    have hf := (matchAll_eq hm).1
    have hd := dropAll_ok h ms (by rw [hf]; exact h.uniq.sublist ((List.filter_sublist).map _))
      (by rw [hf]; intro x hx; exact (List.mem_filter.1 hx).1)
    rw [hd.2.2.2]; exact hi

theorem inv_op {c : Cfg} {s : State} {op : Op} (h : Inv s) (ho : op.Own) : Inv (step c s op).1 := inv_step h ho (step_rel c s op)

theorem look_op {c : Cfg} {s : State} {op : Op} (h : Inv s) (ho : op.Own) {m : Id} (hm : m ∉ (step c s op).1.culled) :
    lookup (step c s op).1 m = mapStep (lookup s) op (step c s op).2.raised m :=
  agree_step h ho (step_rel c s op) (fun _ _ => rfl) m hm

theorem dates_op {c : Cfg} {s : State} {op : Op} (h : Inv s) (ho : op.Own) (hd : ∀ x ∈ s.records, datesOk x.2 = true)
    (hop : match op with
      | .dropMatching _ => False
      | _ => True) :
    ∀ x ∈ (step c s op).1.records, datesOk x.2 = true := by
  cases op with
  | dropMatching => exact hop.elim
  | drop i =>
    intro x hx
    simp only [step] at hx
    split at hx
    · exact hd x hx
    · rw [erase_records] at hx
      exact hd x (List.mem_filter.1 hx).1
  | add i r =>
    by_cases hok : datesOk r = true
    · have rl := step_rel c s (.add i r)
      generalize (step c s (.add i r)).1 = s' at rl
      generalize (step c s (.add i r)).2 = res at rl
      cases rl with
      | raise => exact hd
      | add _ _ _ _ hn hr hc =>
        have h1 := inv_append h hn ho
        intro x hx
        have := (hc _ rfl h1).2.2.oldest.1 x hx
        simp only [List.mem_append, List.mem_singleton] at this
        rcases this with h2 | rfl
        · exact hd x h2
        · exact hok
    · have : (step c s (.add i r)).1 = s := by
        simp only [step, hok]
        split <;> simp
      rw [this]; exact hd
  | update i new =>
    by_cases hok : datesOk new = true
    · have rl := step_rel c s (.update i new)
      generalize (step c s (.update i new)).1 = s' at rl
      generalize (step c s (.update i new)).2 = res at rl
      cases rl with
      | raise => exact hd
      | update _ old _ _ _ hn hcul hr hc =>
        have h1 := inv_replace (r := old.update new) h hn (own_update (h.own _ (lookup_mem hn)) ho)
        intro x hx
        have := (hc _ rfl h1).2.2.oldest.1 x hx
        simp only [List.mem_map] at this
        rcases this with ⟨y, hy, rfl⟩
        split
        · exact datesOk_app hok (hd _ (lookup_mem hn))
        · exact hd y hy
    · have : (step c s (.update i new)).1 = s := by
        simp only [step, hok]
        split <;> simp
      rw [this]; exact hd

theorem look_add {c : Cfg} {s : State} {i : Id} {r : Rec} (h : Inv s) (ho : r.get "msg_id" = .text i) (hd : datesOk r = true) {m : Id}
    (hm : m ∉ (step c s (.add i r)).1.culled) :
    lookup (step c s (.add i r)).1 m = if m = i then some ((lookup s i).getD r) else lookup s m := by
  rw [look_op (op := .add i r) h ho hm]
  have := add_raises_iff c s i r
  simp only [hd, Bool.true_eq_false, or_false] at this
  cases hl : lookup s i with
  | some old =>
    rw [hl] at this
    simp only [Option.isSome_some, iff_true] at this
    simp only [mapStep, this, if_true]
    by_cases e : m = i
    · simp [e, hl]
    · simp [e]
  | none =>
    rw [hl] at this
    simp only [Option.isSome_none, Bool.false_eq_true, iff_false, Bool.not_eq_true] at this
    simp only [mapStep, this]
    by_cases e : m = i <;> simp [e]

theorem look_update {c : Cfg} {s : State} {i : Id} {r : Rec} (h : Inv s) (ho : Op.Own (.update i r)) (hd : datesOk r = true) {m : Id}
    (hm : m ∉ (step c s (.update i r)).1.culled) :
    lookup (step c s (.update i r)).1 m = if m = i then (lookup s i).map (fun old => r ++ old) else lookup s m := by
  have hm0 : m ∉ s.culled := fun hx => hm (culled_mono h ho hx)
  rw [look_op (op := .update i r) h ho hm]
  have := update_raises_iff c s i r
  by_cases e : m = i
  · subst e
    simp only [hd, Bool.true_eq_false, DB.get, hm0, if_false, or_false] at this
    cases hl : lookup s m with
    | none =>
      rw [hl] at this
      simp only [mapStep, hl]
      split <;> simp
    | some old =>
      rw [hl] at this
      simp only [reduceCtorEq, iff_false, Bool.not_eq_true] at this
      simp [mapStep, this, hl]
  · simp only [mapStep, e, if_false]
    split <;> rfl

/-! ### the records written -/

theorem get_one (k k' : Key) (v : Val) : Rec.get [(k', v)] k = if k' = k then v else .null := by
  unfold Rec.get
  by_cases h : k' = k <;> simp [h]

theorem get_filterMap_self (l : List Key) (p : Key → Bool) (f : Key → Val) (k : Key) :
    Rec.get (l.filterMap (fun x => if p x = true then some (x, f x) else none)) k = if k ∈ l ∧ p k = true then f k else .null := by
  induction l with
  | nil => simp [Rec.get]
  | cons a l ih =>
    by_cases ha : p a = true
    · have : (a :: l).filterMap (fun x => if p x = true then some (x, f x) else none) = [(a, f a)] ++ l.filterMap (fun x => if p x = true then some (x, f x) else none) := by
        simp [ha]
      rw [this, get_app, ih]
      by_cases e : a = k
      · subst e; simp [get_one, ha]
      · have e' : ¬ k = a := fun h => e h.symm
        simp [e, e']
    · have : (a :: l).filterMap (fun x => if p x = true then some (x, f x) else none) = l.filterMap (fun x => if p x = true then some (x, f x) else none) := by
        simp [ha]
      rw [this, ih]
      by_cases e : k = a
      · subst e; simp [ha]
      · simp [e]

theorem get_not_mem {r : Rec} {k : Key} (h : k ∉ r.map Prod.fst) : r.get k = .null := by
  unfold Rec.get
  have : r.find? (fun kv => kv.1 = k) = none := by
    rw [List.find?_eq_none]
    intro x hx e
    exact h (List.mem_map.2 ⟨x, hx, by simpa using e⟩)
  rw [this]; rfl

/-- a merged field is the old one when the old one is truthy, the new one falsy and the key compared -/
theorem get_merge (k : Kind) (e r : Rec) (key : Key) :
    (merge k e r).get key = if skipped k key = false ∧ truthy (e.get key) = true ∧ truthy (r.get key) = false then e.get key else r.get key := by
  have hp : merge k e r = ((e.map Prod.fst).filterMap (fun x => if (!skipped k x && truthy (e.get x) && !truthy (r.get x)) = true then some (x, e.get x) else none)) ++ r := by
    unfold merge
    rw [List.filterMap_map]
    congr 2
    funext x
    simp [Function.comp_apply, and_assoc]
  rw [hp, get_app]
  by_cases hc : skipped k key = false ∧ truthy (e.get key) = true ∧ truthy (r.get key) = false
  · have hmem : key ∈ e.map Prod.fst := Classical.byContradiction fun hx => by
      rw [get_not_mem hx] at hc
      simp [truthy] at hc
    rw [if_pos hc, if_pos, get_filterMap_self]
    · rw [if_pos ⟨hmem, by simp [hc.1, hc.2.1, hc.2.2]⟩]
    · exact ⟨(key, e.get key), List.mem_filterMap.2 ⟨key, hmem, by simp [hc.1, hc.2.1, hc.2.2]⟩, rfl⟩
  · rw [if_neg hc, if_neg]
    rintro ⟨kv, hkv, rfl⟩
    rcases List.mem_filterMap.1 hkv with ⟨x, hx, hs⟩
    split at hs
    · rename_i hb
      cases hs
      apply hc
      simpa [and_assoc] using hb
    · cases hs

theorem get_filter_keys (r : Rec) (ks : List Key) (k : Key) : Rec.get (r.filter (fun kv => kv.1 ∉ ks)) k = if k ∈ ks then .null else r.get k := by
  induction r with
  | nil => simp [Rec.get]
  | cons a r ih =>
    rcases a with ⟨ka, va⟩
    have hr : Rec.get ((ka, va) :: r) k = if ka = k then va else Rec.get r k := by
      rw [show (ka, va) :: r = [(ka, va)] ++ r from rfl, get_app, get_one]
      by_cases h : ka = k <;> simp [h]
    by_cases h : ka ∈ ks
    · have : ((ka, va) :: r).filter (fun kv => kv.1 ∉ ks) = r.filter (fun kv => kv.1 ∉ ks) := by simp [h]
      rw [this, ih, hr]
      by_cases e : ka = k
      · subst e; simp [h]
      · simp [e]
    · have : ((ka, va) :: r).filter (fun kv => kv.1 ∉ ks) = [(ka, va)] ++ r.filter (fun kv => kv.1 ∉ ks) := by simp [h]
      rw [this, get_app, ih, hr, get_one]
      by_cases e : ka = k
      · subst e; simp [h]
      · simp [e]

theorem get_pop (k : Kind) (e r : Rec) (key : Key) :
    (resubmitPop k e r).get key = if k = .task ∧ truthy (e.get "resubmitted") = true ∧ key ∈ ["submitted", "client_uuid", "buffers"] then .null else r.get key := by
  cases k with
  | mux u => simp [resubmitPop]
  | task =>
    by_cases h : truthy (e.get "resubmitted") = true
    · simp only [resubmitPop, h, if_true, true_and]
      exact get_filter_keys r _ key
    · simp [resubmitPop, h]

theorem init_msg (k : Kind) (m : Id) (q : Req) : (initRecord k m q).get "msg_id" = .text m := rfl

theorem init_dates (k : Kind) (m : Id) (q : Req) : datesOk (initRecord k m q) = true := rfl

theorem merged_msg (k : Kind) (e : Rec) (m : Id) (q : Req) (he : e.get "msg_id" = .text m) :
    (merge k e (resubmitPop k e (initRecord k m q))).get "msg_id" = .text m := by
  rw [get_merge, get_pop]
  simp [init_msg, he]

theorem merged_dates (k : Kind) (e : Rec) (m : Id) (q : Req) (he : datesOk e = true) :
    datesOk (merge k e (resubmitPop k e (initRecord k m q))) = true := by
  rw [datesOk_iff] at *
  intro key hk
  rw [get_merge]
  split
  · exact he key hk
  · rw [get_pop]
    split
    · exact .inl rfl
    · exact (datesOk_iff _).1 (init_dates k m q) key hk

theorem result_dates (k : Kind) (r : Rep) : datesOk (resultFields k r) = true := by
  cases k <;> cases h : r.started <;> simp [resultFields, h] <;> rfl

theorem result_own (k : Kind) (r : Rep) : ∀ kv ∈ resultFields k r, kv.1 ≠ "msg_id" ∧ kv.1 ∉ outKeys := by
  intro kv hkv
  cases k <;> simp only [resultFields, List.mem_append, List.mem_cons, List.not_mem_nil, or_false] at hkv
  · rcases hkv with rfl | rfl | rfl | rfl | rfl | rfl | rfl <;> simp [outKeys]
  · rcases hkv with (rfl | rfl | rfl | rfl | rfl | rfl | rfl) | rfl <;> simp [outKeys]

theorem out_keys (old : Option Rec) (o : Out) : ∀ kv ∈ outFields old o, kv.1 ∈ outKeys := by
  intro kv hkv
  cases o with
  | stream n t => cases n <;> simp only [outFields, List.mem_singleton] at hkv <;> subst hkv <;> simp [outKeys, Stream.key]
  | ignored => simp [outFields] at hkv
  | _ => simp only [outFields, List.mem_singleton] at hkv; subst hkv; simp [outKeys]

theorem out_dates (old : Option Rec) (o : Out) : datesOk (outFields old o) = true := by
  rw [datesOk_iff]
  intro k hk
  left
  apply get_not_mem
  intro hx
  rcases List.mem_map.1 hx with ⟨kv, hkv, rfl⟩
  have := out_keys old o kv hkv
  revert hk this
  generalize kv.1 = y
  intro hk
  simp only [List.mem_cons, List.not_mem_nil, or_false] at hk
  rcases hk with rfl | rfl | rfl | rfl <;> simp [outKeys]

/-! ### one event -/

/-- the call of the database that an event makes -/
def cop (s : CHub) : CEv → Option Op
  | .request k m q => some (match get s.db m with
    | some e => .update m (merge k e (resubmitPop k e (initRecord k m q)))
    | none => .add m (initRecord k m q))
  | .result k m r => if m ∈ s.pending ∨ (k ≠ .task ∧ m ∈ s.done) then some (.update m (resultFields k r)) else none
  | .destination m u => some (.update m [("engine_uuid", .text u)])
  | .iopub m o => if outFields (get s.db m) o = [] then none else some (match get s.db m with
    | none => .add m ((emptyRecord m).update (outFields none o))
    | some r => .update m (outFields (some r) o))
  | .purge m => if m ∈ s.pending then none else some (.drop m)

theorem cstep_db (c : Cfg) (s : CHub) (e : CEv) : (cstep c s e).db = match cop s e with
    | none => s.db
    | some op => (step c s.db op).1 := by
  cases e with
  | request k m q => rfl
  | result k m r =>
    simp only [cstep, result, cop]
    by_cases h : m ∈ s.pending
    · simp [h]
    · cases k with
      | mux u => by_cases h2 : m ∈ s.done <;> simp [h, h2]
      | task => simp [h]
  | destination m u => rfl
  | iopub m o =>
    simp only [cstep, iopub, cop]
    cases h : get s.db m with
    | none => by_cases h2 : outFields none o = [] <;> simp [h2]
    | some r => by_cases h2 : outFields (some r) o = [] <;> simp [h2]
  | purge m => by_cases h : m ∈ s.pending <;> simp [cstep, purge, cop, h]

theorem get_of {s : State} {m : Id} {r : Rec} (h : get s m = some r) : m ∉ s.culled ∧ lookup s m = some r := by
  unfold DB.get at h
  split at h
  · cases h
  · rename_i hc; exact ⟨hc, h⟩

theorem get_uncut {s : State} {m : Id} (h : m ∉ s.culled) : get s m = lookup s m := by simp [DB.get, h]

theorem empty_msg (m : Id) (o : Out) : ((emptyRecord m).update (outFields none o)).get "msg_id" = .text m := by
  unfold Rec.update
  rw [get_app, if_neg]
  · rfl
  · rintro ⟨kv, hkv, e⟩
    have := out_keys none o kv hkv
    rw [e] at this
    revert this
    simp [outKeys]

/-- timestamps in the argument are in order -/
def OpDates : Op → Prop
  | .dropMatching _ => False
  | .add _ r | .update _ r => datesOk r = true
  | .drop _ => True

theorem cop_ok {s : CHub} (h : CInv s) {e : CEv} {op : Op} (hop : cop s e = some op) : op.Own ∧ OpDates op := by
  cases e with
  | request k m q =>
    simp only [cop, Option.some.injEq] at hop
    cases hg : get s.db m <;> rw [hg] at hop <;> subst hop
    case none => exact ⟨init_msg k m q, init_dates k m q⟩
    case some e =>
      have hl := lookup_mem (get_of hg).2
      exact ⟨.inl (merged_msg k e m q (h.inv.own _ hl)), merged_dates k e m q (h.dates _ hl)⟩
  | result k m r =>
    simp only [cop] at hop
    split at hop
    · cases hop
      exact ⟨.inr fun kv hkv => (result_own k r kv hkv).1, result_dates k r⟩
    · cases hop
  | destination m u =>
    cases hop
    exact ⟨.inr fun kv hkv => by simp at hkv; simp [hkv], rfl⟩
  | iopub m o =>
    simp only [cop] at hop
    split at hop
    · cases hop
    · cases hg : get s.db m <;> rw [hg] at hop <;> simp only [Option.some.injEq] at hop <;> subst hop
      case none => exact ⟨empty_msg m o, datesOk_app (out_dates none o) rfl⟩
      case some r =>
        refine ⟨.inr fun kv hkv e => ?_, out_dates _ o⟩
        have := out_keys _ o kv hkv
        rw [e] at this
        revert this
        simp [outKeys]
  | purge m =>
    simp only [cop] at hop
    split at hop
    · cases hop
    · cases hop; exact ⟨trivial, trivial⟩

theorem cinv_step (c : Cfg) {s : CHub} (h : CInv s) (e : CEv) : CInv (cstep c s e) := by
  constructor
  · rw [cstep_db]
    cases hop : cop s e with
    | none => exact h.inv
    | some op => exact inv_op h.inv (cop_ok h hop).1
  · rw [cstep_db]
    cases hop : cop s e with
    | none => exact h.dates
    | some op =>
      have := cop_ok h hop
      exact dates_op h.inv this.1 h.dates (by cases op <;> first | trivial | exact this.2)

theorem culled_step (c : Cfg) {s : CHub} (h : CInv s) (e : CEv) {m : Id} (hm : m ∉ (cstep c s e).db.culled) : m ∉ s.db.culled := by
  intro hx
  apply hm
  rw [cstep_db]
  cases hop : cop s e with
  | none => exact hx
  | some op => exact culled_mono h.inv (cop_ok h hop).1 hx

/-- the record of `m` after an event -/
theorem look_step (c : Cfg) {s : CHub} (h : CInv s) (e : CEv) {m : Id} (hm : m ∉ (cstep c s e).db.culled) :
    lookup (cstep c s e).db m = recStep m (m ∈ s.pending) (m ∈ s.done) (lookup s.db m) e := by
  have hm0 := culled_step c h e hm
  rw [cstep_db] at hm ⊢
  cases hop : cop s e with
  | none =>
    simp only
    cases e with
    | request => simp [cop] at hop
    | result k m' r =>
      simp only [cop] at hop
      split at hop
      · cases hop
      · rename_i hn
        simp only [recStep]
        rw [if_neg]
        rintro ⟨rfl, hx⟩
        exact hn (by simpa using hx)
    | destination => simp [cop] at hop
    | iopub m' o =>
      simp only [cop] at hop
      split at hop
      · rename_i hn
        simp only [recStep]
        rw [if_neg]
        rintro ⟨rfl, hx⟩
        rw [get_uncut hm0] at hn
        exact hx hn
      · cases hop
    | purge m' =>
      simp only [cop] at hop
      split at hop
      · rename_i hn
        simp only [recStep]
        rw [if_neg]
        rintro ⟨rfl, hx⟩
        exact hx (by simpa using hn)
      · cases hop
  | some op =>
    rw [hop] at hm
    simp only at hm ⊢
    have ho := cop_ok h hop
    cases e with
    | request k m' q =>
      simp only [cop, Option.some.injEq] at hop
      cases hg : get s.db m' with
      | none =>
        rw [hg] at hop
        subst hop
        rw [look_add h.inv ho.1 ho.2 hm]
        simp only [recStep]
        by_cases e : m' = m
        · subst e
          have hl : lookup s.db m' = none := by rw [← get_uncut hm0]; exact hg
          simp [hl]
        · have e' : ¬ m = m' := fun x => e x.symm
          simp [e, e']
      | some ex =>
        rw [hg] at hop
        subst hop
        rw [look_update h.inv ho.1 ho.2 hm]
        simp only [recStep]
        by_cases e : m' = m
        · subst e
          simp [(get_of hg).2]
        · have e' : ¬ m = m' := fun x => e x.symm
          simp [e, e']
    | result k m' r =>
      simp only [cop] at hop
      split at hop
      · rename_i hn
        cases hop
        rw [look_update h.inv ho.1 ho.2 hm]
        simp only [recStep]
        by_cases e : m' = m
        · subst e
          rw [if_pos rfl, if_pos]
          exact ⟨rfl, by simpa using hn⟩
        · have e' : ¬ m = m' := fun x => e x.symm
          simp [e, e']
      · cases hop
    | destination m' u =>
      cases hop
      rw [look_update h.inv ho.1 ho.2 hm]
      simp only [recStep]
      by_cases e : m' = m
      · subst e; simp
      · have e' : ¬ m = m' := fun x => e x.symm
        simp [e, e']
    | iopub m' o =>
      simp only [cop] at hop
      split at hop
      · cases hop
      · rename_i hn
        cases hg : get s.db m' with
        | none =>
          rw [hg] at hop hn
          cases hop
          rw [look_add h.inv ho.1 ho.2 hm]
          simp only [recStep]
          by_cases e : m' = m
          · subst e
            have hl : lookup s.db m' = none := by rw [← get_uncut hm0]; exact hg
            simp [hl, hn, Rec.update]
          · have e' : ¬ m = m' := fun x => e x.symm
            simp [e, e']
        | some r =>
          rw [hg] at hop hn
          cases hop
          rw [look_update h.inv ho.1 ho.2 hm]
          simp only [recStep]
          by_cases e : m' = m
          · subst e
            simp [(get_of hg).2, hn]
          · have e' : ¬ m = m' := fun x => e x.symm
            simp [e, e']
    | purge m' =>
      simp only [cop] at hop
      split at hop
      · cases hop
      · rename_i hn
        cases hop
        rw [look_op h.inv ho.1 hm]
        simp only [recStep, mapStep]
        by_cases e : m' = m
        · subst e
          have := drop_raises_iff c s.db m'
          cases hl : lookup s.db m' with
          | none => simp
          | some r =>
            rw [hl] at this
            simp only [reduceCtorEq, iff_false, Bool.not_eq_true] at this
            simp [this, hn]
        · have e' : ¬ m = m' := fun x => e x.symm
          simp [e, e']

theorem cinv_run (c : Cfg) (evs : List CEv) : CInv (crun c evs) := by
  unfold crun
  have gen : ∀ (evs : List CEv) (s : CHub), CInv s → CInv (evs.foldl (cstep c) s) := by
    intro evs
    induction evs with
    | nil => intro s h; exact h
    | cons e evs ih => intro s h; exact ih _ (cinv_step c h e)
  exact gen evs _ ⟨inv_init, by simp [chub0, init]⟩

theorem crun_snoc (c : Cfg) (evs : List CEv) (e : CEv) : crun c (evs ++ [e]) = cstep c (crun c evs) e := by simp [crun]

theorem snoc_ind {α : Type} {P : List α → Prop} (h0 : P []) (h1 : ∀ l a, P l → P (l ++ [a])) : ∀ l, P l := by
  intro l
  have : ∀ n (l : List α), l.length = n → P l := by
    intro n
    induction n with
    | zero => intro l hl; rw [List.length_eq_zero_iff.1 hl]; exact h0
    | succ n ih =>
      intro l hl
      have hne : l ≠ [] := by intro e; rw [e] at hl; cases hl
      rw [← List.dropLast_concat_getLast hne]
      exact h1 _ _ (ih _ (by simp [hl]))
  exact this _ l rfl

/-! ### C59: streams -/

theorem said_snoc (n : Stream) (m : Id) (evs : List CEv) (e : CEv) : said n m (evs ++ [e]) = said n m evs ++ said n m [e] := by
  induction evs with
  | nil => simp [said]
  | cons a evs ih =>
    cases a with
    | iopub m' o => cases o <;> simp [said, ih, String.append_assoc]
    | _ => simp [said, ih]

/-- not a message that purges `m` -/
def NoPurge (m : Id) (evs : List CEv) : Prop := CEv.purge m ∉ evs

/-- what a record of `m` must contain, or that there is no reason to have one -/
def Told (m : Id) (evs : List CEv) : Option Rec → Prop
  | some r => ∀ n : Stream, r.get n.key = .text (said n m evs)
  | none => ∀ e ∈ evs, e.isOut m = false ∧ e.isRequest m = false

theorem said_silent (n : Stream) (m : Id) (evs : List CEv) (h : ∀ e ∈ evs, e.isOut m = false) : said n m evs = "" := by
  induction evs with
  | nil => rfl
  | cons a evs ih =>
    have h1 := ih (fun e he => h e (List.mem_cons_of_mem _ he))
    have h2 := h a (List.mem_cons_self)
    cases a with
    | iopub m' o =>
      cases o with
      | stream n' t =>
        simp only [CEv.isOut, decide_eq_false_iff_not, ne_eq, reduceCtorEq, not_false_eq_true, and_true] at h2
        simp [said, h1, h2]
      | _ => simp [said, h1]
    | _ => simp [said, h1]

theorem init_stream (k : Kind) (m : Id) (q : Req) (n : Stream) : (initRecord k m q).get n.key = .text "" := by
  cases n <;> rfl

theorem empty_stream (m : Id) (n : Stream) : (emptyRecord m).get n.key = .text "" := by
  cases n <;> rfl

theorem stream_key_out (n : Stream) : n.key ∈ outKeys := by cases n <;> simp [outKeys, Stream.key]

theorem merged_out (k : Kind) (e : Rec) (m : Id) (q : Req) (key : Key) (hk : key ∈ outKeys) :
    (merge k e (resubmitPop k e (initRecord k m q)) ++ e).get key =
      if truthy (e.get key) then e.get key else if key = "display_data" then e.get key else (initRecord k m q).get key := by
  have hsk : skipped k key = false := by
    simp only [outKeys, List.mem_cons, List.not_mem_nil, or_false] at hk
    rcases hk with rfl | rfl | rfl | rfl | rfl | rfl <;> cases k <;> simp [skipped]
  have hpop : (resubmitPop k e (initRecord k m q)).get key = (initRecord k m q).get key := by
    rw [get_pop, if_neg]
    rintro ⟨-, -, hx⟩
    revert hx
    simp only [outKeys, List.mem_cons, List.not_mem_nil, or_false] at hk
    rcases hk with rfl | rfl | rfl | rfl | rfl | rfl <;> simp
  have hfal : truthy ((initRecord k m q).get key) = false := by
    simp only [outKeys, List.mem_cons, List.not_mem_nil, or_false] at hk
    rcases hk with rfl | rfl | rfl | rfl | rfl | rfl <;> cases k <;> rfl
  rw [get_app]
  by_cases ht : truthy (e.get key) = true
  · simp only [get_merge, hpop, ht, hsk, hfal, and_self, if_true]
    split <;> rfl
  · rw [if_neg ht]
    by_cases hd : key = "display_data"
    · subst hd
      rw [if_pos rfl, if_neg]
      rintro ⟨kv, hkv, he⟩
      unfold merge at hkv
      rcases List.mem_append.1 hkv with hx | hx
      · rcases List.mem_filterMap.1 hx with ⟨y, -, hs⟩
        split at hs
        · rename_i hb
          cases hs
          simp only at he
          rw [he] at hb
          exact ht hb.2.1
        · cases hs
      · have hx' : kv ∈ initRecord k m q := by
          cases k with
          | mux u => exact hx
          | task =>
            simp only [resubmitPop] at hx
            split at hx
            · exact (List.mem_filter.1 hx).1
            · exact hx
        have : "display_data" ∈ (initRecord k m q).map Prod.fst := List.mem_map.2 ⟨kv, hx', he⟩
        revert this
        simp [initRecord]
    · rw [if_neg hd, if_pos]
      · rw [get_merge, if_neg (by simp [ht]), hpop]
      · refine ⟨(key, (initRecord k m q).get key), ?_, rfl⟩
        unfold merge
        apply List.mem_append_right
        have hin : (key, (initRecord k m q).get key) ∈ initRecord k m q := by
          simp only [outKeys, List.mem_cons, List.not_mem_nil, or_false, hd] at hk
          rcases hk with rfl | rfl | rfl | rfl | rfl <;> simp [initRecord, Rec.get]
        cases k with
        | mux u => exact hin
        | task =>
          simp only [resubmitPop]
          split
          · refine List.mem_filter.2 ⟨hin, ?_⟩
            simp only [outKeys, List.mem_cons, List.not_mem_nil, or_false, hd] at hk
            rcases hk with rfl | rfl | rfl | rfl | rfl <;> simp
          · exact hin

theorem app_result_out (k : Kind) (r : Rep) (e : Rec) (key : Key) (hk : key ∈ outKeys) : (resultFields k r ++ e).get key = e.get key := by
  rw [get_app, if_neg]
  rintro ⟨kv, hkv, he⟩
  exact (result_own k r kv hkv).2 (he ▸ hk)

theorem app_dest_out (u : String) (e : Rec) (key : Key) (hk : key ∈ outKeys) : ([("engine_uuid", .text u)] ++ e : Rec).get key = e.get key := by
  rw [get_app, if_neg]
  rintro ⟨kv, hkv, he⟩
  simp only [List.mem_singleton] at hkv
  subst hkv
  simp only at he
  subst he
  revert hk
  simp [outKeys]

theorem told_step (m : Id) (pend don : Bool) (evs : List CEv) (e : CEv) (hp : e ≠ .purge m) {old : Option Rec} (h : Told m evs old) :
    Told m (evs ++ [e]) (recStep m pend don old e) := by
  have keep : (∀ n, said n m [e] = "") → (e.isOut m = false) → (e.isRequest m = false) → Told m (evs ++ [e]) old := by
    intro h1 h2 h3
    cases old with
    | some r => intro n; rw [said_snoc, h1, String.append_empty]; exact h n
    | none =>
      intro x hx
      rcases List.mem_append.1 hx with hx | hx
      · exact h x hx
      · rw [List.mem_singleton.1 hx]; exact ⟨h2, h3⟩
  cases e with
  | request k m' q =>
    simp only [recStep]
    by_cases e : m' = m
    · subst e
      rw [if_pos rfl]
      cases old with
      | some r =>
        intro n
        show (merge k r _ ++ r).get n.key = _
        rw [merged_out k r m' q n.key (stream_key_out n), said_snoc]
        have hn := h n
        have hd : ¬ n.key = "display_data" := by cases n <;> simp [Stream.key]
        simp only [hd, if_false]
        rw [hn, init_stream]
        simp only [said, String.append_empty]
        by_cases hs : said n m' evs = "" <;> simp [truthy, hs]
      | none =>
        intro n
        show (initRecord k m' q).get n.key = _
        rw [init_stream, said_snoc, said_silent n m' evs (fun e he => (h e he).1)]
        rfl
    · rw [if_neg e]
      exact keep (fun _ => rfl) rfl (by simp [CEv.isRequest, e])
  | result k m' r =>
    simp only [recStep]
    have hk := keep (fun _ => rfl) rfl rfl
    split
    · cases old with
      | none => exact hk
      | some e =>
        intro n
        show (resultFields k r ++ e).get n.key = _
        rw [app_result_out k r e _ (stream_key_out n)]
        exact hk n
    · exact hk
  | destination m' u =>
    simp only [recStep]
    have hk := keep (fun _ => rfl) rfl rfl
    split
    · cases old with
      | none => exact hk
      | some e =>
        intro n
        show Rec.get ([("engine_uuid", Val.text u)] ++ e) n.key = _
        rw [app_dest_out u e _ (stream_key_out n)]
        exact hk n
    · exact hk
  | purge m' =>
    simp only [recStep]
    rw [if_neg]
    · exact keep (fun _ => rfl) rfl rfl
    · rintro ⟨rfl, -⟩
      exact hp rfl
  | iopub m' o =>
    simp only [recStep]
    by_cases e : m' = m
    · subst e
      by_cases hne : outFields old o = []
      · rw [if_neg (by simp [hne])]
        have ho : o = .ignored := by cases o <;> simp_all [outFields]
        subst ho
        exact keep (fun _ => rfl) (by simp [CEv.isOut]) rfl
      · rw [if_pos ⟨rfl, hne⟩]
        have base : ∀ n : Stream, (old.getD (emptyRecord m')).get n.key = .text (said n m' evs) := by
          intro n
          cases old with
          | some r => exact h n
          | none => rw [said_silent n m' evs (fun e he => (h e he).1)]; exact empty_stream m' n
        intro n
        show (outFields old o ++ old.getD (emptyRecord m')).get n.key = _
        rw [get_app, said_snoc]
        have other : (¬ ∃ kv ∈ outFields old o, kv.1 = n.key) → said n m' [.iopub m' o] = "" →
            (if ∃ kv ∈ outFields old o, kv.1 = n.key then Rec.get (outFields old o) n.key else Rec.get (old.getD (emptyRecord m')) n.key) =
              .text (said n m' evs ++ said n m' [.iopub m' o]) := by
          intro h1 h2
          rw [if_neg h1, h2, String.append_empty]
          exact base n
        cases o with
        | stream n' t =>
          by_cases hn : n' = n
          · subst hn
            rw [if_pos ⟨_, List.mem_singleton.2 rfl, rfl⟩]
            simp only [outFields, get_one, if_true, said, and_self, String.append_empty]
            congr 2
            cases old with
            | some r => simp [h n']
            | none => simp [said_silent n' m' evs (fun e he => (h e he).1)]
          · apply other
            · rintro ⟨kv, hkv, he⟩
              simp only [outFields, List.mem_singleton] at hkv
              subst hkv
              revert he hn
              cases n' <;> cases n <;> simp [Stream.key]
            · simp [said, hn]
        | ignored => exact absurd rfl hne
        | error c => exact other (by rintro ⟨kv, hkv, he⟩; simp only [outFields, List.mem_singleton] at hkv; subst hkv; revert he; cases n <;> simp [Stream.key]) rfl
        | input c => exact other (by rintro ⟨kv, hkv, he⟩; simp only [outFields, List.mem_singleton] at hkv; subst hkv; revert he; cases n <;> simp [Stream.key]) rfl
        | executeResult c => exact other (by rintro ⟨kv, hkv, he⟩; simp only [outFields, List.mem_singleton] at hkv; subst hkv; revert he; cases n <;> simp [Stream.key]) rfl
        | displayData c => exact other (by rintro ⟨kv, hkv, he⟩; simp only [outFields, List.mem_singleton] at hkv; subst hkv; revert he; cases n <;> simp [Stream.key]) rfl
    · rw [if_neg (by simp [e])]
      refine keep (fun n => ?_) (by simp [CEv.isOut, e]) rfl
      cases o <;> simp [said, e]

theorem told_run (c : Cfg) (m : Id) (evs : List CEv) : NoPurge m evs → m ∉ (crun c evs).db.culled → Told m evs (lookup (crun c evs).db m) := by
  refine snoc_ind (P := fun evs => NoPurge m evs → m ∉ (crun c evs).db.culled → Told m evs (lookup (crun c evs).db m)) ?_ ?_ evs
  · intro _ _
    show Told m [] none
    intro e he
    cases he
  · intro evs e ih hp hm
    rw [crun_snoc] at hm ⊢
    have hI := cinv_run c evs
    rw [look_step c hI e hm]
    refine told_step m _ _ evs e ?_ (ih ?_ (culled_step c hI e hm))
    · rintro rfl
      exact hp (by simp)
    · intro hx
      exact hp (List.mem_append_left _ hx)

/-- **C59 (streams)** Whatever the order in which requests, replies and output reach the hub, the recorded stdout and stderr of a task are everything it wrote, in order —
also when the output arrived before the request. (For tasks not purged and not evicted.) -/
theorem streams_complete (c : Cfg) (evs : List CEv) (m : Id) (hp : NoPurge m evs) (r : Rec) (h : get (crun c evs).db m = some r) (n : Stream) :
    r.get n.key = .text (said n m evs) := by
  have hg := get_of h
  have := told_run c m evs hp hg.1
  rw [hg.2] at this
  exact this n

/-- **C59 (recorded)** A task that was requested or that produced output has a record. -/
theorem output_recorded (c : Cfg) (evs : List CEv) (m : Id) (hp : NoPurge m evs) (hm : m ∉ (crun c evs).db.culled)
    (e : CEv) (he : e ∈ evs) (ho : e.isOut m = true ∨ e.isRequest m = true) : ∃ r, get (crun c evs).db m = some r := by
  have := told_run c m evs hp hm
  cases hl : lookup (crun c evs).db m with
  | some r => exact ⟨r, by rw [get_uncut hm]; exact hl⟩
  | none =>
    rw [hl] at this
    have := this e he
    rcases ho with ho | ho
    · rw [ho] at this; simp at this
    · rw [ho] at this; simp at this

/-! ### C59: errors, results, inputs -/

theorem lastOf_snoc {α : Type} (f : CEv → Option α) (evs : List CEv) (e : CEv) : lastOf f (evs ++ [e]) = (f e).or (lastOf f evs) := by
  induction evs with
  | nil => simp [lastOf]
  | cons a evs ih => simp [lastOf, ih, Option.or_assoc]

/-- the fields that keep the message reported last -/
def lastKeys : List Key := ["error", "execute_result", "execute_input", "display_data"]

def ToldLast (key : Key) (m : Id) (evs : List CEv) : Option Rec → Prop
  | some r => r.get key = (lastOf (valueOf key m) evs).getD .null
  | none => lastOf (valueOf key m) evs = none

theorem init_last (k : Kind) (m : Id) (q : Req) {key : Key} (hk : key ∈ lastKeys) : (initRecord k m q).get key = .null := by
  simp only [lastKeys, List.mem_cons, List.not_mem_nil, or_false] at hk
  rcases hk with rfl | rfl | rfl | rfl <;> rfl

theorem empty_last (m : Id) {key : Key} (hk : key ∈ lastKeys) : (emptyRecord m).get key = .null := by
  simp only [lastKeys, List.mem_cons, List.not_mem_nil, or_false] at hk
  rcases hk with rfl | rfl | rfl | rfl <;> rfl

theorem last_out {key : Key} (hk : key ∈ lastKeys) : key ∈ outKeys := by
  simp only [lastKeys, List.mem_cons, List.not_mem_nil, or_false] at hk
  rcases hk with rfl | rfl | rfl | rfl <;> simp [outKeys]

theorem toldLast_step {key : Key} (hk : key ∈ lastKeys) (m : Id) (pend don : Bool) (evs : List CEv) (e : CEv) (hp : e ≠ .purge m)
    (ht : ∀ e ∈ evs, ∀ v, valueOf key m e = some v → truthy v = true) {old : Option Rec} (h : ToldLast key m evs old) :
    ToldLast key m (evs ++ [e]) (recStep m pend don old e) := by
  have keep : valueOf key m e = none → ToldLast key m (evs ++ [e]) old := by
    intro h1
    cases old with
    | some r => show _ = _; rw [lastOf_snoc, h1]; exact h
    | none => show _ = _; rw [lastOf_snoc, h1]; exact h
  have hout := last_out hk
  cases e with
  | request k m' q =>
    simp only [recStep]
    have hkp := keep rfl
    by_cases e : m' = m
    · subst e
      rw [if_pos rfl]
      cases old with
      | some r =>
        show (merge k r _ ++ r).get key = _
        rw [merged_out k r m' q key hout, init_last k m' q hk, lastOf_snoc]
        have hn : r.get key = _ := h
        rw [hn]
        show _ = (lastOf (valueOf key m') evs).getD .null
        cases hl : lastOf (valueOf key m') evs with
        | none => simp [truthy]
        | some v =>
          have : truthy v = true := by
            have gen : ∀ evs : List CEv, lastOf (valueOf key m') evs = some v → ∃ e ∈ evs, valueOf key m' e = some v := by
              intro evs
              induction evs with
              | nil => intro h; cases h
              | cons a evs ih =>
                intro h
                simp only [lastOf] at h
                cases hx : lastOf (valueOf key m') evs with
                | some w =>
                  rw [hx] at h
                  rcases ih (hx.trans h) with ⟨e, he, hv⟩
                  exact ⟨e, List.mem_cons_of_mem _ he, hv⟩
                | none =>
                  rw [hx] at h
                  exact ⟨a, List.mem_cons_self, h⟩
            rcases gen evs hl with ⟨e, he, hv⟩
            exact ht e he v hv
          simp [this]
      | none =>
        show (initRecord k m' q).get key = _
        have hn : lastOf (valueOf key m') evs = none := h
        rw [init_last k m' q hk, lastOf_snoc, hn]
        rfl
    · rw [if_neg e]; exact hkp
  | result k m' r =>
    simp only [recStep]
    have hkp := keep rfl
    split
    · cases old with
      | none => exact hkp
      | some e =>
        show (resultFields k r ++ e).get key = _
        rw [app_result_out k r e _ hout]
        exact hkp
    · exact hkp
  | destination m' u =>
    simp only [recStep]
    have hkp := keep rfl
    split
    · cases old with
      | none => exact hkp
      | some e =>
        show Rec.get ([("engine_uuid", Val.text u)] ++ e) key = _
        rw [app_dest_out u e _ hout]
        exact hkp
    · exact hkp
  | purge m' =>
    simp only [recStep]
    rw [if_neg]
    · exact keep rfl
    · rintro ⟨rfl, -⟩
      exact hp rfl
  | iopub m' o =>
    simp only [recStep]
    by_cases e : m' = m
    · subst e
      by_cases hne : outFields old o = []
      · rw [if_neg (by simp [hne])]
        have ho : o = .ignored := by cases o <;> simp_all [outFields]
        subst ho
        exact keep rfl
      · rw [if_pos ⟨rfl, hne⟩]
        have base : (old.getD (emptyRecord m')).get key = (lastOf (valueOf key m') evs).getD .null := by
          cases old with
          | some r => exact h
          | none =>
            have hn : lastOf (valueOf key m') evs = none := h
            rw [hn]; exact empty_last m' hk
        show (outFields old o ++ old.getD (emptyRecord m')).get key = _
        rw [get_app, lastOf_snoc]
        have one : ∀ (k' : Key) (v : Val), outFields old o = [(k', v)] → valueOf key m' (.iopub m' o) = (if k' = key then some v else none) →
            (if ∃ kv ∈ outFields old o, kv.1 = key then Rec.get (outFields old o) key else Rec.get (old.getD (emptyRecord m')) key) =
              ((valueOf key m' (.iopub m' o)).or (lastOf (valueOf key m') evs)).getD .null := by
          intro k' v h1 h2
          rw [h1, h2]
          by_cases hx : k' = key
          · simp [hx, get_one]
          · simp [hx, base]
        cases o with
        | stream n t =>
          refine one n.key _ rfl ?_
          simp only [lastKeys, List.mem_cons, List.not_mem_nil, or_false] at hk
          rcases hk with rfl | rfl | rfl | rfl <;> cases n <;> simp [valueOf, Stream.key]
        | ignored => exact absurd rfl hne
        | error c => exact one "error" _ rfl (by simp [valueOf, eq_comm])
        | input c => exact one "execute_input" _ rfl (by simp [valueOf, eq_comm])
        | executeResult c => exact one "execute_result" _ rfl (by simp [valueOf, eq_comm])
        | displayData c => exact one "display_data" _ rfl (by simp [valueOf, eq_comm])
    · rw [if_neg (by simp [e])]
      refine keep ?_
      cases o <;> simp [valueOf, e]

/-- **C59 (error, result, input)** The recorded error, execute_result, execute_input and display_data are the ones reported last, whenever they arrived (empty ones, which a
later request overwrites, excluded). -/
theorem last_report_kept_partial (c : Cfg) (evs : List CEv) (m : Id) (hp : NoPurge m evs) (key : Key) (hk : key ∈ lastKeys)
    (ht : ∀ e ∈ evs, ∀ v, valueOf key m e = some v → truthy v = true) (r : Rec) (h : get (crun c evs).db m = some r) :
    r.get key = (lastOf (valueOf key m) evs).getD .null := by
  have hg := get_of h
  have main : NoPurge m evs → (∀ e ∈ evs, ∀ v, valueOf key m e = some v → truthy v = true) → m ∉ (crun c evs).db.culled →
      ToldLast key m evs (lookup (crun c evs).db m) := by
    refine snoc_ind (P := fun evs => NoPurge m evs → (∀ e ∈ evs, ∀ v, valueOf key m e = some v → truthy v = true) → m ∉ (crun c evs).db.culled →
      ToldLast key m evs (lookup (crun c evs).db m)) ?_ ?_ evs
    · intro _ _ _
      rfl
    · intro evs e ih hp ht hm
      rw [crun_snoc] at hm ⊢
      have hI := cinv_run c evs
      rw [look_step c hI e hm]
      refine toldLast_step hk m _ _ evs e ?_ (fun x hx => ht x (List.mem_append_left _ hx))
        (ih ?_ (fun x hx => ht x (List.mem_append_left _ hx)) (culled_step c hI e hm))
      · rintro rfl
        exact hp (by simp)
      · intro hx
        exact hp (List.mem_append_left _ hx)
  have := main hp ht hg.1
  rw [hg.2] at this
  exact this

end IPP.Capture
