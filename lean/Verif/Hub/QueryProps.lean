import Verif.Hub.Query
/-!
# `db_query` (C58): every record comes back with its own fields and its own buffers
-/
namespace IPP.Query

open IPP.DB

/-! ### specification -/

/-- was this key asked for? -/
def Asked (keys : Option (List Key)) (k : Key) : Prop := ∃ ks, keys = some ks ∧ k ∈ ks

/-- the two fields that travel as buffers -/
def bufKeys : List Key := ["buffers", "result_buffers"]

/-- Timestamps are where the hub puts them, and nothing else is there — hub.py:56-86, dictdb.py:228-238. -/
def DatesInPlace (r : Rec) : Prop :=
  ∀ kv ∈ r, (∀ t, kv.2 = .date t → kv.1 ∈ ["submitted", "started", "completed", "received"]) ∧
    (kv.1 ∈ ["submitted", "started", "completed", "received"] → kv.2 = .null ∨ ∃ t, kv.2 = .date t)

/-- `out` is what the client must get for the record `r` that the database found: the same fields with the same values, except that the buffers are there exactly when asked
for, a missing or null buffer field reading as the empty list. -/
structure Faithful (keys : Option (List Key)) (r out : Rec) : Prop where
  fields : ∀ k, k ∉ bufKeys → has out k = has r k ∧ out.get k = r.get k
  present : ∀ k ∈ bufKeys, (has out k = true ↔ Asked keys k)
  buffers : ∀ k ∈ bufKeys, Asked keys k → out.get k = .bufs (bufsOf (r.get k))

/-! ### dictionaries -/

theorem get_cons (r : Rec) (k k' : Key) (v : Val) : Rec.get ((k', v) :: r) k = if k' = k then v else r.get k := by
  unfold Rec.get
  by_cases h : k' = k
  · simp [h]
  · simp [h]

theorem get_del (r : Rec) (k k' : Key) : (del r k').get k = if k = k' then .null else r.get k := by
  induction r with
  | nil => simp [del, Rec.get]
  | cons a r ih =>
    rcases a with ⟨ka, va⟩
    by_cases h : ka = k'
    · subst h
      have : del ((ka, va) :: r) ka = del r ka := by simp [del]
      rw [this, ih, get_cons]
      by_cases h2 : k = ka
      · simp [h2]
      · have : ¬ ka = k := fun h => h2 h.symm
        simp [h2, this]
    · have : del ((ka, va) :: r) k' = (ka, va) :: del r k' := by simp [del, h]
      rw [this, get_cons, get_cons, ih]
      by_cases h2 : ka = k
      · subst h2; simp [h]
      · simp [h2]

theorem has_cons (r : Rec) (k k' : Key) (v : Val) : has ((k', v) :: r) k = (decide (k' = k) || has r k) := by simp [has]

theorem has_del (r : Rec) (k k' : Key) : has (del r k') k = (decide (k ≠ k') && has r k) := by
  induction r with
  | nil => simp [del, has]
  | cons a r ih =>
    rcases a with ⟨ka, va⟩
    by_cases h : ka = k'
    · subst h
      have : del ((ka, va) :: r) ka = del r ka := by simp [del]
      rw [this, ih, has_cons]
      by_cases h2 : k = ka
      · simp [h2]
      · have : ¬ ka = k := fun h => h2 h.symm
        simp [h2, this]
    · have : del ((ka, va) :: r) k' = (ka, va) :: del r k' := by simp [del, h]
      rw [this, has_cons, has_cons, ih]
      by_cases h2 : ka = k
      · subst h2; simp [h]
      · simp [h2]

theorem get_map (r : Rec) (f : Key → Val → Val) (hf : ∀ k, f k .null = .null) (k : Key) :
    Rec.get (r.map (fun kv => (kv.1, f kv.1 kv.2))) k = f k (r.get k) := by
  induction r with
  | nil => simp [Rec.get, hf]
  | cons a r ih =>
    rcases a with ⟨ka, va⟩
    simp only [List.map_cons]
    rw [get_cons, get_cons, ih]
    by_cases h : ka = k
    · simp [h]
    · simp [h]

theorem has_map (r : Rec) (f : Key × Val → Val) (k : Key) : has (r.map (fun kv => (kv.1, f kv))) k = has r k := by
  simp [has, List.any_map, Function.comp_def]

theorem get_mem {r : Rec} {k : Key} (h : has r k = true) : (k, r.get k) ∈ r := by
  induction r with
  | nil => simp [has] at h
  | cons a r ih =>
    rcases a with ⟨ka, va⟩
    rw [get_cons]
    by_cases h2 : ka = k
    · simp [h2]
    · simp only [has_cons, h2, decide_false, Bool.false_or] at h
      simp [h2, ih h]

theorem get_null {r : Rec} {k : Key} (h : has r k = false) : r.get k = .null := by
  induction r with
  | nil => rfl
  | cons a r ih =>
    rcases a with ⟨ka, va⟩
    simp only [has_cons, Bool.or_eq_false_iff, decide_eq_false_iff_not] at h
    rw [get_cons, if_neg h.1, ih h.2]

/-! ### the reply in closed form -/

/-- the record without its buffers -/
def strip (r : Rec) : Rec := del (del r "buffers") "result_buffers"

theorem pop_result (r : Rec) : bufsOf ((del r "buffers").get "result_buffers") = bufsOf (r.get "result_buffers") := by
  rw [get_del]; simp

theorem packOne_eq (acc : Reply) (r : Rec) :
    packOne acc r =
      { records := acc.records ++ [strip r]
        bufferLens := acc.bufferLens.map (fun ls => ls ++ [(bufsOf (r.get "buffers")).length])
        resultLens := acc.resultLens.map (fun ls => ls ++ [(bufsOf (r.get "result_buffers")).length])
        buffers := acc.buffers ++ ((if acc.bufferLens.isSome then bufsOf (r.get "buffers") else []) ++
          (if acc.resultLens.isSome then bufsOf (r.get "result_buffers") else [])) } := by
  rcases acc with ⟨recs, bl, rl, bufs⟩
  cases bl <;> cases rl <;> simp [packOne, popBufs, pop_result, strip]

/-- what one record contributes to the flat list -/
def part (b c : Bool) (r : Rec) : List Nat := (if b then bufsOf (r.get "buffers") else []) ++ (if c then bufsOf (r.get "result_buffers") else [])

theorem foldl_packOne (recs : List Rec) : ∀ acc : Reply, recs.foldl packOne acc =
    { records := acc.records ++ recs.map strip
      bufferLens := acc.bufferLens.map (fun ls => ls ++ recs.map (fun r => (bufsOf (r.get "buffers")).length))
      resultLens := acc.resultLens.map (fun ls => ls ++ recs.map (fun r => (bufsOf (r.get "result_buffers")).length))
      buffers := acc.buffers ++ recs.flatMap (part acc.bufferLens.isSome acc.resultLens.isSome) } := by
  induction recs with
  | nil =>
    intro acc
    rcases acc with ⟨a, b, c, d⟩
    cases b <;> cases c <;> simp
  | cons r recs ih =>
    intro acc
    rcases acc with ⟨a, b, c, d⟩
    rw [List.foldl_cons, ih, packOne_eq]
    cases b <;> cases c <;> simp [part]

/-- the record as the client rebuilds it -/
def rebuilt (iso : Iso) (b c : Bool) (r : Rec) : Rec :=
  let r0 := unDates iso (wireRec iso (strip r))
  let r1 := if b then setKey r0 "buffers" (.bufs (bufsOf (r.get "buffers"))) else r0
  if c then setKey r1 "result_buffers" (.bufs (bufsOf (r.get "result_buffers"))) else r1

/-- list of lengths for records starting at position `pre.length` -/
def lensFor (b : Bool) (pre : List Nat) (k : Key) (recs : List Rec) : Option (List Nat) :=
  if b then some (pre ++ recs.map (fun r => (bufsOf (r.get k)).length)) else none

theorem lensFor_step (b : Bool) (pre : List Nat) (k : Key) (r : Rec) (recs : List Rec) :
    lensFor b pre k (r :: recs) = lensFor b (pre ++ [(bufsOf (r.get k)).length]) k recs := by
  cases b <;> simp [lensFor]

theorem unpackFrom_eq (iso : Iso) (b c : Bool) (recs : List Rec) : ∀ (pb pc : List Nat), pb.length = pc.length →
    unpackFrom iso (lensFor b pb "buffers" recs) (lensFor c pc "result_buffers" recs) pb.length (recs.flatMap (part b c)) ((recs.map strip).map (wireRec iso))
      = some (recs.map (rebuilt iso b c)) := by
  induction recs with
  | nil => intro pb pc _; simp [unpackFrom]
  | cons r recs ih =>
    intro pb pc hl
    have h := ih (pb ++ [(bufsOf (r.get "buffers")).length]) (pc ++ [(bufsOf (r.get "result_buffers")).length]) (by simp [hl])
    rw [← lensFor_step, ← lensFor_step] at h
    simp only [List.length_append, List.length_cons, List.length_nil, Nat.zero_add] at h
    cases b <;> cases c <;> simp_all [unpackFrom, lensFor, part, rebuilt]

theorem unpack_pack (iso : Iso) (keys : Option (List Key)) (recs : List Rec) :
    unpack iso (wire iso (pack keys recs)) =
      some (recs.map (rebuilt iso (startReply keys).bufferLens.isSome (startReply keys).resultLens.isSome)) := by
  unfold unpack wire pack
  rw [foldl_packOne]
  have h := unpackFrom_eq iso (startReply keys).bufferLens.isSome (startReply keys).resultLens.isSome recs [] [] rfl
  cases keys with
  | none => simpa [startReply, lensFor] using h
  | some ks =>
    by_cases h1 : "buffers" ∈ ks <;> by_cases h2 : "result_buffers" ∈ ks <;> simpa [startReply, lensFor, h1, h2] using h

/-! ### the record that comes back -/

theorem json_roundtrip (iso : Iso) (k : Key) (v : Val) (h1 : ∀ t, v = .date t → k ∈ dateKeys) (h2 : k ∈ dateKeys → v = .null ∨ ∃ t, v = .date t) :
    (if k ∈ dateKeys then parseDate iso (toJson iso v) else toJson iso v) = v := by
  by_cases hk : k ∈ dateKeys
  · rw [if_pos hk]
    rcases h2 hk with rfl | ⟨t, rfl⟩
    · rfl
    · simp [toJson, parseDate, iso.inv]
  · rw [if_neg hk]
    cases v with
    | date t => exact absurd (h1 t rfl) hk
    | _ => rfl

theorem strip_place {r : Rec} (h : DatesInPlace r) : DatesInPlace (strip r) := by
  intro kv hkv
  apply h
  simp only [strip, del, List.mem_filter] at hkv
  exact hkv.1.1

theorem undates_wire (iso : Iso) {r : Rec} (h : DatesInPlace r) : unDates iso (wireRec iso r) = r := by
  unfold unDates wireRec
  rw [List.map_map]
  conv => rhs; rw [← List.map_id r]
  apply List.map_congr_left
  intro kv hkv
  simp only [Function.comp_apply, id_eq]
  rw [json_roundtrip iso kv.1 kv.2 (h kv hkv).1 (h kv hkv).2]

theorem asked_buffers (keys : Option (List Key)) : (startReply keys).bufferLens.isSome = true ↔ Asked keys "buffers" := by
  cases keys with
  | none => simp [startReply, Asked]
  | some ks => by_cases h : "buffers" ∈ ks <;> simp [startReply, Asked, h]

theorem asked_result (keys : Option (List Key)) : (startReply keys).resultLens.isSome = true ↔ Asked keys "result_buffers" := by
  cases keys with
  | none => simp [startReply, Asked]
  | some ks => by_cases h : "result_buffers" ∈ ks <;> simp [startReply, Asked, h]

theorem rebuilt_faithful (iso : Iso) (keys : Option (List Key)) {r : Rec} (h : DatesInPlace r) :
    Faithful keys r (rebuilt iso (startReply keys).bufferLens.isSome (startReply keys).resultLens.isSome r) := by
  have e1 := asked_buffers keys
  have e2 := asked_result keys
  unfold rebuilt
  rw [undates_wire iso (strip_place h)]
  generalize (startReply keys).bufferLens.isSome = b at e1
  generalize (startReply keys).resultLens.isSome = c at e2
  constructor
  · intro k hk
    simp only [bufKeys, List.mem_cons, List.not_mem_nil, or_false, not_or] at hk
    have n1 : ¬ "buffers" = k := fun h => hk.1 h.symm
    have n2 : ¬ "result_buffers" = k := fun h => hk.2 h.symm
    cases b <;> cases c <;> simp [setKey, strip, has_cons, has_del, get_cons, get_del, hk.1, hk.2, n1, n2]
  · intro k hk
    simp only [bufKeys, List.mem_cons, List.not_mem_nil, or_false] at hk
    rcases hk with rfl | rfl
    · rw [← e1]
      cases b <;> cases c <;> simp [setKey, strip, has_cons, has_del]
    · rw [← e2]
      cases b <;> cases c <;> simp [setKey, strip, has_cons, has_del]
  · intro k hk ha
    simp only [bufKeys, List.mem_cons, List.not_mem_nil, or_false] at hk
    rcases hk with rfl | rfl
    · rw [← e1] at ha
      cases c <;> simp [ha, setKey, get_cons, get_del]
    · rw [← e2] at ha
      simp [ha, setKey, get_cons]

/-- **C58** Whatever records the hub's database finds and whichever keys were asked for, the client gets as many records, in the same order, each with its own fields and —
when asked for — its own buffers. -/
theorem db_query_faithful (iso : Iso) (keys : Option (List Key)) (recs : List Rec) (h : ∀ r ∈ recs, DatesInPlace r) :
    ∃ out, dbQuery iso (some recs) keys = some out ∧ out.length = recs.length ∧
      ∀ (i : Nat) (hi : i < recs.length) (ho : i < out.length), Faithful keys recs[i] out[i] := by
  refine ⟨recs.map (rebuilt iso (startReply keys).bufferLens.isSome (startReply keys).resultLens.isSome), ?_, by simp, ?_⟩
  · simp [dbQuery, unpack_pack]
  · intro i hi ho
    rw [List.getElem_map]
    exact rebuilt_faithful iso keys (h _ (List.getElem_mem hi))

/-- An exception in the database reaches the client. -/
theorem db_query_error (iso : Iso) (keys : Option (List Key)) : dbQuery iso none keys = none := rfl

/-! ### with the in-memory database -/

/-- Which fields the documentation promises: everything but the buffers by default, otherwise the keys asked for and `msg_id`. -/
def Promised (keys : Option (List Key)) (r : Rec) (k : Key) : Prop :=
  match keys with
  | none => has r k = true ∧ k ∉ bufKeys
  | some ks => k = "msg_id" ∨ k ∈ ks

theorem has_extract (ks : List Key) (r : Rec) (k : Key) : has (extract ks r) k = true ↔ k = "msg_id" ∨ k ∈ ks := by
  simp only [has, extract, List.any_map, List.any_eq_true, Function.comp_apply, decide_eq_true_eq, List.mem_cons]
  constructor
  · rintro ⟨x, hx, rfl⟩; exact hx
  · intro h; exact ⟨k, h, rfl⟩

theorem get_extract (ks : List Key) (r : Rec) (k : Key) (h : k = "msg_id" ∨ k ∈ ks) : (extract ks r).get k = r.get k := by
  have h' : k ∈ "msg_id" :: ks := by simpa using h
  unfold extract
  generalize "msg_id" :: ks = l at h'
  induction l with
  | nil => simp at h'
  | cons a l ih =>
    rw [List.map_cons, get_cons]
    by_cases ha : a = k
    · simp [ha]
    · rw [if_neg ha]
      apply ih
      rcases List.mem_cons.1 h' with rfl | h'
      · exact absurd rfl ha
      · exact h'

theorem extract_place {ks : List Key} {r : Rec} (h : DatesInPlace r) : DatesInPlace (extract ks r) := by
  intro kv hkv
  simp only [extract, List.mem_map] at hkv
  rcases hkv with ⟨k, hk, rfl⟩
  cases hh : has r k with
  | true => exact h _ (get_mem hh)
  | false => simp [get_null hh]

/-- What the client must get for a stored record `r`. -/
structure AsPromised (keys : Option (List Key)) (r out : Rec) : Prop where
  present : ∀ k, has out k = true ↔ Promised keys r k
  fields : ∀ k, Promised keys r k → k ∉ bufKeys → out.get k = r.get k
  buffers : ∀ k ∈ bufKeys, Promised keys r k → out.get k = .bufs (bufsOf (r.get k))

theorem find_mono {s : State} {check : Check} {keys : Option (List Key)} {rs : List Rec} (h : find s check keys = some rs) : ∃ rs0, find s check none = some rs0 := by
  unfold find at *
  rw [Option.map_eq_some_iff] at h
  rcases h with ⟨ms, hm, _⟩
  exact ⟨ms.map Prod.snd, by simp [hm]⟩

open Classical in
/-- **C58, with DictDB** `Client.db_query(query, keys)` returns one record for every stored record that satisfies the query, in insertion order, with exactly the promised
fields, each with the stored value (the queries of C34; `keys` not the empty list). -/
theorem db_query_dictdb_partial (iso : Iso) (s : State) (check : Check) (keys : Option (List Key)) (out : List Rec) (hg : NoGt check) (hp : PlainLast check)
    (hk : keys ≠ some []) (hd : ∀ x ∈ s.records, DatesInPlace x.2) (h : dbQuery iso (find s check keys) keys = some out) :
    ∃ found : List Rec, found = (s.records.map Prod.snd).filter (fun r => Sat r check) ∧ out.length = found.length ∧
      ∀ (i : Nat) (hi : i < found.length) (ho : i < out.length), AsPromised keys found[i] out[i] := by
  cases hf : find s check keys with
  | none => simp [hf, dbQuery] at h
  | some rs =>
    rcases find_mono hf with ⟨rs0, h0⟩
    have hex := find_exact_partial s check rs0 hg hp h0
    have hd0 : ∀ r ∈ rs0, DatesInPlace r := by
      intro r hr
      rw [hex] at hr
      rcases List.mem_map.1 (List.mem_filter.1 hr).1 with ⟨x, hx, rfl⟩
      exact hd x hx
    refine ⟨rs0, hex, ?_⟩
    cases keys with
    | none =>
      have : rs = rs0 := by rw [hf] at h0; simpa using h0
      subst this
      rcases db_query_faithful iso none rs hd0 with ⟨out', h1, h2, h3⟩
      rw [hf, h1] at h
      cases h
      refine ⟨h2, fun i hi ho => ?_⟩
      have f := h3 i hi ho
      refine ⟨fun k => ?_, fun k hpk hkb => (f.fields k hkb).2, fun k hkb hpk => absurd hkb hpk.2⟩
      by_cases hkb : k ∈ bufKeys
      · rw [f.present k hkb]
        simp [Asked, Promised, hkb]
      · rw [(f.fields k hkb).1]
        simp [Promised, hkb]
    | some ks =>
      cases ks with
      | nil => exact absurd rfl hk
      | cons k0 ks =>
        have hrs : rs = rs0.map (extract (k0 :: ks)) := by
          have := find_keys s check k0 ks rs0 h0
          rw [hf] at this
          exact Option.some.inj this
        subst hrs
        rcases db_query_faithful iso (some (k0 :: ks)) (rs0.map (extract (k0 :: ks)))
          (fun r hr => by
            rcases List.mem_map.1 hr with ⟨r0, hr0, rfl⟩
            exact extract_place (hd0 r0 hr0)) with ⟨out', h1, h2, h3⟩
        rw [hf, h1] at h
        cases h
        refine ⟨by simpa using h2, fun i hi ho => ?_⟩
        have f := h3 i (by simpa using hi) ho
        rw [List.getElem_map] at f
        have nm : ∀ k ∈ bufKeys, k ≠ "msg_id" := by
          intro k hk e
          subst e
          revert hk
          decide +kernel
        refine ⟨fun k => ?_, fun k hpk hkb => ?_, fun k hkb hpk => ?_⟩
        · by_cases hkb : k ∈ bufKeys
          · rw [f.present k hkb]
            simp [Asked, Promised, nm k hkb]
          · rw [(f.fields k hkb).1, has_extract]
            simp [Promised]
        · rw [(f.fields k hkb).2, get_extract _ _ _ hpk]
        · have ha : Asked (some (k0 :: ks)) k := ⟨_, rfl, by
            rcases hpk with e | e
            · exact absurd e (nm k hkb)
            · exact e⟩
          rw [f.buffers k hkb ha, get_extract _ _ _ hpk]

/-! ### with SQLite -/

theorem faithful_extract (iso : Iso) (k0 : Key) (ks : List Key) (rs0 : List Rec) (hd0 : ∀ r ∈ rs0, DatesInPlace r) (ks' : List Key) (out : List Rec)
    (hks : ∀ k, (k = "msg_id" ∨ k ∈ ks') ↔ (k = "msg_id" ∨ k ∈ k0 :: ks))
    (h : dbQuery iso (some (rs0.map (extract ks'))) (some (k0 :: ks)) = some out) :
    out.length = rs0.length ∧ ∀ (i : Nat) (hi : i < rs0.length) (ho : i < out.length), AsPromised (some (k0 :: ks)) rs0[i] out[i] := by
  rcases db_query_faithful iso (some (k0 :: ks)) (rs0.map (extract ks'))
    (fun r hr => by
      rcases List.mem_map.1 hr with ⟨r0, hr0, rfl⟩
      exact extract_place (hd0 r0 hr0)) with ⟨out', h1, h2, h3⟩
  rw [h1] at h
  cases h
  refine ⟨by simpa using h2, fun i hi ho => ?_⟩
  have f := h3 i (by simpa using hi) ho
  rw [List.getElem_map] at f
  have nm : ∀ k ∈ bufKeys, k ≠ "msg_id" := by
    intro k hk e
    subst e
    revert hk
    decide +kernel
  refine ⟨fun k => ?_, fun k hpk hkb => ?_, fun k hkb hpk => ?_⟩
  · by_cases hkb : k ∈ bufKeys
    · rw [f.present k hkb]
      simp [Asked, Promised, nm k hkb]
    · rw [(f.fields k hkb).1, has_extract, hks]
      rfl
  · rw [(f.fields k hkb).2, get_extract _ _ _ ((hks k).2 hpk)]
  · have ha : Asked (some (k0 :: ks)) k := ⟨_, rfl, by
      rcases hpk with e | e
      · exact absurd e (nm k hkb)
      · exact e⟩
    rw [f.buffers k hkb ha, get_extract _ _ _ ((hks k).2 hpk)]

open Classical in
/-- **C58, with SQLite** The same, for the queries of C36. -/
theorem db_query_sqlite_partial (iso : Iso) (rows : Sql.Rows) (check : Check) (keys : Option (List Key)) (rs out : List Rec) (hf : ∀ x ∈ rows, Sql.Fits x.2 check)
    (hk : keys ≠ some []) (hd : ∀ x ∈ rows, DatesInPlace x.2) (hq : sqlFindKeys rows check keys = .ok rs) (h : dbQuery iso (some rs) keys = some out) :
    ∃ found : List Rec, found = (rows.map Prod.snd).filter (fun r => Sat r check) ∧ out.length = found.length ∧
      ∀ (i : Nat) (hi : i < found.length) (ho : i < out.length), AsPromised keys found[i] out[i] := by
  have key : ∀ rs0, Sql.find rows check = .ok rs0 → ∀ r ∈ rs0, DatesInPlace r := by
    intro rs0 h0 r hr
    rw [Sql.sqlite_find_exact_partial rows check rs0 hf h0] at hr
    rcases List.mem_map.1 (List.mem_filter.1 hr).1 with ⟨x, hx, rfl⟩
    exact hd x hx
  cases keys with
  | none =>
    have h0 : Sql.find rows check = .ok rs := hq
    refine ⟨rs, Sql.sqlite_find_exact_partial rows check rs hf h0, ?_⟩
    rcases db_query_faithful iso none rs (key rs h0) with ⟨out', h1, h2, h3⟩
    rw [h1] at h
    cases h
    refine ⟨h2, fun i hi ho => ?_⟩
    have f := h3 i hi ho
    refine ⟨fun k => ?_, fun k hpk hkb => (f.fields k hkb).2, fun k hkb hpk => absurd hkb hpk.2⟩
    by_cases hkb : k ∈ bufKeys
    · rw [f.present k hkb]
      simp [Asked, Promised, hkb]
    · rw [(f.fields k hkb).1]
      simp [Promised, hkb]
  | some ks =>
    cases ks with
    | nil => exact absurd rfl hk
    | cons k0 ks =>
      simp only [sqlFindKeys] at hq
      split at hq
      · cases hq
      · cases h0 : Sql.find rows check with
        | error e => simp [h0] at hq
        | ok rs0 =>
          simp only [h0, reduceCtorEq, if_false, Except.ok.injEq] at hq
          refine ⟨rs0, Sql.sqlite_find_exact_partial rows check rs0 hf h0, ?_⟩
          have e : rs = rs0.map (extract ((k0 :: ks).erase "msg_id")) := hq.symm
          rw [e] at h
          apply faithful_extract iso k0 ks rs0 (key rs0 h0) _ out _ h
          intro k
          by_cases hkm : k = "msg_id"
          · simp [hkm]
          · simp only [hkm, false_or]
            exact List.mem_erase_of_ne hkm

/-! ### a case, and what the excluded `keys=[]` does -/

/-- strokes serve as timestamps -/
def exIso : Iso where
  fmt t := String.ofList (List.replicate (if t < 0 then 2 * t.natAbs - 1 else 2 * t.natAbs) 'x')
  parse s := some (if s.length % 2 = 1 then -(((s.length + 1) / 2 : Nat) : Int) else ((s.length / 2 : Nat) : Int))
  inv := by
    intro t
    by_cases h : t < 0 <;> simp [h] <;> first | omega | (split <;> omega)

def exA : Rec := [("msg_id", .text "a"), ("header", .obj 1), ("submitted", .date 5), ("buffers", .bufs [3, 4]), ("result_buffers", .null), ("completed", .null)]
def exB : Rec := [("msg_id", .text "b"), ("header", .obj 2), ("submitted", .date (-2)), ("buffers", .bufs [5]), ("result_buffers", .bufs [6, 7]), ("completed", .date 9)]
def exState : State := { records := [("a", exA), ("b", exB)], culled := [], bytes := 25 }

def exQ : Check := [("header", .ops [.ne .null])]

/-- the hypotheses are met: two records found, buffers asked for, one of them without result buffers -/
example : (∀ r ∈ [exA, exB], DatesInPlace r) ∧ NoGt exQ ∧ PlainLast exQ ∧
    dbQuery exIso (find exState exQ (some ["result_buffers", "completed", "buffers"])) (some ["result_buffers", "completed", "buffers"]) =
      some [[("result_buffers", .bufs []), ("buffers", .bufs [3, 4]), ("msg_id", .text "a"), ("completed", .null)],
            [("result_buffers", .bufs [6, 7]), ("buffers", .bufs [5]), ("msg_id", .text "b"), ("completed", .date 9)]] := by
  refine ⟨?_, ?_, ?_, by decide +kernel⟩
  · intro r hr kv hkv
    simp only [List.mem_cons, List.not_mem_nil, or_false] at hr
    rcases hr with rfl | rfl
    all_goals
      simp only [exA, exB, List.mem_cons, List.not_mem_nil, or_false] at hkv
      rcases hkv with rfl | rfl | rfl | rfl | rfl | rfl <;> simp [dateKeys]
  · intro kc h ts e v hv
    simp only [exQ, List.mem_cons, List.not_mem_nil, or_false] at h
    subst h
    simp at e
    subst e; simp at hv
  · intro kc h v e
    simp only [exQ, List.mem_cons, List.not_mem_nil, or_false] at h
    subst h
    simp at e

/-- and with SQLite, where `msg_id` was asked for too -/
example : (sqlFindKeys [("a", Sql.normRec exA), ("b", Sql.normRec exB)] exQ (some ["buffers", "msg_id"])).toOption.bind
    (fun rs => dbQuery exIso (some rs) (some ["buffers", "msg_id"])) =
      some [[("buffers", .bufs [3, 4]), ("msg_id", .text "a")], [("buffers", .bufs [5]), ("msg_id", .text "b")]] := by decide +kernel

/-- **C58 is violated** by an empty list of keys. The in-memory database returns every field, not only `msg_id` — for every database and query. -/
theorem empty_keys_dict_violated (iso : Iso) (s : State) (check : Check) : dbQuery iso (find s check (some [])) (some []) = dbQuery iso (find s check none) none := by
  have h : find s check (some []) = find s check none := rfl
  rw [h]
  cases find s check none with
  | none => rfl
  | some rs => simp [dbQuery, unpack_pack, startReply]

/-- SQLite returns records without any field, not even `msg_id` — for every database and query. -/
theorem empty_keys_sqlite_violated (iso : Iso) (rows : Sql.Rows) (check : Check) (rs out : List Rec) (hq : sqlFindKeys rows check (some []) = .ok rs)
    (h : dbQuery iso (some rs) (some []) = some out) : out.length = rs.length ∧ ∀ r ∈ out, r = [] := by
  have hrs : ∀ r ∈ rs, r = [] := by
    simp only [sqlFindKeys, List.any_nil, Bool.false_eq_true, if_false] at hq
    cases h0 : Sql.find rows check with
    | error e => simp [h0] at hq
    | ok rs0 =>
      simp only [h0, if_true, Except.ok.injEq] at hq
      intro r hr
      rw [← hq] at hr
      simp at hr
      exact hr.2
  simp only [dbQuery, Option.bind_some, unpack_pack, Option.some.injEq] at h
  subst h
  refine ⟨by simp, ?_⟩
  intro r hr
  rcases List.mem_map.1 hr with ⟨r0, hr0, rfl⟩
  simp [hrs r0 hr0, rebuilt, startReply, strip, del, wireRec, unDates]

/-- such a query does find records -/
example : sqlFindKeys [("a", Sql.normRec exA), ("b", Sql.normRec exB)] exQ (some []) = .ok [[], []] := by rfl

/-- asking SQLite for a field that no record has raises, and that is the only error that the keys cause -/
theorem sqlite_keys_error (rows : Sql.Rows) (check : Check) (ks : List Key) :
    ((∃ k ∈ ks, k ∉ Sql.columns) → sqlFindKeys rows check (some ks) = .error .keyError) ∧
    ((∀ k ∈ ks, k ∈ Sql.columns) → ((∃ rs, sqlFindKeys rows check (some ks) = .ok rs) ↔ ∃ rs, Sql.find rows check = .ok rs)) := by
  refine ⟨fun ⟨k, hk, hc⟩ => ?_, fun h => ?_⟩
  · have : ks.any (fun k => k ∉ Sql.columns) = true := List.any_eq_true.2 ⟨k, hk, by simpa using hc⟩
    simp only [sqlFindKeys, this, if_true]
  · have : ¬ ks.any (fun k => k ∉ Sql.columns) = true := by
      rw [List.any_eq_true]
      rintro ⟨k, hk, hc⟩
      simp at hc
      exact hc (h k hk)
    simp only [sqlFindKeys]
    rw [if_neg this]
    cases Sql.find rows check with
    | error e => simp
    | ok rs => simp

end IPP.Query
