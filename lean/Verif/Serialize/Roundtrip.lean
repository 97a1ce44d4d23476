import Verif.Serialize.Props
/-! # C37, C38: the claims, sets, and violations -/
namespace IPP.Ser

theorem closedKV_iff (E : Env) (l : List (Key × Obj)) : closedKV E l = true ↔ ∀ e ∈ l, closed E e.2 = true := by
  induction l with
  | nil => simp [closedKV]
  | cons e r ih =>
    obtain ⟨k, x⟩ := e
    simp [closedKV, ih]

theorem closedList_iff (E : Env) (l : List Obj) : closedList E l = true ↔ ∀ e ∈ l, closed E e = true := by
  induction l with
  | nil => simp [closedList]
  | cons e r ih => simp [closedList, ih]

/-- dicts whose keys the receiver has to sort although the sender has not -/
def keysOk (items : Nat) : Obj → Bool
  | .dict kv => !(decide (items ≤ kv.length) && decide (kv.length < maxItems)) || comparable kv
  | _ => true

theorem delivered_closed (E : Env) (items : Nat) {x : Obj} (hc : closed E x = true) (hk : keysOk items x = true) : ∃ y, delivered E items x = some y ∧ Same y x := by
  cases x with
  | seq k xs =>
    simp only [closed] at hc
    simp only [delivered]
    refine ⟨.seq k xs, ?_, .refl _⟩
    split
    · simp [seenList_closed E _ xs hc]
    · split
      · simp [resolveList_closed E _ xs hc]
      · rfl
  | dict kv =>
    simp only [closed] at hc
    have hcs : closedKV E (sortKV kv) = true := by
      rw [closedKV_iff] at *
      intro e he
      exact hc e ((sortKV_perm kv).subset he)
    simp only [delivered]
    split
    · exact ⟨.dict (sortKV kv), by simp [seenKV_closed E _ _ hcs], .dict (sortKV_perm kv)⟩
    next h1 =>
      split
      next h2 =>
        have hcm : comparable kv = true := by
          simp only [keysOk, Bool.or_eq_true, Bool.not_eq_true', Bool.and_eq_false_iff, decide_eq_false_iff_not] at hk
          rcases hk with (hk | hk) | hk
          · omega
          · omega
          · exact hk
        rw [if_pos hcm]
        exact ⟨.dict (sortKV kv), by simp [resolveKV_closed E _ _ hcs], .dict (sortKV_perm kv)⟩
      · exact ⟨.dict kv, by simp [resolveKV_closed E _ _ hc], .refl _⟩
  | _ => exact ⟨_, by rw [delivered_leaf E items rfl, seen_closed E _ _ hc], .refl _⟩

/-- C37: a serialized value comes back the same, and exactly the parts that follow it are left, for every value tree without references, every `buffer_threshold`, every `item_threshold` up to the receiver's,
and whether buffers arrive as bytes or memoryviews. -/
theorem roundtrip_partial (W : World) (R : Recv) (thr items : Nat) (v : Buf → Bool) {x : Obj} {parts : List Part} (rest : List Part) (hi : items ≤ 64) (hp : plain x = true) (hc : closed R.E x = true)
    (hk : keysOk items x = true) (hs : isSet x = false) (h : serialize W thr items x = some parts) :
    ∃ y, deserialize R (parts.map (arrive v) ++ rest) = some (y, rest) ∧ Same y x := by
  obtain ⟨y, h1, h2⟩ := delivered_closed R.E items hc hk
  exact ⟨y, by rw [deserialize_serialize W R thr items v rest hi hp hs h, h1]; rfl, h2⟩

/-- C37: the same for every value with references, whose result is described by `delivered`. -/
theorem roundtrip_references_partial (W : World) (R : Recv) (thr : Nat) (v : Buf → Bool) {x : Obj} {parts : List Part} (rest : List Part) (hp : plain x = true) (hl : isLeaf x = true) (h : serialize W thr 64 x = some parts) :
    deserialize R (parts.map (arrive v) ++ rest) = (seen R.E R.E.ns x).map (fun y => (y, rest)) := by
  have hs : isSet x = false := by cases x <;> first | rfl | (simp [isLeaf] at hl)
  rw [deserialize_serialize W R thr 64 v rest (Nat.le_refl _) hp hs h, delivered_leaf R.E 64 hl]

/-! ## success -/

mutual
/-- data: no memoryviews, functions or partials in it -/
def isData : Obj → Bool
  | .atom _ | .bytes _ | .ref _ => true
  | .arr k _ _ _ => k != .noBuffer
  | .seq _ xs => isDataList xs
  | .dict kv => isDataKV kv
  | _ => false
def isDataList : List Obj → Bool
  | [] => true
  | x :: r => isData x && isDataList r
def isDataKV : List (Key × Obj) → Bool
  | [] => true
  | (_, x) :: r => isData x && isDataKV r
end

mutual
theorem picklable_data (f : Nat → Bool) : ∀ (x : Obj), isData x = true → picklable f x = true
  | .atom _, _ | .bytes _, _ | .ref _, _ | .arr .., _ => by simp [picklable]
  | .seq _ xs, h => by simp only [isData] at h; simp only [picklable]; exact picklableList_data f xs h
  | .dict kv, h => by simp only [isData] at h; simp only [picklable]; exact picklableKV_data f kv h
  | .view _, h | .cell _, h | .func .., h | .partial_ .., h | .dep .., h | .cBytes _, h | .cView _, h | .cArr .., h | .cCell _, h | .cFunc .., h | .cPartial .., h | .cDep .., h => by simp [isData] at h
theorem picklableList_data (f : Nat → Bool) : ∀ (l : List Obj), isDataList l = true → picklableList f l = true
  | [], _ => by simp [picklableList]
  | x :: r, h => by
    simp only [isDataList, Bool.and_eq_true] at h
    simp [picklableList, picklable_data f x h.1, picklableList_data f r h.2]
theorem picklableKV_data (f : Nat → Bool) : ∀ (l : List (Key × Obj)), isDataKV l = true → picklableKV f l = true
  | [], _ => by simp [picklableKV]
  | (k, x) :: r, h => by
    simp only [isDataKV, Bool.and_eq_true] at h
    simp [picklableKV, picklable_data f x h.1, picklableKV_data f r h.2]
end

theorem noViews_split (W : World) (thr : Nat) : ∀ (b : List (Option Buf)), noViews (split W thr b).1 = true
  | [] => rfl
  | none :: r => by have := noViews_split W thr r; simp only [noViews, split, List.all_cons, Bool.true_and] at this ⊢; exact this
  | some b :: r => by
    have := noViews_split W thr r
    simp only [split]
    split <;> simp only [noViews, List.all_cons, Bool.not_false, Bool.true_and] at this ⊢ <;> exact this

/-- data, or a memoryview -/
def isItem (x : Obj) : Bool := isData x || (match x with
  | .view _ => true
  | _ => false)

theorem can_data (W : World) (thr : Nat) {x : Obj} (h : isItem x = true) : ∃ c c' bs, can x = some c ∧ extract W thr c = some (c', bs) ∧ picklable W.byName c' = true := by
  cases x with
  | arr k d s b =>
    cases k
    · exact ⟨_, _, _, rfl, rfl, by simp only [setBuffers, picklable]; exact noViews_split W thr _⟩
    · exact ⟨_, _, _, rfl, rfl, by simp only [setBuffers, picklable]; exact noViews_split W thr _⟩
    · simp [isItem, isData] at h
  | bytes b => exact ⟨_, _, _, rfl, rfl, by simp only [setBuffers, picklable]; exact noViews_split W thr _⟩
  | view b => exact ⟨_, _, _, rfl, rfl, by simp only [setBuffers, picklable]; exact noViews_split W thr _⟩
  | atom n => exact ⟨_, _, _, rfl, rfl, by simp [picklable]⟩
  | ref n => exact ⟨_, _, _, rfl, rfl, by simp [setBuffers, picklable]⟩
  | seq k xs => exact ⟨_, _, _, rfl, rfl, picklable_data _ _ (by simpa [isItem] using h)⟩
  | dict kv => exact ⟨_, _, _, rfl, rfl, picklable_data _ _ (by simpa [isItem] using h)⟩
  | _ => simp [isItem, isData] at h

theorem canList_data (W : World) (thr : Nat) : ∀ (l : List Obj), (∀ x ∈ l, isItem x = true) → ∃ c c' bs, canList l = some c ∧ extractList W thr c = some (c', bs) ∧ picklableList W.byName c' = true
  | [], _ => ⟨[], [], [], rfl, rfl, by simp [picklableList]⟩
  | x :: r, h => by
    obtain ⟨c, c', bs, h1, h2, h3⟩ := can_data W thr (h x (by simp))
    obtain ⟨cr, cr', br, r1, r2, r3⟩ := canList_data W thr r (fun y hy => h y (by simp [hy]))
    exact ⟨c :: cr, c' :: cr', bs ++ br, by simp [canList, h1, r1], by simp [extractList, h2, r2], by simp [picklableList, h3, r3]⟩

theorem canKV_data (W : World) (thr : Nat) : ∀ (l : List (Key × Obj)), (∀ x ∈ l, isItem x.2 = true) → ∃ c c' bs, canKV l = some c ∧ extractKV W thr c = some (c', bs) ∧ picklableKV W.byName c' = true
  | [], _ => ⟨[], [], [], rfl, rfl, by simp [picklableKV]⟩
  | (k, x) :: r, h => by
    obtain ⟨c, c', bs, h1, h2, h3⟩ := can_data W thr (h (k, x) (by simp))
    obtain ⟨cr, cr', br, r1, r2, r3⟩ := canKV_data W thr r (fun y hy => h y (by simp [hy]))
    exact ⟨(k, c) :: cr, (k, c') :: cr', bs ++ br, by simp [canKV, h1, r1], by simp [extractKV, h2, r2], by simp [picklableKV, h3, r3]⟩

theorem isDataList_iff (l : List Obj) : isDataList l = true ↔ ∀ e ∈ l, isData e = true := by
  induction l with
  | nil => simp [isDataList]
  | cons e r ih => simp [isDataList, ih]

theorem isDataKV_iff (l : List (Key × Obj)) : isDataKV l = true ↔ ∀ e ∈ l, isData e.2 = true := by
  induction l with
  | nil => simp [isDataKV]
  | cons e r ih =>
    obtain ⟨k, x⟩ := e
    simp [isDataKV, ih]

/-- C37: data can always be serialized, except dicts (shorter than `item_threshold`) whose keys cannot be compared. -/
theorem data_serializes (W : World) (thr items : Nat) {x : Obj} (h : isItem x = true) (hk : ∀ kv, x = .dict kv → comparable kv = true) : ∃ parts, serialize W thr items x = some parts := by
  by_cases hl : isLeaf x = true
  · rw [serialize_leaf W thr items hl]
    obtain ⟨c, c', bs, h1, h2, h3⟩ := can_data W thr h
    exact ⟨.pkl c' :: bs.map .buf, by simp [h1, h2, dump, h3]⟩
  · cases x with
    | seq k xs =>
      simp only [isItem, isData, Bool.or_false] at h
      simp only [serialize]
      split
      · obtain ⟨c, c', bs, h1, h2, h3⟩ := canList_data W thr xs (fun y hy => by simp [isItem, (isDataList_iff xs).1 h y hy])
        exact ⟨.pkl (.seq k c') :: bs.map .buf, by simp [h1, h2, dump, picklable, h3]⟩
      · exact ⟨[.pkl (.seq k xs)], by simp [can, extract, isCanned, dump, picklable, picklableList_data _ xs h]⟩
    | dict kv =>
      simp only [isItem, isData, Bool.or_false] at h
      simp only [serialize]
      split
      · rw [if_pos (hk kv rfl)]
        obtain ⟨c, c', bs, h1, h2, h3⟩ := canKV_data W thr (sortKV kv) (fun y hy => by simp [isItem, (isDataKV_iff kv).1 h y ((sortKV_perm kv).subset hy)])
        exact ⟨.pkl (.dict c') :: bs.map .buf, by simp [h1, h2, dump, picklable, h3]⟩
      · exact ⟨[.pkl (.dict kv)], by simp [can, extract, isCanned, dump, picklable, picklableKV_data _ kv h]⟩
    | _ => simp [isLeaf] at hl

/-! ## apply messages -/

/-- elementwise the same -/
inductive SameAll : List Obj → List Obj → Prop where
  | nil : SameAll [] []
  | cons {x y : Obj} {xs ys : List Obj} : Same x y → SameAll xs ys → SameAll (x :: xs) (y :: ys)

/-- what is asked of an argument -/
def Fine (E : Env) (items : Nat) (s : Sendable) : Prop :=
  plain s.obj = true ∧ closed E s.obj = true ∧ isSet s.obj = false ∧ keysOk items s.obj = true ∧ keysOk 64 s.obj = true

theorem roundtripS (W : World) (R : Recv) (thr items : Nat) (v : Buf → Bool) {s : Sendable} {parts : List Part} (rest : List Part) (hi : items ≤ 64) (hf : Fine R.E items s) (h : serializeS W thr items s = some parts) :
    ∃ y, deserialize R (parts.map (arrive v) ++ rest) = some (y, rest) ∧ Same y s.obj := by
  obtain ⟨h1, h2, h3, h4, h5⟩ := hf
  cases s with
  | plain o => exact roundtrip_partial W R thr items v rest hi h1 h2 h4 h3 h
  | prePickled o => exact roundtrip_partial W R maxBytes maxItems v rest (Nat.le_refl _) h1 h2 h5 h3 h

theorem roundtripAll (W : World) (R : Recv) (thr items : Nat) (v : Buf → Bool) (hi : items ≤ 64) : ∀ (l : List Sendable) (parts : List Part), (∀ s ∈ l, Fine R.E items s) → serializeAll W thr items l = some parts →
    ∀ rest, ∃ ys, deserializeN R l.length (parts.map (arrive v) ++ rest) = some (ys, rest) ∧ SameAll ys (l.map Sendable.obj)
  | [], parts, _, h, rest => by
    simp only [serializeAll, Option.some.injEq] at h
    subst h
    exact ⟨[], rfl, .nil⟩
  | s :: r, parts, hf, h, rest => by
    simp only [serializeAll] at h
    cases h1 : serializeS W thr items s with
    | none => rw [h1] at h; simp at h
    | some a =>
      cases h2 : serializeAll W thr items r with
      | none => rw [h1, h2] at h; simp at h
      | some b =>
        rw [h1, h2] at h
        simp only [Option.bind_eq_bind, Option.bind_some, Option.some.injEq] at h
        subst h
        obtain ⟨y, y1, y2⟩ := roundtripS W R thr items v (b.map (arrive v) ++ rest) hi (hf s (by simp)) h1
        obtain ⟨ys, z1, z2⟩ := roundtripAll W R thr items v hi r b (fun t ht => hf t (by simp [ht])) h2 rest
        refine ⟨y :: ys, ?_, .cons y2 z2⟩
        simp only [List.map_append, List.append_assoc, List.length_cons, deserializeN, y1, Option.bind_eq_bind, Option.bind_some, z1]

theorem serialize_nonempty (W : World) (thr items : Nat) {o : Obj} {p : List Part} (h : serialize W thr items o = some p) : 1 ≤ p.length := by
  have hd : ∀ {o bs}, dump W o bs = some p → 1 ≤ p.length := by
    intro o bs hd
    rw [dump_some hd]; simp
  have hpl : ∀ {o : Obj}, ((can o).bind fun c => (extract W thr c).bind fun q => dump W q.1 q.2) = some p → 1 ≤ p.length := by
    intro o hh
    cases h1 : can o with
    | none => rw [h1] at hh; simp at hh
    | some c =>
      rw [h1] at hh
      simp only [Option.bind_some] at hh
      cases h2 : extract W thr c with
      | none => rw [h2] at hh; simp at hh
      | some q => rw [h2] at hh; exact hd hh
  by_cases hl : isLeaf o = true
  · rw [serialize_leaf W thr items hl] at h
    exact hpl h
  · cases o with
    | seq k xs =>
      simp only [serialize] at h
      split at h
      · cases h1 : canList xs with
        | none => rw [h1] at h; simp at h
        | some c =>
          rw [h1] at h
          simp only [Option.bind_eq_bind, Option.bind_some] at h
          cases h2 : extractList W thr c with
          | none => rw [h2] at h; simp at h
          | some q => rw [h2] at h; exact hd h
      · exact hpl h
    | dict kv =>
      simp only [serialize] at h
      split at h
      · split at h
        · cases h1 : canKV (sortKV kv) with
          | none => rw [h1] at h; simp at h
          | some c =>
            rw [h1] at h
            simp only [Option.bind_eq_bind, Option.bind_some] at h
            cases h2 : extractKV W thr c with
            | none => rw [h2] at h; simp at h
            | some q => rw [h2] at h; exact hd h
        · cases h
      · exact hpl h
    | _ => simp [isLeaf] at hl

/-- C38: an apply message gives back the function, the positional arguments in their order, and the keyword arguments. -/
theorem apply_roundtrip_partial (W : World) (R : Recv) (thr items : Nat) (v : Buf → Bool) (hi : items ≤ 64) {f : Sendable} {args : List Sendable} {kw : List (Key × Sendable)} {parts : List Part}
    (hf : Fine R.E 64 f) (ha : ∀ s ∈ args, Fine R.E items s) (hk : ∀ e ∈ kw, Fine R.E items e.2) (h : pack W thr items f args kw = some parts) :
    ∃ f' args' kw', unpack R (parts.map (arrive v)) = some (f', args', kw') ∧ Same f' f.obj ∧ SameAll args' (args.map Sendable.obj) ∧
      ∃ l : List (Key × Sendable), l.Perm kw ∧ kw'.map (·.1) = l.map (·.1) ∧ SameAll (kw'.map (·.2)) (l.map (fun e => e.2.obj)) := by
  simp only [pack] at h
  cases h1 : serializeAll W thr items args with
  | none => rw [h1] at h; simp at h
  | some ab =>
    cases h2 : serializeAll W thr items ((sortKV kw).map (·.2)) with
    | none => rw [h1, h2] at h; simp at h
    | some kb =>
      cases h3 : serializeS W maxBytes maxItems f with
      | none => rw [h1, h2, h3] at h; simp at h
      | some fb =>
        rw [h1, h2, h3] at h
        simp only [Option.bind_eq_bind, Option.bind_some, Option.some.injEq] at h
        subst h
        have hlen : 1 ≤ fb.length := by
          cases f with
          | plain o => exact serialize_nonempty W _ _ h3
          | prePickled o => exact serialize_nonempty W _ _ h3
        obtain ⟨f', f1, f2⟩ := roundtripS W R maxBytes maxItems v
          (.info args.length ab.length ((sortKV kw).map (·.1)) :: (ab.map (arrive v) ++ kb.map (arrive v))) (Nat.le_refl _) hf h3
        obtain ⟨ys, y1, y2⟩ := roundtripAll W R thr items v hi args ab ha h1 []
        obtain ⟨zs, z1, z2⟩ := roundtripAll W R thr items v hi ((sortKV kw).map (·.2)) kb (by
          intro s hs
          obtain ⟨e, he, rfl⟩ := List.mem_map.1 hs
          exact hk e ((sortKV_perm kw).subset he)) h2 []
        simp only [List.append_nil, List.length_map] at y1 z1
        have hzl : zs.length = (sortKV kw).length := by
          have hh : ∀ {a b : List Obj}, SameAll a b → a.length = b.length := by
            intro a b hab
            induction hab with
            | nil => rfl
            | cons _ _ ih => simp [ih]
          simpa using hh z2
        refine ⟨f', ys, ((sortKV kw).map (·.1)).zip zs, ?_, f2, y2, sortKV kw, sortKV_perm kw, ?_, ?_⟩
        · have e : (fb ++ [Part.info args.length ab.length ((sortKV kw).map (·.1))] ++ ab ++ kb).map (arrive v) =
              fb.map (arrive v) ++ (.info args.length ab.length ((sortKV kw).map (·.1)) :: (ab.map (arrive v) ++ kb.map (arrive v))) := by
            simp [arrive]
          rw [e]
          have hl2 : ¬ (fb.map (arrive v) ++ (Part.info args.length ab.length ((sortKV kw).map (·.1)) :: (ab.map (arrive v) ++ kb.map (arrive v)))).length < 2 := by
            simp only [List.length_append, List.length_cons, List.length_map]; omega
          have ht : (ab.map (arrive v) ++ kb.map (arrive v)).take ab.length = ab.map (arrive v) := by
            have := List.take_left (l₁ := ab.map (arrive v)) (l₂ := kb.map (arrive v))
            simpa using this
          have hd : (ab.map (arrive v) ++ kb.map (arrive v)).drop ab.length = kb.map (arrive v) := by
            have := List.drop_left (l₁ := ab.map (arrive v)) (l₂ := kb.map (arrive v))
            simpa using this
          simp only [unpack, if_neg hl2, f1, Option.bind_eq_bind, Option.bind_some, ht, hd, y1, List.isEmpty_nil, if_true, List.length_map, z1]
        · rw [List.map_fst_zip (by simp [hzl])]
        · rw [List.map_snd_zip (by simp [hzl])]
          rw [List.map_map] at z2
          exact z2

end IPP.Ser
