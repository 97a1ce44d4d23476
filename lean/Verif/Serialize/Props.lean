import Verif.Serialize.Canning
/-! # C37, C38: round trips -/
namespace IPP.Ser

theorem datas_cons_some {b : Buf} {r : List (Option Buf)} {d : List Data} (h : datas (some b :: r) = some d) : ∃ d', datas r = some d' ∧ d = b.data :: d' := by
  simp only [datas, List.mapM_cons, Option.map_some, Option.pure_def, Option.bind_eq_bind, Option.bind_some] at h
  cases hm : List.mapM (fun x => Option.map (fun x => x.data) x) r with
  | none => rw [hm] at h; cases h
  | some m =>
    rw [hm] at h
    simp at h
    exact ⟨m, hm, h.symm⟩

theorem datas_cons {b : Buf} {r : List (Option Buf)} {d' : List Data} (h : datas r = some d') : datas (some b :: r) = some (b.data :: d') := by
  simp only [datas] at h
  simp [datas, List.mapM_cons, h]

theorem datas_cons_none {r : List (Option Buf)} : datas (none :: r) = none := by
  simp [datas, List.mapM_cons]

/-- buffers on the wire -/
abbrev wire (v : Buf → Bool) (bs : List Buf) : List Part := bs.map (fun b => arrive v (.buf b))

theorem refill_split (W : World) (thr : Nat) (v : Buf → Bool) : ∀ (b : List (Option Buf)) (d : List Data), datas b = some d →
    ∃ b', (∀ P, refill (split W thr b).1 (wire v (split W thr b).2 ++ P) = some (b', P)) ∧ datas b' = some d
  | [], d, h => ⟨[], fun P => rfl, h⟩
  | none :: r, d, h => by rw [datas_cons_none] at h; cases h
  | some b :: r, d, h => by
    obtain ⟨d', h1, rfl⟩ := datas_cons_some h
    obtain ⟨b', h2, h3⟩ := refill_split W thr v r d' h1
    by_cases ht : thr < nbytes W b.data
    · refine ⟨some { b with view := v b } :: b', ?_, datas_cons h3⟩
      intro P
      simp only [split, if_pos ht, wire, List.map_cons, List.cons_append, arrive, refill]
      have := h2 P
      simp only [wire, arrive] at this
      simp [this]
    · refine ⟨some { b with view := false } :: b', ?_, datas_cons h3⟩
      intro P
      simp only [split, if_neg ht, refill, h2 P]
      simp

theorem split_length (W : World) (thr : Nat) : ∀ (b : List (Option Buf)), (split W thr b).1.length = b.length
  | [] => rfl
  | none :: r => by simp [split, split_length W thr r]
  | some b :: r => by simp only [split]; split <;> simp [split_length W thr r]

theorem isCanned_setBuffers (b : List (Option Buf)) (c : Obj) : isCanned (setBuffers b c) = isCanned c := by
  cases c <;> rfl

theorem setBuffers_setBuffers (b b' : List (Option Buf)) (c : Obj) : setBuffers b (setBuffers b' c) = setBuffers b c := by
  cases c <;> rfl

theorem buffers_setBuffers {c : Obj} {b0 b : List (Option Buf)} (h : buffers c = some b0) (hl : b.length = b0.length) : buffers (setBuffers b c) = some b := by
  cases c <;> simp_all [buffers, setBuffers]
  all_goals (subst h; simpa using hl)

/-- extracting the buffers of an object and restoring them: the object is as before for uncanning, and no other buffer is touched -/
theorem restore_extract (W : World) (thr : Nat) (v : Buf → Bool) {c c' : Obj} {bs : List Buf} (hf : Full c) (h : extract W thr c = some (c', bs)) :
    ∃ c'', (∀ P, restore c' (wire v bs ++ P) = some (c'', P)) ∧ ∀ E g, uncan E g c'' = uncan E g c := by
  simp only [extract] at h
  by_cases hc : isCanned c = true
  · rw [if_pos hc] at h
    obtain ⟨d, hd⟩ := hf hc
    cases hb : buffers c with
    | none => rw [hb] at h; cases h
    | some b =>
      rw [hb] at h
      simp only [Option.some.injEq, Prod.mk.injEq] at h
      obtain ⟨rfl, rfl⟩ := h
      have hdb : datas b = some d := by simpa [own, hb] using hd
      obtain ⟨b', h1, h2⟩ := refill_split W thr v b d hdb
      have hs := split_length W thr b
      have hbl : b'.length = b.length := by rw [← datas_length h2, datas_length hdb]
      refine ⟨setBuffers b' c, ?_, ?_⟩
      · intro P
        simp only [restore, isCanned_setBuffers, hc, if_true, buffers_setBuffers hb hs, h1 P, Option.bind_eq_bind, Option.bind_some, setBuffers_setBuffers]
      · intro E g
        have ho : own (setBuffers b' c) = some d := by rw [own_setBuffers hb b' (.inr hbl), h2]
        rw [uncan_eq E g ho, uncan_eq E g hd, uncanWith_setBuffers]
  · rw [if_neg hc] at h
    simp only [Option.some.injEq, Prod.mk.injEq] at h
    obtain ⟨rfl, rfl⟩ := h
    exact ⟨c, fun P => by simp [restore, hc], fun _ _ => rfl⟩

theorem restoreList_extractList (W : World) (thr : Nat) (v : Buf → Bool) : ∀ (cs cs' : List Obj) (bs : List Buf), (∀ c ∈ cs, Full c) → extractList W thr cs = some (cs', bs) →
    ∃ cs'', (∀ P, restoreList cs' (wire v bs ++ P) = some (cs'', P)) ∧ (∀ E g, uncanList E g cs'' = uncanList E g cs) ∧ cs'.length = cs.length
  | [], cs', bs, _, h => by
    simp only [extractList, Option.some.injEq, Prod.mk.injEq] at h
    obtain ⟨rfl, rfl⟩ := h
    exact ⟨[], fun P => rfl, fun _ _ => rfl, rfl⟩
  | c :: r, cs', bs, hf, h => by
    simp only [extractList] at h
    cases h1 : extract W thr c with
    | none => rw [h1] at h; simp at h
    | some q =>
      obtain ⟨c', b⟩ := q
      cases h2 : extractList W thr r with
      | none => rw [h1, h2] at h; simp at h
      | some q =>
        obtain ⟨r', br⟩ := q
        rw [h1, h2] at h
        simp only [Option.bind_eq_bind, Option.bind_some, Option.some.injEq, Prod.mk.injEq] at h
        obtain ⟨rfl, rfl⟩ := h
        obtain ⟨c'', a1, a2⟩ := restore_extract W thr v (hf c (by simp)) h1
        obtain ⟨r'', b1, b2, b3⟩ := restoreList_extractList W thr v r r' br (fun c hc => hf c (by simp [hc])) h2
        refine ⟨c'' :: r'', ?_, ?_, by simp [b3]⟩
        · intro P
          simp only [restoreList, wire, List.map_append, List.append_assoc]
          have e1 := a1 (wire v br ++ P)
          have e2 := b1 P
          simp only [wire] at e1 e2
          simp [e1, e2]
        · intro E g
          rw [uncanList_cons, uncanList_cons, a2, b2]

theorem restoreKV_extractKV (W : World) (thr : Nat) (v : Buf → Bool) : ∀ (cs cs' : List (Key × Obj)) (bs : List Buf), (∀ c ∈ cs, Full c.2) → extractKV W thr cs = some (cs', bs) →
    (∀ E g P, restoreKV E g cs' (wire v bs ++ P) = (uncanKV E g cs).map (fun l => (l, P))) ∧ cs'.map (·.1) = cs.map (·.1)
  | [], cs', bs, _, h => by
    simp only [extractKV, Option.some.injEq, Prod.mk.injEq] at h
    obtain ⟨rfl, rfl⟩ := h
    exact ⟨fun E g P => by simp [restoreKV, uncanKV], rfl⟩
  | (k, c) :: r, cs', bs, hf, h => by
    simp only [extractKV] at h
    cases h1 : extract W thr c with
    | none => rw [h1] at h; simp at h
    | some q =>
      obtain ⟨c', b⟩ := q
      cases h2 : extractKV W thr r with
      | none => rw [h1, h2] at h; simp at h
      | some q =>
        obtain ⟨r', br⟩ := q
        rw [h1, h2] at h
        simp only [Option.bind_eq_bind, Option.bind_some, Option.some.injEq, Prod.mk.injEq] at h
        obtain ⟨rfl, rfl⟩ := h
        obtain ⟨c'', a1, a2⟩ := restore_extract W thr v (hf (k, c) (by simp)) h1
        obtain ⟨b1, b2⟩ := restoreKV_extractKV W thr v r r' br (fun c hc => hf c (by simp [hc])) h2
        refine ⟨?_, by simp [b2]⟩
        intro E g P
        simp only [restoreKV, wire, List.map_append, List.append_assoc]
        have e1 := a1 (wire v br ++ P)
        have e2 := b1 E g P
        simp only [wire] at e1 e2
        rw [uncanKV_cons, ← a2]
        simp only [e1, e2, Option.bind_eq_bind, Option.bind_some]
        cases uncan E g c'' <;> cases uncanKV E g r <;> simp

/-! ## values sent without looking into them -/

theorem restore_plain {x : Obj} (h : plain x = true) (P : List Part) : restore x P = some (x, P) := by
  cases x <;> first | rfl | (simp [plain] at h)

theorem restoreList_plain : ∀ (l : List Obj), plainList l = true → ∀ P, restoreList l P = some (l, P)
  | [], _, P => rfl
  | x :: r, h, P => by
    simp only [plainList, Bool.and_eq_true] at h
    simp [restoreList, restore_plain h.1, restoreList_plain r h.2]

theorem restoreKV_plain (E : Env) (g : Nat → Option Obj) : ∀ (l : List (Key × Obj)), plainKV l = true → ∀ P, restoreKV E g l P = (resolveKV g l).map (fun l => (l, P))
  | [], _, P => by simp [restoreKV, resolveKV]
  | (k, x) :: r, h, P => by
    simp only [plainKV, Bool.and_eq_true] at h
    simp only [restoreKV, restore_plain h.1, resolveKV, uncan_plain E g x h.1, restoreKV_plain E g r h.2, Option.bind_eq_bind, Option.bind_some]
    cases resolve g x <;> cases resolveKV g r <;> simp

/-- what the receiver gets: lists and dicts shorter than `items` are looked into; the others are pickled as a whole -/
def delivered (E : Env) (items : Nat) : Obj → Option Obj
  | .seq k xs =>
    if xs.length < items then (seenList E E.ns xs).map (.seq k)
    else if xs.length < maxItems then (resolveList E.ns xs).map (.seq k)
    else some (.seq k xs)
  | .dict kv =>
    if kv.length < items then (seenKV E E.ns (sortKV kv)).map .dict
    else if kv.length < maxItems then (if comparable kv then (resolveKV E.ns (sortKV kv)).map .dict else none)
    else (resolveKV E.ns kv).map .dict
  | x => seen E E.ns x

def isSet : Obj → Bool
  | .seq .set _ => true
  | _ => false

theorem plainKV_iff (l : List (Key × Obj)) : plainKV l = true ↔ ∀ e ∈ l, plain e.2 = true := by
  induction l with
  | nil => simp [plainKV]
  | cons e r ih =>
    obtain ⟨k, x⟩ := e
    simp [plainKV, ih]

theorem plainList_iff (l : List Obj) : plainList l = true ↔ ∀ e ∈ l, plain e = true := by
  induction l with
  | nil => simp [plainList]
  | cons e r ih => simp [plainList, ih]

theorem canKV_length {l cs : List (Key × Obj)} (E : Env) (hp : plainKV l = true) (h : canKV l = some cs) : cs.length = l.length := by
  have := congrArg List.length (canKV_spec E l cs hp h).2.2
  simpa using this

theorem canList_length : ∀ {l cs : List Obj}, canList l = some cs → cs.length = l.length
  | [], cs, h => by simp only [canList, Option.some.injEq] at h; subst h; rfl
  | x :: r, cs, h => by
    simp only [canList] at h
    cases h1 : can x with
    | none => rw [h1] at h; simp at h
    | some x' =>
      cases h2 : canList r with
      | none => rw [h1, h2] at h; simp at h
      | some r' =>
        rw [h1, h2] at h
        simp only [Option.bind_eq_bind, Option.bind_some, Option.some.injEq] at h
        subst h
        simp [canList_length h2]

theorem comparable_keys {α β : Type} {a : List (Key × α)} {b : List (Key × β)} (h : a.map (·.1) = b.map (·.1)) : comparable a = comparable b := by
  have e : ∀ {γ : Type} (l : List (Key × γ)), comparable l = ((l.map (·.1)).all Key.isStr || (l.map (·.1)).all (fun k => !k.isStr)) := by
    intro γ l
    simp [comparable, List.all_map, Function.comp_def]
  rw [e, e, h]

theorem comparable_perm {α : Type} {a b : List (Key × α)} (h : a.Perm b) : comparable a = comparable b := by
  have : ∀ (f : Key × α → Bool), a.all f = b.all f := by
    intro f
    rw [Bool.eq_iff_iff]
    simp only [List.all_eq_true]
    exact ⟨fun hh x hx => hh x (h.symm.subset hx), fun hh x hx => hh x (h.subset hx)⟩
  simp only [comparable, this]

/-- a value that is neither a list, tuple, set nor a dict -/
def isLeaf : Obj → Bool
  | .seq .. | .dict _ => false
  | _ => true

/-- the canned form of a leaf is a leaf -/
theorem can_leaf {x c : Obj} (hl : isLeaf x = true) (hp : plain x = true) (h : can x = some c) : isLeaf c = true := by
  cases x with
  | seq => simp [isLeaf] at hl
  | dict => simp [isLeaf] at hl
  | arr k =>
    cases k <;> simp only [can, Option.some.injEq] at h
    · subst h; rfl
    · subst h; rfl
    · cases h
  | cell x =>
    simp only [can] at h
    cases h1 : can x <;> rw [h1] at h <;> simp at h
    subst h; rfl
  | func a b ds kd cl =>
    simp only [can] at h
    cases h1 : canList ds <;> cases h2 : canKV kd <;> cases h3 : canList cl <;> rw [h1, h2, h3] at h <;> simp at h
    subst h; rfl
  | partial_ f args kw =>
    simp only [can] at h
    cases h1 : can f <;> cases h2 : canList args <;> cases h3 : canKV kw <;> rw [h1, h2, h3] at h <;> simp at h
    rename_i f' args' kw'
    simp only [mkPartial] at h
    cases h4 : consolidate args' <;> cases h5 : consolidateKW (sortKV kw') <;> rw [h4, h5] at h <;> simp at h
    subst h; rfl
  | dep f df =>
    simp only [can] at h
    cases h1 : can f <;> cases h2 : can df <;> rw [h1, h2] at h <;> simp at h
    subst h; rfl
  | _ => first | (simp only [can, Option.some.injEq] at h; subst h; rfl) | (simp [plain] at hp)

theorem setBuffers_leaf {b : List (Option Buf)} {c : Obj} (h : isLeaf c = true) : isLeaf (setBuffers b c) = true := by
  cases c <;> simp_all [setBuffers, isLeaf]

theorem dump_some {W : World} {o : Obj} {bs : List Buf} {p : List Part} (h : dump W o bs = some p) : p = .pkl o :: bs.map .buf := by
  simp only [dump] at h
  split at h
  · simpa using h.symm
  · cases h

theorem deserialize_leaf (R : Recv) {o : Obj} (h : isLeaf o = true) (p : List Part) : deserialize R (.pkl o :: p) = (do
    let (c, p') ← restore o p
    let y ← uncan R.E R.E.ns c
    some (y, p')) := by
  cases o <;> first | rfl | (simp [isLeaf] at h)

theorem serialize_leaf (W : World) (thr items : Nat) {o : Obj} (h : isLeaf o = true) : serialize W thr items o = (do
    let c ← can o
    let (c', bs) ← extract W thr c
    dump W c' bs) := by
  cases o <;> first | rfl | (simp [isLeaf] at h)

theorem delivered_leaf (E : Env) (items : Nat) {o : Obj} (h : isLeaf o = true) : delivered E items o = seen E E.ns o := by
  cases o <;> first | rfl | (simp [isLeaf] at h)

theorem arrive_wire (v : Buf → Bool) (bs : List Buf) : (bs.map Part.buf).map (arrive v) = wire v bs := by
  simp [wire, Function.comp_def]

/-- The round trip of one value, in general. -/
theorem deserialize_serialize (W : World) (R : Recv) (thr items : Nat) (v : Buf → Bool) {x : Obj} {parts : List Part} (rest : List Part) (hi : items ≤ maxItems) (hp : plain x = true)
    (hs : isSet x = false) (h : serialize W thr items x = some parts) :
    deserialize R (parts.map (arrive v) ++ rest) = (delivered R.E items x).map (fun y => (y, rest)) := by
  by_cases hl : isLeaf x = true
  · rw [serialize_leaf W thr items hl] at h
    cases h1 : can x with
    | none => rw [h1] at h; simp at h
    | some c =>
      rw [h1] at h
      simp only [Option.bind_eq_bind, Option.bind_some] at h
      cases h2 : extract W thr c with
      | none => rw [h2] at h; simp at h
      | some q =>
        obtain ⟨c', bs⟩ := q
        rw [h2] at h
        simp only [Option.bind_some] at h
        rw [dump_some h]
        have hc := can_spec R.E x c hp h1
        obtain ⟨c'', r1, r2⟩ := restore_extract W thr v hc.1 h2
        have hl' : isLeaf c' = true := by
          simp only [extract] at h2
          by_cases hcc : isCanned c = true
          · rw [if_pos hcc] at h2
            cases hb : buffers c with
            | none => rw [hb] at h2; cases h2
            | some b =>
              rw [hb] at h2
              simp only [Option.some.injEq, Prod.mk.injEq] at h2
              rw [← h2.1]
              exact setBuffers_leaf (can_leaf hl hp h1)
          · rw [if_neg hcc] at h2
            simp only [Option.some.injEq, Prod.mk.injEq] at h2
            rw [← h2.1]
            exact can_leaf hl hp h1
        simp only [List.map_cons, arrive, List.cons_append, arrive_wire]
        rw [deserialize_leaf R hl', r1 rest]
        simp only [Option.bind_eq_bind, Option.bind_some, r2, hc.2]
        rw [delivered_leaf R.E items hl]
        cases seen R.E R.E.ns x <;> rfl
  · cases x with
    | seq k xs =>
      have hk : k ≠ .set := by rintro rfl; simp [isSet] at hs
      simp only [plain] at hp
      simp only [serialize] at h
      by_cases hn : xs.length < items
      · rw [if_pos hn] at h
        cases h1 : canList xs with
        | none => rw [h1] at h; simp at h
        | some cs =>
          rw [h1] at h
          simp only [Option.bind_eq_bind, Option.bind_some] at h
          cases h2 : extractList W thr cs with
          | none => rw [h2] at h; simp at h
          | some q =>
            obtain ⟨cs', bs⟩ := q
            rw [h2] at h
            simp only [Option.bind_some] at h
            rw [dump_some h]
            have hc := canList_spec R.E xs cs hp h1
            obtain ⟨cs'', r1, r2, r3⟩ := restoreList_extractList W thr v cs cs' bs hc.1 h2
            have hlen : cs'.length < maxItems := by rw [r3, canList_length h1]; omega
            simp only [List.map_cons, arrive, List.cons_append, arrive_wire, deserialize, if_pos hlen, if_neg hk, r1 rest, Option.bind_eq_bind, Option.bind_some, r2, hc.2, delivered, if_pos hn]
            cases seenList R.E R.E.ns xs <;> rfl
      · rw [if_neg hn] at h
        simp only [can, Option.bind_eq_bind, Option.bind_some, extract, isCanned, Bool.false_eq_true, if_false] at h
        rw [dump_some h]
        simp only [List.map_cons, arrive, List.map_nil, List.cons_append, List.nil_append, deserialize, delivered, if_neg hn]
        by_cases hm : xs.length < maxItems
        · simp only [if_pos hm, if_neg hk, restoreList_plain xs hp, uncanList_plain R.E R.E.ns xs hp, Option.bind_eq_bind, Option.bind_some]
          cases resolveList R.E.ns xs <;> rfl
        · simp only [if_neg hm, restore, isCanned, Bool.false_eq_true, if_false, Option.bind_eq_bind, Option.bind_some]
          rfl
    | dict kv =>
      have hpd := hp
      simp only [plain, Bool.and_eq_true, decide_eq_true_eq] at hp
      simp only [serialize] at h
      have hps : plainKV (sortKV kv) = true := by
        rw [plainKV_iff] at *
        intro e he
        exact hp.1 e ((sortKV_perm kv).subset he)
      have hls : (sortKV kv).length = kv.length := (sortKV_perm kv).length_eq
      by_cases hn : kv.length < items
      · rw [if_pos hn] at h
        by_cases hcm : comparable kv = true
        · rw [if_pos hcm] at h
          cases h1 : canKV (sortKV kv) with
          | none => rw [h1] at h; simp at h
          | some cs =>
            rw [h1] at h
            simp only [Option.bind_eq_bind, Option.bind_some] at h
            cases h2 : extractKV W thr cs with
            | none => rw [h2] at h; simp at h
            | some q =>
              obtain ⟨cs', bs⟩ := q
              rw [h2] at h
              simp only [Option.bind_some] at h
              rw [dump_some h]
              have hc := canKV_spec R.E (sortKV kv) cs hps h1
              obtain ⟨r1, r2⟩ := restoreKV_extractKV W thr v cs cs' bs hc.1 h2
              have hkeys : cs'.map (·.1) = (sortKV kv).map (·.1) := by rw [r2, hc.2.2]
              have hlen : cs'.length < maxItems := by
                have := congrArg List.length hkeys
                simp only [List.length_map] at this
                omega
              have hcm' : comparable cs' = true := by rw [comparable_keys hkeys, comparable_perm (sortKV_perm kv), hcm]
              have hsorted : sortKV cs' = cs' := by
                refine sortKV_of_sorted cs' ?_
                have hsk : (cs'.map (·.1)).Pairwise (fun a b => a.le b = true) := by
                  rw [hkeys]
                  exact List.pairwise_map.2 (sortKV_sorted kv)
                exact List.pairwise_map.1 hsk
              simp only [List.map_cons, arrive, List.cons_append, arrive_wire, deserialize, if_pos hlen, if_pos hcm', hsorted, r1 R.E R.E.ns rest, hc.2.1, delivered, if_pos hn, Option.bind_eq_bind]
              cases seenKV R.E R.E.ns (sortKV kv) <;> rfl
        · rw [if_neg hcm] at h; cases h
      · rw [if_neg hn] at h
        simp only [can, Option.bind_eq_bind, Option.bind_some, extract, isCanned, Bool.false_eq_true, if_false] at h
        rw [dump_some h]
        simp only [List.map_cons, arrive, List.map_nil, List.cons_append, List.nil_append, deserialize, delivered, if_neg hn]
        by_cases hm : kv.length < maxItems
        · simp only [if_pos hm]
          by_cases hcm : comparable kv = true
          · simp only [if_pos hcm, restoreKV_plain R.E R.E.ns (sortKV kv) hps, Option.bind_eq_bind]
            cases resolveKV R.E.ns (sortKV kv) <;> rfl
          · simp only [if_neg hcm]; rfl
        · have hu := uncan_plain R.E R.E.ns (.dict kv) hpd
          simp only [if_neg hm, restore, isCanned, Bool.false_eq_true, if_false, Option.bind_eq_bind, Option.bind_some, hu, resolve]
          cases resolveKV R.E.ns kv <;> rfl
    | _ => simp [isLeaf] at hl

end IPP.Ser
