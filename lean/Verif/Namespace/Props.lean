import Verif.Namespace.Lemmas
/-!
# What a user may rely on about the engines' namespaces (properties C64, C65)
-/
namespace IPP.Namespace
variable {V : Type}

/-! ## Specification -/

/-- two namespaces hold the same, but for some names -/
def SameBut (ks : List String) (a b : Space V) : Prop := ∀ x, x ∉ ks → get x a = get x b

/-- the engine has no variables with these names -/
def Free (ks : List String) (ns : Space V) : Prop := ∀ x ∈ ks, get x ns = none

/-- a function that does not care about the engine's temporary variables: it does the same whether they are there or not -/
def Unaware (ks : List String) (f : Fn V) : Prop := ∀ a b as kw, SameBut ks a b → (f a as kw).2 = (f b as kw).2 ∧ SameBut ks (f a as kw).1 (f b as kw).1

/-- a result that can be pickled is the reply, another is an error -/
def sent (i : Interp V) : Outcome V → Outcome V
  | .ok r => if i.picklable r then .ok r else .raised .unpicklable
  | .raised e => .raised e

/-! ## C64: `apply` -/

theorem doApply_eq (i : Interp V) (ns : Space V) (msg : String) (f : Fn V) (args : List (Arg V)) (kwargs : List (String × Arg V)) (as vs : List V)
    (ha : resolveAll ns args = .ok as) (hk : resolveAll ns (kwargs.map (·.2)) = .ok vs) :
    (doApply i ns msg f args kwargs).2 = sent i (f ((temps msg).foldl (fun n k => set k .internal n) ns) as ((kwargs.map (·.1)).zip vs)).2 ∧
    ∀ x, get x (doApply i ns msg f args kwargs).1 =
      if x ∈ temps msg then none else get x (f ((temps msg).foldl (fun n k => set k .internal n) ns) as ((kwargs.map (·.1)).zip vs)).1 := by
  unfold doApply
  rw [ha, hk]
  simp only
  generalize f ((temps msg).foldl (fun n k => set k .internal n) ns) as ((kwargs.map (·.1)).zip vs) = o
  obtain ⟨n2, o⟩ := o
  cases o with
  | raised e => exact ⟨rfl, fun x => get_delAll _ _ _⟩
  | ok r =>
    refine ⟨rfl, fun x => ?_⟩
    simp only
    rw [get_delAll, get_set]
    by_cases h : x ∈ temps msg
    · simp [h]
    · rw [if_neg h, if_neg h, if_neg (fun e => h (by rw [e]; simp [temps]))]

/-- **A call does what the function does, and leaves nothing behind**: for a function that does not look for the engine's temporary variables, called with values,
the reply is what the function returns or raises, and the namespace is as the function leaves it; the temporary variables are gone also if it raises. -/
theorem apply_effect (i : Interp V) (ns : Space V) (msg : String) (f : Fn V) (args : List V) (kwargs : List (String × V)) (hf : Unaware (temps msg) f) :
    let o := doApply i ns msg f (args.map .val) (kwargs.map (fun e => (e.1, .val e.2)))
    o.2 = sent i (f ns args kwargs).2 ∧ SameBut (temps msg) o.1 (f ns args kwargs).1 ∧ Free (temps msg) o.1 := by
  have h1 : resolveAll ns ((kwargs.map (fun e => (e.1, Arg.val e.2))).map (·.2)) = .ok (kwargs.map (·.2)) := by
    rw [List.map_map]
    have : (kwargs.map ((fun x : String × Arg V => x.2) ∘ fun e => (e.1, Arg.val e.2))) = (kwargs.map (·.2)).map .val := by rw [List.map_map]; rfl
    rw [this, resolveAll_vals]
  have h2 : ((kwargs.map (fun e => (e.1, Arg.val e.2))).map (·.1)).zip (kwargs.map (·.2)) = kwargs := by
    rw [List.map_map]
    have : (kwargs.map ((fun x : String × Arg V => x.1) ∘ fun e => (e.1, Arg.val e.2))) = kwargs.map (·.1) := rfl
    rw [this]
    clear this h1
    induction kwargs with
    | nil => rfl
    | cons e t ih => simp [ih]
  obtain ⟨h3, h4⟩ := doApply_eq i ns msg f (args.map .val) (kwargs.map (fun e => (e.1, .val e.2))) args (kwargs.map (·.2)) (resolveAll_vals ns args) h1
  rw [h2] at h3 h4
  have hs : SameBut (temps msg) ((temps msg).foldl (fun n k => set k .internal n) ns) ns := by
    intro x hx; rw [get_setAll, if_neg hx]
  obtain ⟨h5, h6⟩ := hf _ _ args kwargs hs
  refine ⟨by rw [h3, h5], fun x hx => ?_, fun x hx => by rw [h4, if_pos hx]⟩
  rw [h4, if_neg hx, h6 x hx]

/-- **No call leaves temporary variables**, whatever the function does, also one that looks for them, deletes them or raises, and also if its arguments cannot be unpacked. -/
theorem apply_clean (i : Interp V) (ns : Space V) (msg : String) (f : Fn V) (args : List (Arg V)) (kwargs : List (String × Arg V)) (hfree : Free (temps msg) ns) :
    Free (temps msg) (doApply i ns msg f args kwargs).1 := by
  cases ha : resolveAll ns args with
  | error e => unfold doApply; rw [ha]; exact hfree
  | ok as =>
    cases hk : resolveAll ns (kwargs.map (·.2)) with
    | error e => unfold doApply; rw [ha, hk]; exact hfree
    | ok vs =>
      intro x hx
      rw [(doApply_eq i ns msg f args kwargs as vs ha hk).2 x, if_pos hx]

/-- **References**: an argument `Reference(name)` is the value that the variable has on the engine when the call is executed. -/
theorem apply_reference (i : Interp V) (ns : Space V) (msg : String) (f : Fn V) (k : String) (hf : Unaware (temps msg) f) :
    (∀ v, get k ns = some (.user v) → (doApply i ns msg f [.ref k] []).2 = sent i (f ns [v] []).2) ∧
    (get k ns = none → doApply i ns msg f [.ref k] [] = (ns, .raised (.name k))) := by
  constructor
  · intro v hv
    have ha : resolveAll ns [Arg.ref k] = .ok [v] := by simp [resolveAll, resolve, hv]
    have hs : SameBut (temps msg) ((temps msg).foldl (fun n k => set k .internal n) ns) ns := by
      intro x hx; rw [get_setAll, if_neg hx]
    have := (doApply_eq i ns msg f [.ref k] [] [v] [] ha rfl).1
    rw [this]
    show sent i (f _ [v] []).2 = _
    rw [(hf _ _ [v] [] hs).1]
  · intro hn
    unfold doApply
    simp [resolveAll, resolve, hn]

/-- a Python identifier (of ASCII characters) -/
def IsIdentifier (s : String) : Prop := ∃ c t, s.toList = c :: t ∧ (c = '_' ∨ c.isAlpha = true) ∧ ∀ x ∈ t, x = '_' ∨ x.isAlphanum = true

/-- **The call can be compiled**: the temporary names are four different identifiers, for message ids of letters, digits, dashes and underscores (`<session uuid>_<pid>_<count>`). -/
theorem temps_identifiers (msg : String) (hm : ∀ c ∈ msg.toList, c = '-' ∨ c = '_' ∨ c.isAlphanum = true) : (∀ t ∈ temps msg, IsIdentifier t) ∧ (temps msg).Nodup := by
  constructor
  · intro t ht
    have key : ∀ suffix : String, (∀ x ∈ suffix.toList, x = '_' ∨ x.isAlphanum = true) → IsIdentifier (prefixOf msg ++ suffix) := by
      intro suffix hs
      refine ⟨'_', (msg.toList.map (fun c => if c = '-' then '_' else c)) ++ '_' :: suffix.toList, ?_, .inl rfl, ?_⟩
      · simp [prefixOf, String.toList_append]
      · intro x hx
        rcases List.mem_append.1 hx with hx | hx
        · obtain ⟨c, hc, rfl⟩ := List.mem_map.1 hx
          split
          · exact .inl rfl
          · rename_i hne
            rcases hm c hc with h | h | h
            · exact absurd h hne
            · exact .inl h
            · exact .inr h
        · rcases List.mem_cons.1 hx with hx | hx
          · exact .inl hx
          · exact hs x hx
    simp only [temps, List.mem_cons, List.not_mem_nil, or_false] at ht
    rcases ht with rfl | rfl | rfl | rfl
    · exact key _ (by decide +kernel)
    · exact key _ (by decide +kernel)
    · exact key _ (by decide +kernel)
    · exact key _ (by decide +kernel)
  · simp only [temps, List.nodup_cons, List.mem_cons, List.not_mem_nil, or_false, not_or, String.append_right_inj]
    refine ⟨⟨by decide, by decide, by decide⟩, ⟨by decide, by decide⟩, by decide, by simp, by simp⟩

/-! ## C64: `push` and `pull` -/

/-- the names that `push` needs for itself -/
def pushNames (k : String) : Prop := ∃ n, k = tmpName n

theorem push_core (i : Interp V) (ns : Space V) (msg : String) (l : List (String × V)) (hi : ∀ e ∈ l, i.ident e.1 = true) (hn : (l.map (·.1)).Nodup)
    (ht : ∀ e ∈ l, ¬ pushNames e.1) :
    (handle i ns msg (pushReq i l)).2 = sent i (.ok .nothing) ∧
    ∀ x, get x (handle i ns msg (pushReq i l)).1 = if x ∈ temps msg then none else match get x l with | some v => some (.user v) | none => get x ns := by
  have h1 : resolveAll ns ((l.map (fun e => (e.1, Arg.val e.2))).map (·.2)) = .ok (l.map (·.2)) := by
    rw [List.map_map]
    have : (l.map ((fun x : String × Arg V => x.2) ∘ fun e => (e.1, Arg.val e.2))) = (l.map (·.2)).map .val := by rw [List.map_map]; rfl
    rw [this, resolveAll_vals]
  have h2 : ((l.map (fun e => (e.1, Arg.val e.2))).map (·.1)).zip (l.map (·.2)) = l := by
    rw [List.map_map]
    have : (l.map ((fun x : String × Arg V => x.1) ∘ fun e => (e.1, Arg.val e.2))) = l.map (·.1) := rfl
    rw [this]
    clear this h1 hi hn ht
    induction l with
    | nil => rfl
    | cons e t ih => simp [ih]
  obtain ⟨h3, h4⟩ := doApply_eq i ns msg (pushFn i) [] (l.map (fun e => (e.1, .val e.2))) [] (l.map (·.2)) rfl h1
  rw [h2] at h3 h4
  generalize hns1 : (temps msg).foldl (fun n k => set k Cell.internal n) ns = ns1 at h3 h4
  obtain ⟨⟨m, hm⟩, hfr⟩ := pushTmp_fresh ns1
  obtain ⟨h5, h6⟩ := pushLoop_spec i (pushTmp ns1 ns1.length "_IP_PUSH_TMP_") l ns1 hi hn
  have hget1 : ∀ x, get x ns1 = if x ∈ temps msg then some .internal else get x ns := by intro x; rw [← hns1, get_setAll]
  refine ⟨?_, fun x => ?_⟩
  · show (doApply _ _ _ _ _ _).2 = _
    rw [h3]
    simp only [pushFn, h5]
  · show get x (doApply _ _ _ _ _ _).1 = _
    rw [h4 x]
    simp only [pushFn]
    rw [get_del]
    by_cases hx : x ∈ temps msg
    · rw [if_pos hx, if_pos hx]
    · rw [if_neg hx, if_neg hx]
      by_cases hxt : x = pushTmp ns1 ns1.length "_IP_PUSH_TMP_"
      · rw [if_pos hxt]
        have hl : get x l = none := (get_none_iff x l).2 (fun hm' => by
          obtain ⟨e, he, rfl⟩ := List.mem_map.1 hm'
          exact ht e he ⟨m, hxt.trans hm⟩)
        rw [hl]
        have := hget1 x
        rw [hxt, hfr, ← hxt, if_neg hx] at this
        exact this
      · rw [if_neg hxt, h6 x hxt]
        cases get x l with
        | some v => rfl
        | none => simp only; rw [hget1, if_neg hx]

/-- **`push`** of identifiers (that are not reserved for the engine): it succeeds, the names have the pushed values, and nothing else in the namespace has changed. -/
theorem push_effect_partial (i : Interp V) (ns : Space V) (msg : String) (l : List (String × V)) (hi : ∀ e ∈ l, i.ident e.1 = true) (hn : (l.map (·.1)).Nodup)
    (ht : ∀ e ∈ l, e.1 ∉ temps msg ∧ ¬ pushNames e.1) (hp : i.picklable .nothing = true) (hfree : Free (temps msg) ns) :
    (handle i ns msg (pushReq i l)).2 = .ok .nothing ∧
    ∀ x, get x (handle i ns msg (pushReq i l)).1 = match get x l with | some v => some (.user v) | none => get x ns := by
  obtain ⟨h1, h2⟩ := push_core i ns msg l hi hn (fun e he => (ht e he).2)
  refine ⟨by rw [h1]; simp [sent, hp], fun x => ?_⟩
  rw [h2 x]
  by_cases hx : x ∈ temps msg
  · rw [if_pos hx, hfree x hx]
    have : get x l = none := (get_none_iff x l).2 (fun hm => by
      obtain ⟨e, he, rfl⟩ := List.mem_map.1 hm
      exact (ht e he).1 hx)
    rw [this]
  · rw [if_neg hx]

/-- **A `push` that fails** on a name that is not an identifier has assigned the names before it (in the order of the wire), and nothing else. -/
theorem push_failure (i : Interp V) (ns : Space V) (msg : String) (l : List (String × V)) (k : String) (v : V) (t : List (String × V)) (hb : i.ident k = false)
    (hi : ∀ e ∈ l, i.ident e.1 = true) (hn : (l.map (·.1)).Nodup) (ht : ∀ e ∈ l, e.1 ∉ temps msg ∧ ¬ pushNames e.1) (hfree : Free (temps msg) ns) :
    (handle i ns msg (pushReq i (l ++ (k, v) :: t))).2 = .raised (.syntax k) ∧
    ∀ x, get x (handle i ns msg (pushReq i (l ++ (k, v) :: t))).1 = match get x l with | some v => some (.user v) | none => get x ns := by
  generalize hL : l ++ (k, v) :: t = L
  have h1 : resolveAll ns ((L.map (fun e => (e.1, Arg.val e.2))).map (·.2)) = .ok (L.map (·.2)) := by
    rw [List.map_map]
    have : (L.map ((fun x : String × Arg V => x.2) ∘ fun e => (e.1, Arg.val e.2))) = (L.map (·.2)).map .val := by rw [List.map_map]; rfl
    rw [this, resolveAll_vals]
  have h2 : ((L.map (fun e => (e.1, Arg.val e.2))).map (·.1)).zip (L.map (·.2)) = L := by
    rw [List.map_map]
    have : (L.map ((fun x : String × Arg V => x.1) ∘ fun e => (e.1, Arg.val e.2))) = L.map (·.1) := rfl
    rw [this]
    clear this h1 hL
    induction L with
    | nil => rfl
    | cons e t ih => simp [ih]
  obtain ⟨h3, h4⟩ := doApply_eq i ns msg (pushFn i) [] (L.map (fun e => (e.1, .val e.2))) [] (L.map (·.2)) rfl h1
  rw [h2] at h3 h4
  generalize hns1 : (temps msg).foldl (fun n k => set k Cell.internal n) ns = ns1 at h3 h4
  obtain ⟨⟨m, hm⟩, hfr⟩ := pushTmp_fresh ns1
  obtain ⟨h5, h6⟩ := pushLoop_bad i (pushTmp ns1 ns1.length "_IP_PUSH_TMP_") k v t hb l ns1 hi hn
  rw [hL] at h5 h6
  have hget1 : ∀ x, get x ns1 = if x ∈ temps msg then some .internal else get x ns := by intro x; rw [← hns1, get_setAll]
  refine ⟨?_, fun x => ?_⟩
  · show (doApply _ _ _ _ _ _).2 = _
    rw [h3]
    simp only [pushFn, h5, sent]
  · show get x (doApply _ _ _ _ _ _).1 = _
    rw [h4 x]
    simp only [pushFn]
    rw [get_del]
    by_cases hx : x ∈ temps msg
    · rw [if_pos hx, hfree x hx]
      have : get x l = none := (get_none_iff x l).2 (fun hm => by
        obtain ⟨e, he, rfl⟩ := List.mem_map.1 hm
        exact (ht e he).1 hx)
      rw [this]
    · rw [if_neg hx]
      by_cases hxt : x = pushTmp ns1 ns1.length "_IP_PUSH_TMP_"
      · rw [if_pos hxt]
        have hl : get x l = none := (get_none_iff x l).2 (fun hm' => by
          obtain ⟨e, he, rfl⟩ := List.mem_map.1 hm'
          exact (ht e he).2 ⟨m, hxt.trans hm⟩)
        rw [hl]
        have := hget1 x
        rw [hxt, hfr, ← hxt, if_neg hx] at this
        exact this
      · rw [if_neg hxt, h6 x hxt]
        cases get x l with
        | some v => rfl
        | none => simp only; rw [hget1, if_neg hx]

theorem evalKeys_ok (i : Interp V) (ns : Space V) : ∀ (ks : List String) (vs : List V), ks.map (fun k => get k ns) = vs.map (fun v => some (.user v)) → (∀ k ∈ ks, i.ident k = true) → evalKeys i ns ks = .ok vs
  | [], [], _, _ => rfl
  | [], v :: t, h, _ => by simp at h
  | k :: t, [], h, _ => by simp at h
  | k :: t, v :: vs, h, hi => by
    simp only [List.map_cons, List.cons.injEq] at h
    have ih := evalKeys_ok i ns t vs h.2 (fun k hk => hi k (List.mem_cons_of_mem _ hk))
    simp only [evalKeys, evalKey, hi k List.mem_cons_self, if_true, h.1, ih]

theorem evalKeys_missing (i : Interp V) (ns : Space V) (k : String) (t : List String) (hk : i.ident k = true) (hm : get k ns = none) : ∀ (ks : List String) (vs : List V),
    ks.map (fun k => get k ns) = vs.map (fun v => some (.user v)) → (∀ k ∈ ks, i.ident k = true) → evalKeys i ns (ks ++ k :: t) = .error (.name k)
  | [], [], _, _ => by simp [evalKeys, evalKey, hk, hm]
  | [], v :: t, h, _ => by simp at h
  | k' :: t, [], h, _ => by simp at h
  | k' :: t', v :: vs, h, hi => by
    simp only [List.map_cons, List.cons.injEq] at h
    have ih := evalKeys_missing i ns k t hk hm t' vs h.2 (fun k hk => hi k (List.mem_cons_of_mem _ hk))
    simp only [List.cons_append, evalKeys, evalKey, hi k' List.mem_cons_self, if_true, h.1, ih]

/-- the names of a `pull`, as a list -/
def Keys.list : Keys → List String
  | .one k => [k]
  | .many l => l

theorem pull_eq (i : Interp V) (ns : Space V) (msg : String) (ks : Keys) (hfree : Free (temps msg) ns) :
    (handle i ns msg (pullReq i ks)).2 = sent i (pullFn i ks ((temps msg).foldl (fun n k => set k .internal n) ns) [] []).2 ∧
    ∀ x, get x (handle i ns msg (pullReq i ks)).1 = get x ns := by
  obtain ⟨h3, h4⟩ := doApply_eq i ns msg (pullFn i ks) [] [] [] [] rfl rfl
  refine ⟨h3, fun x => ?_⟩
  show get x (doApply _ _ _ _ _ _).1 = _
  rw [h4 x]
  by_cases hx : x ∈ temps msg
  · rw [if_pos hx, hfree x hx]
  · rw [if_neg hx]
    simp only [pullFn]
    rw [get_setAll, if_neg hx]

/-- **`pull`** returns the values of the names, in the order in which they were asked for, and changes nothing. -/
theorem pull_values (i : Interp V) (ns : Space V) (msg : String) (ks : List String) (vs : List V) (hfree : Free (temps msg) ns) (hi : ∀ k ∈ ks, i.ident k = true)
    (hv : ks.map (fun k => get k ns) = vs.map (fun v => some (.user v))) (hp : ∀ r, i.picklable r = true) :
    (handle i ns msg (pullReq i (.many ks))).2 = .ok (.vals vs) ∧ (∀ x, get x (handle i ns msg (pullReq i (.many ks))).1 = get x ns) := by
  obtain ⟨h1, h2⟩ := pull_eq i ns msg (.many ks) hfree
  refine ⟨?_, h2⟩
  rw [h1]
  have : ks.map (fun k => get k ((temps msg).foldl (fun n k => set k Cell.internal n) ns)) = vs.map (fun v => some (.user v)) := by
    rw [← hv]
    apply List.map_congr_left
    intro k hk
    rw [get_setAll, if_neg]
    intro hc
    have hnone := hfree k hc
    have : get k ns ∈ ks.map (fun k => get k ns) := List.mem_map.2 ⟨k, hk, rfl⟩
    rw [hv, hnone] at this
    obtain ⟨v, _, he⟩ := List.mem_map.1 this
    cases he
  simp only [pullFn, evalKeys_ok i _ ks vs this hi, sent, hp, if_true]

/-- **`pull` of one name**, and `view[name]` -/
theorem pull_one (i : Interp V) (ns : Space V) (msg : String) (k : String) (hfree : Free (temps msg) ns) (hi : i.ident k = true) (hp : ∀ r, i.picklable r = true) :
    (∀ v, get k ns = some (.user v) → (handle i ns msg (pullReq i (.one k))).2 = .ok (.val v)) ∧
    (get k ns = none → k ∉ temps msg → (handle i ns msg (pullReq i (.one k))).2 = .raised (.name k)) ∧
    ∀ x, get x (handle i ns msg (pullReq i (.one k))).1 = get x ns := by
  obtain ⟨h1, h2⟩ := pull_eq i ns msg (.one k) hfree
  refine ⟨fun v hv => ?_, fun hn hk => ?_, h2⟩
  · rw [h1]
    have hk : k ∉ temps msg := fun hc => by have := hfree k hc; rw [hv] at this; cases this
    simp only [pullFn, evalKey, hi, if_true, get_setAll, hk, if_false, hv, sent, hp]
  · rw [h1]
    simp only [pullFn, evalKey, hi, if_true, get_setAll, hk, if_false, hn, sent]

/-- **A missing name** is a `NameError` for the first name that is missing -/
theorem pull_missing (i : Interp V) (ns : Space V) (msg : String) (ks : List String) (vs : List V) (k : String) (t : List String) (hfree : Free (temps msg) ns)
    (hi : ∀ x ∈ ks, i.ident x = true) (hik : i.ident k = true) (hv : ks.map (fun k => get k ns) = vs.map (fun v => some (.user v))) (hm : get k ns = none) (hk : k ∉ temps msg) :
    (handle i ns msg (pullReq i (.many (ks ++ k :: t)))).2 = .raised (.name k) := by
  obtain ⟨h1, _⟩ := pull_eq i ns msg (.many (ks ++ k :: t)) hfree
  rw [h1]
  have : ks.map (fun k => get k ((temps msg).foldl (fun n k => set k Cell.internal n) ns)) = vs.map (fun v => some (.user v)) := by
    rw [← hv]
    apply List.map_congr_left
    intro k hk
    rw [get_setAll, if_neg]
    intro hc
    have hnone := hfree k hc
    have : get k ns ∈ ks.map (fun k => get k ns) := List.mem_map.2 ⟨k, hk, rfl⟩
    rw [hv, hnone] at this
    obtain ⟨v, _, he⟩ := List.mem_map.1 this
    cases he
  simp only [pullFn, evalKeys_missing i _ k t hik (by rw [get_setAll, if_neg hk]; exact hm) ks vs this hi, sent]

end IPP.Namespace
