import Verif.Namespace.System
import Verif.Map.Props

/-!
# `scatter`, `gather` and `BroadcastView.map` on the engines (property C73)
(client/view.py:800-864, 1064-1178; the partitioning is that of `Verif.Map`, the engines and queues are those of `Verif.Namespace.Model`)

The client sends its requests without waiting; engines, queues and other clients are interleaved in every way.

Simplifications: engines are named by numbers, and each has its own message id for its part of a broadcast (view.py:938), given by functions; the mapped function is a function of its arguments
that returns or raises (what it does to the namespace is not followed); sequences are lists (`seq = list(seq)` at 1143-1147 for others).
-/
namespace IPP.Namespace
open IPP.Map (pyMap piece getPartition joinPartitions Dist)
variable {V : Type}

/-- which values are Python lists — client/map.py:29-75 -/
structure Lists (V : Type) where
  of : List V → V
  to : V → Option (List V)
  inv : ∀ l, to (of l) = some l

/-- `partition = mapObject.getPartition(seq, index, nparts)` (view.py:818); the index is always within range -/
def part (d : Dist) (seq : List V) (j q : Nat) : List V := match getPartition d seq j q seq.length with
  | .ok p => p
  | .error _ => []

/-- what `DirectView.scatter(x, seq, targets=ts)` sends (view.py:817-823), in order: engine, message id, request. `msgs j`: the id of the message to the j-th target. -/
def scatterSends (i : Interp V) (L : Lists V) (d : Dist) (msgs : Nat → String) (ts : List Nat) (x : String) (seq : List V) : List (Nat × String × Req V) :=
  ts.zipIdx.map (fun p => (p.1, msgs p.2, pushReq i [(x, L.of (part d seq p.2 ts.length))]))

/-- what `DirectView.gather(x, targets=ts)` sends (view.py:852-853) -/
def gatherSends (i : Interp V) (msgs : Nat → String) (ts : List Nat) (x : String) : List (Nat × String × Req V) :=
  ts.zipIdx.map (fun p => (p.1, msgs p.2, pullReq i (.one x)))

/-- `for seq_name in sequence_names: sequences.append(ip.user_ns.pop(seq_name))` (view.py:1077-1078) -/
def popAll : List String → Space V → Space V × Except Err (List V)
  | [], ns => (ns, .ok [])
  | x :: t, ns => match get x ns with
    | some (.user v) => match popAll t (del x ns) with
      | (ns', .ok l) => (ns', .ok (v :: l))
      | (ns', .error e) => (ns', .error e)
    | _ => (ns, .error (.name x))

/-- `list(map(f, *sequences))` (view.py:1079): the first exception ends it -/
def listMap (f : List V → Except Err V) (seqs : List (List V)) : Except Err (List V) := (pyMap id seqs).mapM f

/-- `_broadcast_map(f, *sequence_names)` (view.py:1064-1079) -/
def mapFn (L : Lists V) (f : List V → Except Err V) (names : List String) : Fn V := fun ns _ _ => match popAll names ns with
  | (ns', .error e) => (ns', .raised e)
  | (ns', .ok vs) => (ns', match vs.mapM L.to with
    | none => .raised (.user "not iterable")
    | some [] => .raised (.user "map() must have at least two arguments.")
    | some seqs => match listMap f seqs with
      | .ok l => .ok (.val (L.of l))
      | .error e => .raised e)

/-- client/view.py:1065-1081, 1083-1182 -/
def mapReq (L : Lists V) (f : List V → Except Err V) (names : List String) : Req V := .apply (mapFn L f names) [] []

/-- what `BroadcastView.map(f, *seqs)` sends (view.py:1138-1152): every sequence is scattered under a name of its own, then the call goes to all targets at once. `ts`: the targets of the
scatters, `ts'`: those of the call (both are looked up when they are needed). -/
def mapSends (i : Interp V) (L : Lists V) (f : List V → Except Err V) (msgs : Nat → Nat → String) (mm : Nat → String) (ts ts' : List Nat) (names : List String) (seqs : List (List V)) :
    List (Nat × String × Req V) :=
  (names.zip seqs).zipIdx.flatMap (fun p => scatterSends i L .b (msgs p.2) ts p.1.1 p.1.2) ++ ts'.zipIdx.map (fun p => (p.1, mm p.2, mapReq L f names))

/-- the value of the `AsyncMapResult`: the replies joined in the order of the targets (C04); `none`: it raises — client/asyncresult.py:1088-1103 -/
def joined (L : Lists V) (d : Dist) (outs : List (Outcome V)) : Option (List V) :=
  match outs.mapM (fun o => match o with
    | .ok (.val v) => L.to v
    | _ => none) with
  | none => none
  | some parts => match joinPartitions d parts with
    | .ok l => some l
    | .error _ => none

/-! ## Specification vocabulary -/

/-- what a client sends through one queue, in order -/
def sendsOf (c q : Nat) (h : List (Ev V)) : List (Nat × String × Req V) := h.filterMap (fun e => match e with
  | .send k m r => if k.client = c ∧ k.queue = q then some (k.engine, m, r) else none
  | .take _ => none)

/-- the part for one engine -/
def forEngine (e : Nat) (l : List (Nat × String × Req V)) : List (String × Req V) := l.filterMap (fun x => if x.1 = e then some x.2 else none)

/-- Nothing else at the engine interferes: the message ids are different, requests other than `mine` do not assign the variables `names`, no request assigns the engine's temporary variables
for `mine`, and the engine starts without them. -/
structure Undisturbed (i : Interp V) (ns : Nat → Space V) (h : List (Ev V)) (e : Nat) (names mine : List String) : Prop where
  ids : ((sentTo e h).map (·.1)).Nodup
  others : ∀ r ∈ sentTo e h, r.1 ∉ mine → ∀ x ∈ names, Keeps i x r.1 r.2
  noTemps : ∀ r ∈ sentTo e h, r.1 ∉ mine → ∀ m ∈ mine, KeepsAll i (temps m) r.1 r.2
  free : ∀ m ∈ mine, Free (temps m) (ns e)

/-- names that can be pushed by these messages -/
def GoodNames (i : Interp V) (names mine : List String) : Prop := names.Nodup ∧ ∀ x ∈ names, i.ident x = true ∧ ¬ pushNames x ∧ ∀ m ∈ mine, x ∉ temps m

/-! ## Lemmas -/

theorem sentOn_eq (k : Key) (h : List (Ev V)) : sentOn k h = forEngine k.engine (sendsOf k.client k.queue h) := by
  induction h with
  | nil => rfl
  | cons ev t ih =>
    cases ev with
    | take _ => simpa [sentOn, sendsOf] using ih
    | send k' m r =>
      simp only [sentOn, sendsOf, List.filterMap_cons] at ih ⊢
      by_cases hk : k' = k
      · subst hk
        simp only [if_true, and_self, forEngine, List.filterMap_cons]
        rw [ih]; rfl
      · rw [if_neg hk]
        by_cases hcq : k'.client = k.client ∧ k'.queue = k.queue
        · rw [if_pos hcq]
          have : k'.engine ≠ k.engine := by
            intro he
            apply hk
            cases k; cases k'; simp_all
          simp only [forEngine, List.filterMap_cons, if_neg this]
          exact ih
        · rw [if_neg hcq]; exact ih

theorem sentOn_sublist (k : Key) (h : List (Ev V)) : List.Sublist (sentOn k h) (sentTo k.engine h) := by
  induction h with
  | nil => exact List.Sublist.slnil
  | cons ev t ih =>
    simp only [sentOn, sentTo, List.filterMap_cons] at ih ⊢
    cases ev with
    | take _ => exact ih
    | send k' m r =>
      simp only
      by_cases hkk : k' = k
      · subst hkk; simp only [if_true]; exact ih.cons_cons _
      · rw [if_neg hkk]
        by_cases hee : k'.engine = k.engine
        · rw [if_pos hee]; exact ih.cons _
        · rw [if_neg hee]; exact ih

/-- A request that has been executed: it was executed after all requests that its client sent before it through the same queue, and its reply is that of executing it after some requests. -/
theorem executed_after (i : Interp V) (ns : Nat → Space V) (h : List (Ev V)) (k : Key) (A c : List (String × Req V)) (m2 : String) (r2 : Req V)
    (hsent : sentOn k h = A ++ (m2, r2) :: c) (hu : ((sentTo k.engine h).map (·.1)).Nodup) (o : Outcome V) (ho : (k, m2, r2, o) ∈ (run i (fresh ns) h).log) :
    ∃ E E', (∀ e ∈ A, e ∈ E) ∧ (∀ e ∈ E ++ E', e ∈ sentTo k.engine h) ∧ ((E ++ (m2, r2) :: E').map (·.1)).Nodup ∧ o = (handle i (oneByOne i (ns k.engine) E).1 m2 r2).2 ∧
      (run i (fresh ns) h).ns k.engine = (oneByOne i (ns k.engine) (E ++ (m2, r2) :: E')).1 := by
  rw [show (run i (fresh ns) h).ns k.engine = (oneByOne i (ns k.engine) ((doneAt k.engine (run i (fresh ns) h)).map (fun x => (x.1, x.2.1)))).1 from
    (congrArg Prod.fst (engine_sequential i ns h k.engine))]
  generalize hS : run i (fresh ns) h = S at ho
  have hord := executed_in_order i ns h k
  have hseq := engine_sequential i ns h k.engine
  have hdone := doneAt_sent i ns h k.engine
  rw [hS] at hord hseq hdone
  obtain ⟨L1, L2, hlog⟩ := List.append_of_mem ho
  have hk : doneOn k S = L1.filterMap (fun x => if x.1 = k then some (x.2.1, x.2.2.1) else none) ++ (m2, r2) ::
      L2.filterMap (fun x => if x.1 = k then some (x.2.1, x.2.2.1) else none) := by
    simp [doneOn, hlog, List.filterMap_append]
  have he : doneAt k.engine S = L1.filterMap (fun x => if x.1.engine = k.engine then some x.2 else none) ++ (m2, r2, o) ::
      L2.filterMap (fun x => if x.1.engine = k.engine then some x.2 else none) := by
    simp [doneAt, hlog, List.filterMap_append]
  generalize hK1 : L1.filterMap (fun x => if x.1 = k then some (x.2.1, x.2.2.1) else none) = K1 at hk
  generalize L2.filterMap (fun x => if x.1 = k then some (x.2.1, x.2.2.1) else none) = K2 at hk
  generalize hE1 : L1.filterMap (fun x => if x.1.engine = k.engine then some x.2 else none) = E1 at he
  generalize L2.filterMap (fun x => if x.1.engine = k.engine then some x.2 else none) = E2 at he
  have hsub : (sentOn k h).map (·.1) |>.Nodup := ((sentOn_sublist k h).map _).nodup hu
  have hK1eq : K1 = A := by
    rw [hk, hsent] at hord
    have hnd := hsub
    rw [hsent] at hnd
    have hord' : K1 ++ (m2, r2) :: (K2 ++ S.chan k) = A ++ (m2, r2) :: c := by simpa using hord
    have hn2 : ((K1 ++ (m2, r2) :: (K2 ++ S.chan k)).map (·.1)).Nodup := by rw [hord']; exact hnd
    exact prefix_unique (f := fun p : String × Req V => p.1) hord' hn2
  have hd : ((doneAt k.engine S).map (·.1)).Nodup := hS ▸ done_nodup i ns h k.engine hu
  have hreqs : (doneAt k.engine S).map (fun x => (x.1, x.2.1)) = E1.map (fun x => (x.1, x.2.1)) ++ (m2, r2) :: E2.map (fun x => (x.1, x.2.1)) := by
    rw [he]; simp
  refine ⟨E1.map (fun x => (x.1, x.2.1)), E2.map (fun x => (x.1, x.2.1)), ?_, ?_, ?_, ?_, by rw [hreqs]⟩
  · intro e hem
    rw [← hK1eq, ← hK1, List.mem_filterMap] at hem
    obtain ⟨y, hy, h1⟩ := hem
    split at h1
    · rename_i hyk
      rw [← Option.some.inj h1, ← hE1]
      exact List.mem_map.2 ⟨y.2, List.mem_filterMap.2 ⟨y, hy, by simp [hyk]⟩, rfl⟩
    · cases h1
  · intro e hem
    rw [← List.map_append] at hem
    obtain ⟨y, hy, rfl⟩ := List.mem_map.1 hem
    exact hdone y (by rw [he]; simp at hy ⊢; rcases hy with h | h <;> simp [h])
  · rw [he] at hd
    simpa [Function.comp_def] using hd
  · have hout := congrArg Prod.snd hseq
    simp only at hout
    rw [hreqs, oneByOne_append, he, List.map_append, List.map_cons] at hout
    simp only [oneByOne] at hout
    have := List.append_inj hout (by rw [oneByOne_length]; simp)
    exact (List.cons.inj this.2).1

theorem push_keeps (i : Interp V) (x y m : String) (v : V) (hi : i.ident y = true) (hp : ¬ pushNames y) (hxy : x ≠ y) (hx : x ∉ temps m) : Keeps i x m (pushReq i [(y, v)]) := by
  intro ns
  rw [(push_core i ns m [(y, v)] (by simpa using hi) (by simp) (by simpa using hp)).2 x, if_neg hx]
  have : get x [(y, v)] = none := by simp [get, Ne.symm hxy]
  rw [this]

theorem push_sets (i : Interp V) (x m : String) (v : V) (hi : i.ident x = true) (hp : ¬ pushNames x) (hx : x ∉ temps m) (ns : Space V) : get x (handle i ns m (pushReq i [(x, v)])).1 = some (.user v) := by
  rw [(push_core i ns m [(x, v)] (by simpa using hi) (by simp) (by simpa using hp)).2 x, if_neg hx]
  simp [get]

theorem push_keepsAll (i : Interp V) (m m' y : String) (v : V) (hi : i.ident y = true) (hp : ¬ pushNames y) (hy : y ∉ temps m) : KeepsAll i (temps m) m' (pushReq i [(y, v)]) := by
  intro ns hf x hx
  rw [(push_core i ns m' [(y, v)] (by simpa using hi) (by simp) (by simpa using hp)).2 x]
  split
  · rfl
  · have : get x [(y, v)] = none := by
      have : y ≠ x := fun e => hy (e ▸ hx)
      simp [get, this]
    rw [this]
    exact hf x hx

/-- the variable has the pushed value after some requests of which the push is one and the others keep the variable -/
theorem bound_after (i : Interp V) (x m : String) (v : V) (hi : i.ident x = true) (hp : ¬ pushNames x) (hx : x ∉ temps m) (E : List (String × Req V)) (hin : (m, pushReq i [(x, v)]) ∈ E)
    (hnd : (E.map (·.1)).Nodup) (hk : ∀ e ∈ E, e.1 ≠ m → Keeps i x e.1 e.2) (ns : Space V) : get x (oneByOne i ns E).1 = some (.user v) := by
  obtain ⟨P, Q, rfl⟩ := List.append_of_mem hin
  have hQ : ∀ e ∈ Q, e.1 ≠ m := by
    intro e heq hc
    rw [List.map_append, List.map_cons] at hnd
    have := (List.nodup_cons.1 (List.nodup_append.1 hnd).2.1).1
    exact this (List.mem_map.2 ⟨e, heq, hc⟩)
  rw [oneByOne_append]
  simp only [oneByOne]
  rw [oneByOne_keeps i x Q _ (fun e he => hk e (by simp [he]) (hQ e he)), push_sets i x m v hi hp hx]

theorem before_nodup {E E' : List (String × Req V)} {m2 : String} {r2 : Req V} (h : ((E ++ (m2, r2) :: E').map (·.1)).Nodup) : (E.map (·.1)).Nodup ∧ m2 ∉ E.map (·.1) := by
  rw [List.map_append, List.map_cons] at h
  refine ⟨(List.nodup_append.1 h).1, fun hm => ?_⟩
  exact (List.nodup_append.1 h).2.2 m2 hm m2 (by simp) rfl

theorem eq_of_id {l : List (String × Req V)} (hn : (l.map (·.1)).Nodup) {a b : String × Req V} (ha : a ∈ l) (hb : b ∈ l) (h : a.1 = b.1) : a = b := by
  induction l with
  | nil => cases ha
  | cons x t ih =>
    rw [List.map_cons, List.nodup_cons] at hn
    rcases List.mem_cons.1 ha with rfl | ha' <;> rcases List.mem_cons.1 hb with rfl | hb'
    · rfl
    · exact absurd (List.mem_map.2 ⟨b, hb', h.symm⟩) hn.1
    · exact absurd (List.mem_map.2 ⟨a, ha', h⟩) hn.1
    · exact ih hn.2 ha' hb'

theorem forEngine_append (e : Nat) (a b : List (Nat × String × Req V)) : forEngine e (a ++ b) = forEngine e a ++ forEngine e b := by simp [forEngine]

theorem forEngine_none (e : Nat) (g : Nat → String × Req V) (ts : List Nat) (n : Nat) (h : e ∉ ts) : forEngine e ((ts.zipIdx n).map (fun p => (p.1, g p.2))) = [] := by
  induction ts generalizing n with
  | nil => rfl
  | cons t ts ih =>
    simp only [List.mem_cons, not_or] at h
    simp only [List.zipIdx_cons, List.map_cons, forEngine, List.filterMap_cons]
    rw [if_neg (Ne.symm h.1)]
    exact ih (n + 1) h.2

theorem forEngine_one (g : Nat → String × Req V) (ts : List Nat) (hn : ts.Nodup) : ∀ (n j e : Nat), ts[j]? = some e → forEngine e ((ts.zipIdx n).map (fun p => (p.1, g p.2))) = [g (n + j)] := by
  induction ts with
  | nil => intro n j e h; simp at h
  | cons t ts ih =>
    intro n j e h
    rw [List.nodup_cons] at hn
    simp only [List.zipIdx_cons, List.map_cons]
    cases j with
    | zero =>
      simp at h
      subst h
      have := forEngine_none t g ts (n + 1) hn.1
      simp only [forEngine, List.filterMap_cons, if_true] at this ⊢
      rw [this]; rfl
    | succ j =>
      simp at h
      have hne : t ≠ e := by
        intro ht; subst ht
        exact hn.1 (List.mem_of_getElem? h)
      have := ih hn.2 (n + 1) j e h
      simp only [forEngine, List.filterMap_cons, if_neg hne] at this ⊢
      rw [this]; congr 2; omega

theorem part_eq (d : Dist) (seq : List V) (j q : Nat) (h : j < q) : part d seq j q = piece d seq j q seq.length := by
  unfold part; rw [IPP.Map.getPartition_eq d seq j q _ h]

theorem scatter_for (i : Interp V) (L : Lists V) (d : Dist) (msgs : Nat → String) (ts : List Nat) (hn : ts.Nodup) (x : String) (seq : List V) (j e : Nat) (hj : ts[j]? = some e) :
    forEngine e (scatterSends i L d msgs ts x seq) = [(msgs j, pushReq i [(x, L.of (part d seq j ts.length))])] := by
  have := forEngine_one (fun j => (msgs j, pushReq i [(x, L.of (part d seq j ts.length))])) ts hn 0 j e hj
  simpa [scatterSends] using this

theorem gather_for (i : Interp V) (msgs : Nat → String) (ts : List Nat) (hn : ts.Nodup) (x : String) (j e : Nat) (hj : ts[j]? = some e) :
    forEngine e (gatherSends i msgs ts x) = [(msgs j, pullReq i (.one x))] := by
  have := forEngine_one (fun j => (msgs j, pullReq i (.one x))) ts hn 0 j e hj
  simpa [gatherSends] using this

theorem pull_keepsAll (i : Interp V) (m m' x : String) : KeepsAll i (temps m) m' (pullReq i (.one x)) := by
  intro ns hf y hy
  obtain ⟨-, h4⟩ := doApply_eq i ns m' (pullFn i (.one x)) [] [] [] [] rfl rfl
  show get y (doApply _ _ _ _ _ _).1 = _
  rw [h4 y]
  split
  · rfl
  · rename_i h
    show get y ((temps m').foldl (fun n k => set k .internal n) ns) = none
    rw [get_setAll, if_neg h]
    exact hf y hy

/-! ## scatter and gather -/

/-- C73, one engine: the reply to the pull of the gather is the engine's part. -/
theorem gather_reply (i : Interp V) (L : Lists V) (hp : ∀ r, i.picklable r = true) (ns : Nat → Space V) (h : List (Ev V)) (c q : Nat) (d : Dist) (m1 m2 : Nat → String) (ts : List Nat)
    (x : String) (seq : List V) (pre mid post : List (Nat × String × Req V)) (hts : ts.Nodup)
    (hsent : sendsOf c q h = pre ++ scatterSends i L d m1 ts x seq ++ mid ++ gatherSends i m2 ts x ++ post) (j e : Nat) (hj : ts[j]? = some e)
    (hu : Undisturbed i ns h e [x] [m1 j, m2 j]) (hg : GoodNames i [x] [m1 j, m2 j]) (o : Outcome V) (ho : (⟨c, q, e⟩, m2 j, pullReq i (.one x), o) ∈ (run i (fresh ns) h).log) :
    o = .ok (.val (L.of (part d seq j ts.length))) := by
  have hs : sentOn ⟨c, q, e⟩ h = (forEngine e pre ++ (m1 j, pushReq i [(x, L.of (part d seq j ts.length))]) :: forEngine e mid) ++ (m2 j, pullReq i (.one x)) :: forEngine e post := by
    rw [sentOn_eq]
    simp only [hsent, forEngine_append, scatter_for i L d m1 ts hts x seq j e hj, gather_for i m2 ts hts x j e hj]
    simp
  obtain ⟨E, E', h1, h2', h3', h5, -⟩ := executed_after i ns h ⟨c, q, e⟩ _ _ _ _ hs hu.ids o ho
  have h2 : ∀ r ∈ E, r ∈ sentTo e h := fun r hr => h2' r (by simp [hr])
  obtain ⟨h3, h4⟩ := before_nodup h3'
  obtain ⟨hgn, hg⟩ := hg
  obtain ⟨g1, g2, g3⟩ := hg x (by simp)
  have mine1 : (m1 j, pushReq i [(x, L.of (part d seq j ts.length))]) ∈ E := h1 _ (by simp)
  have hcase : ∀ r ∈ E, r.1 ≠ m1 j → r.1 ∉ [m1 j, m2 j] := by
    intro r hr hne
    have : r.1 ≠ m2 j := fun hc => h4 (List.mem_map.2 ⟨r, hr, hc⟩)
    simp [hne, this]
  have hx : get x (oneByOne i (ns e) E).1 = some (.user (L.of (part d seq j ts.length))) := by
    apply bound_after i x (m1 j) _ g1 g2 (g3 _ (by simp)) E mine1 h3
    intro r hr hne
    exact hu.others r (h2 r hr) (hcase r hr hne) x (by simp)
  have hf : Free (temps (m2 j)) (oneByOne i (ns e) E).1 := by
    apply oneByOne_free
    · intro r hr
      by_cases hne : r.1 = m1 j
      · have : r = (m1 j, pushReq i [(x, L.of (part d seq j ts.length))]) := eq_of_id h3 hr mine1 hne
        rw [this]
        exact push_keepsAll i _ _ x _ g1 g2 (g3 _ (by simp))
      · exact hu.noTemps r (h2 r hr) (hcase r hr hne) _ (by simp)
    · exact hu.free _ (by simp)
  rw [h5]
  exact (pull_one i _ (m2 j) x hf g1 hp).1 _ hx

theorem mapM_outs (L : Lists V) (parts : List (List V)) :
    (parts.map (fun p => (Outcome.ok (.val (L.of p)) : Outcome V))).mapM (fun o => match o with
      | .ok (.val v) => L.to v
      | _ => none) = some parts := by
  induction parts with
  | nil => rfl
  | cons p t ih => simp [L.inv, ih]

/-- **C73: scatter and gather.** A client scatters a sequence over engines and gathers it again, through one queue and without waiting in between. Whatever other clients do with other variables and
however everything is interleaved: when the replies are there, the gathered value is the sequence. -/
theorem scatter_then_gather (i : Interp V) (L : Lists V) (hp : ∀ r, i.picklable r = true) (ns : Nat → Space V) (h : List (Ev V)) (c q : Nat) (d : Dist) (m1 m2 : Nat → String) (ts : List Nat)
    (x : String) (seq : List V) (pre mid post : List (Nat × String × Req V)) (hts : ts.Nodup) (hne : ts ≠ [])
    (hsent : sendsOf c q h = pre ++ scatterSends i L d m1 ts x seq ++ mid ++ gatherSends i m2 ts x ++ post)
    (hu : ∀ j e, ts[j]? = some e → Undisturbed i ns h e [x] [m1 j, m2 j]) (hg : ∀ j, j < ts.length → GoodNames i [x] [m1 j, m2 j])
    (outs : List (Outcome V)) (hlen : outs.length = ts.length)
    (ho : ∀ j e o, ts[j]? = some e → outs[j]? = some o → (⟨c, q, e⟩, m2 j, pullReq i (.one x), o) ∈ (run i (fresh ns) h).log) :
    joined L d outs = some seq := by
  have houts : outs = (List.range ts.length).map (fun j => .ok (.val (L.of (part d seq j ts.length)))) := by
    apply List.ext_getElem?
    intro j
    by_cases hj : j < ts.length
    · obtain ⟨o, hoj⟩ : ∃ o, outs[j]? = some o := ⟨_, List.getElem?_eq_getElem (by omega)⟩
      obtain ⟨e, hej⟩ : ∃ e, ts[j]? = some e := ⟨_, List.getElem?_eq_getElem hj⟩
      rw [hoj, gather_reply i L hp ns h c q d m1 m2 ts x seq pre mid post hts hsent j e hej (hu j e hej) (hg j hj) o (ho j e o hej hoj)]
      simp [hj]
    · rw [List.getElem?_eq_none (by omega), List.getElem?_eq_none (by simp; omega)]
  have hq : 0 < ts.length := List.length_pos_iff.2 hne
  obtain ⟨held, e1, e2, e3⟩ := IPP.Map.scatter_gather d seq ts.length hq
  have hheld : held = (List.range ts.length).map (fun j => part d seq j ts.length) := by
    unfold IPP.Map.scatter at e1
    rw [IPP.Map.mapM_ok _ (fun p => piece d seq p ts.length seq.length) _ (fun p hp => IPP.Map.getPartition_eq d seq p ts.length _ (by simpa using hp))] at e1
    cases e1
    apply List.map_congr_left
    intro j hj
    exact (part_eq d seq j ts.length (by simpa using hj)).symm
  unfold joined
  rw [houts, show ((List.range ts.length).map (fun j => (Outcome.ok (.val (L.of (part d seq j ts.length))) : Outcome V))) = held.map (fun p => .ok (.val (L.of p))) by rw [hheld, List.map_map]; rfl,
    mapM_outs]
  simp only [IPP.Map.gather] at e3
  simp only [e3]

/-! ## BroadcastView.map -/

/-- the values of several variables -/
theorem popAll_ok (vals : String → V) : ∀ (names : List String) (ns : Space V), names.Nodup → (∀ x ∈ names, get x ns = some (.user (vals x))) →
    (popAll names ns).2 = .ok (names.map vals) ∧ ∀ y, get y (popAll names ns).1 = if y ∈ names then none else get y ns
  | [], ns, _, _ => by simp [popAll]
  | x :: t, ns, hn, h => by
    rw [List.nodup_cons] at hn
    have ih := popAll_ok vals t (del x ns) hn.2 (by
      intro y hy
      rw [get_del, if_neg (by rintro rfl; exact hn.1 hy)]
      exact h y (by simp [hy]))
    have hx := h x (by simp)
    obtain ⟨i1, i2⟩ := ih
    simp only [popAll, hx]
    generalize hp : popAll t (del x ns) = p at i1 i2
    obtain ⟨ns', r⟩ := p
    simp only at i1
    subst i1
    refine ⟨rfl, fun y => ?_⟩
    simp only
    rw [i2 y, get_del]
    by_cases h1 : y = x <;> by_cases h2 : y ∈ t <;> simp [h1, h2]

theorem mapM_to (L : Lists V) : ∀ (l : List (List V)), (l.map L.of).mapM L.to = some l
  | [] => rfl
  | a :: t => by simp [L.inv, mapM_to L t]

/-- the call on an engine whose variables hold lists -/
theorem mapReq_on (i : Interp V) (L : Lists V) (hp : ∀ r, i.picklable r = true) (f : List V → Except Err V) (names : List String) (hne : names ≠ []) (hn : names.Nodup) (m : String)
    (hnt : ∀ x ∈ names, x ∉ temps m) (pieces : String → List V) (ns : Space V) (hv : ∀ x ∈ names, get x ns = some (.user (L.of (pieces x)))) :
    (handle i ns m (mapReq L f names)).2 = (match listMap f (names.map pieces) with
      | .ok l => .ok (.val (L.of l))
      | .error e => .raised e) ∧ ∀ x ∈ names, get x (handle i ns m (mapReq L f names)).1 = none := by
  have h4 := doApply_eq i ns m (mapFn L f names) [] [] [] [] rfl rfl
  obtain ⟨h5, h6⟩ := popAll_ok (fun x => L.of (pieces x)) names ((temps m).foldl (fun n k => set k .internal n) ns) hn (by
    intro x hx
    rw [get_setAll, if_neg (hnt x hx)]
    exact hv x hx)
  have hfn : mapFn L f names ((temps m).foldl (fun n k => set k .internal n) ns) [] [] = ((popAll names ((temps m).foldl (fun n k => set k .internal n) ns)).1,
      match listMap f (names.map pieces) with
      | .ok l => .ok (.val (L.of l))
      | .error e => .raised e) := by
    unfold mapFn
    generalize hpp : popAll names ((temps m).foldl (fun n k => set k .internal n) ns) = p at h5 h6
    obtain ⟨ns', r⟩ := p
    simp only at h5
    subst h5
    simp only
    rw [show names.map (fun x => L.of (pieces x)) = (names.map pieces).map L.of by simp, mapM_to]
    cases hnm : names.map pieces with
    | nil => simp at hnm; exact absurd hnm hne
    | cons a t => rfl
  show (doApply _ _ _ _ _ _).2 = _ ∧ ∀ x ∈ names, get x (doApply _ _ _ _ _ _).1 = none
  constructor
  · rw [h4.1]
    simp only [List.map_nil, List.zip_nil_left] at *
    rw [hfn]
    cases listMap f (names.map pieces) <;> simp [sent, hp]
  · intro x hx
    rw [h4.2 x]
    split
    · rfl
    · simp only [List.map_nil, List.zip_nil_left] at *
      rw [hfn]
      simp only
      rw [h6 x, if_pos hx]

/-- the ids of the messages of one `BroadcastView.map` to one engine -/
def mapMine (msgs : Nat → Nat → String) (mm : Nat → String) (n j : Nat) : List String := (List.range n).map (fun k => msgs k j) ++ [mm j]

theorem mapScatter_for (i : Interp V) (L : Lists V) (msgs : Nat → Nat → String) (ts : List Nat) (hts : ts.Nodup) (j e : Nat) (hj : ts[j]? = some e) : ∀ (l : List ((String × List V) × Nat)),
    forEngine e (l.flatMap (fun p => scatterSends i L .b (msgs p.2) ts p.1.1 p.1.2)) = l.map (fun p => (msgs p.2 j, pushReq i [(p.1.1, L.of (part .b p.1.2 j ts.length))]))
  | [] => rfl
  | p :: t => by
    rw [List.flatMap_cons, forEngine_append, scatter_for i L .b (msgs p.2) ts hts p.1.1 p.1.2 j e hj, mapScatter_for i L msgs ts hts j e hj t]
    rfl

theorem zip_get (names : List String) (seqs : List (List V)) (hn : names.Nodup) (hl : names.length = seqs.length) :
    names.map (fun x => (get x (names.zip seqs)).getD []) = seqs := by
  induction names generalizing seqs with
  | nil => cases seqs with
    | nil => rfl
    | cons _ _ => simp at hl
  | cons x t ih =>
    cases seqs with
    | nil => simp at hl
    | cons s ss =>
      rw [List.nodup_cons] at hn
      simp only [List.zip_cons_cons, List.map_cons, get, if_true, Option.getD_some]
      congr 1
      rw [← ih ss hn.2 (by simpa using hl)]
      apply List.map_congr_left
      intro y hy
      have hxy : x ≠ y := by rintro rfl; exact hn.1 hy
      simp only [if_neg hxy]
      rw [ih ss hn.2 (by simpa using hl)]

/-- C73, one engine: the reply to the call is that of the built-in `map` on the engine's parts, and the temporary variables of the sequences are gone. -/
theorem map_reply (i : Interp V) (L : Lists V) (hp : ∀ r, i.picklable r = true) (ns : Nat → Space V) (h : List (Ev V)) (c q : Nat) (f : List V → Except Err V) (msgs : Nat → Nat → String)
    (mm : Nat → String) (ts : List Nat) (names : List String) (seqs : List (List V)) (pre post : List (Nat × String × Req V)) (hts : ts.Nodup) (hne : names ≠ [])
    (hl : names.length = seqs.length) (hsent : sendsOf c q h = pre ++ mapSends i L f msgs mm ts ts names seqs ++ post) (j e : Nat) (hj : ts[j]? = some e)
    (hu : Undisturbed i ns h e names (mapMine msgs mm names.length j)) (hg : GoodNames i names (mapMine msgs mm names.length j)) (o : Outcome V)
    (ho : (⟨c, q, e⟩, mm j, mapReq L f names, o) ∈ (run i (fresh ns) h).log) :
    o = (match listMap f (seqs.map (fun s => part .b s j ts.length)) with
      | .ok l => .ok (.val (L.of l))
      | .error err => .raised err) ∧ ∀ x ∈ names, get x ((run i (fresh ns) h).ns e) = none := by
  have hcall : forEngine e (ts.zipIdx.map (fun p => (p.1, mm p.2, mapReq L f names))) = [(mm j, mapReq L f names)] := by
    have := forEngine_one (fun j => (mm j, mapReq L f names)) ts hts 0 j e hj
    simpa using this
  have hs : sentOn ⟨c, q, e⟩ h = (forEngine e pre ++ (names.zip seqs).zipIdx.map (fun p => (msgs p.2 j, pushReq i [(p.1.1, L.of (part .b p.1.2 j ts.length))]))) ++
      (mm j, mapReq L f names) :: forEngine e post := by
    rw [sentOn_eq]
    simp only [hsent, mapSends, forEngine_append, mapScatter_for i L msgs ts hts j e hj, hcall]
    simp
  obtain ⟨E, E', h1, h2, h3, h5, h6⟩ := executed_after i ns h ⟨c, q, e⟩ _ _ _ _ hs hu.ids o ho
  obtain ⟨h3a, h3b⟩ := before_nodup h3
  obtain ⟨hgn, hg⟩ := hg
  let P : String → List V := fun x => part .b ((get x (names.zip seqs)).getD []) j ts.length
  have hPs : names.map P = seqs.map (fun s => part .b s j ts.length) := by
    conv => rhs; rw [← zip_get names seqs hgn hl]
    rw [List.map_map]; rfl
  -- the pushes are in `E`
  have hpush : ∀ k x, names[k]? = some x → (msgs k j, pushReq i [(x, L.of (P x))]) ∈ E := by
    intro k x hk
    have hklt : k < names.length := by
      rcases Nat.lt_or_ge k names.length with h | h
      · exact h
      · rw [List.getElem?_eq_none h] at hk; cases hk
    apply h1
    apply List.mem_append_right
    rw [List.mem_map]
    have hkz : (names.zip seqs)[k]? = some (x, seqs[k]'(by omega)) := by
      rw [List.getElem?_zip_eq_some]
      exact ⟨hk, List.getElem?_eq_getElem _⟩
    refine ⟨((x, seqs[k]'(by omega)), k), ?_, ?_⟩
    · rw [List.mem_iff_getElem?]
      exact ⟨k, by rw [List.getElem?_zipIdx, hkz]; simp⟩
    · simp only
      have hgx : (get x (names.zip seqs)).getD [] = seqs[k]'(by omega) := by
        have e1 := congrArg (fun l => l[k]?) (zip_get names seqs hgn hl)
        simp only [List.getElem?_map, hk, Option.map_some] at e1
        rw [List.getElem?_eq_getElem (by omega)] at e1
        exact Option.some.inj e1
      simp only [P, hgx]
  have hidx : ∀ x ∈ names, ∃ k, names[k]? = some x ∧ k < names.length := by
    intro x hx
    obtain ⟨k, hk, e⟩ := List.getElem_of_mem hx
    exact ⟨k, by rw [List.getElem?_eq_getElem hk, e], hk⟩
  have hmine : ∀ k, k < names.length → msgs k j ∈ mapMine msgs mm names.length j := by
    intro k hk
    exact List.mem_append_left _ (List.mem_map.2 ⟨k, by simpa using hk, rfl⟩)
  have hb : ∀ x ∈ names, get x (oneByOne i (ns e) E).1 = some (.user (L.of (P x))) := by
    intro x hx
    obtain ⟨k, hk, hkl⟩ := hidx x hx
    obtain ⟨g1, g2, g3⟩ := hg x hx
    apply bound_after i x (msgs k j) _ g1 g2 (g3 _ (hmine k hkl)) E (hpush k x hk) h3a
    intro r hr hne'
    by_cases hm : r.1 ∈ mapMine msgs mm names.length j
    · rcases List.mem_append.1 hm with hm | hm
      · obtain ⟨k', hk', hkr⟩ := List.mem_map.1 hm
        have hk'' : k' < names.length := by simpa using hk'
        have hn' : names[k']? = some (names[k']'hk'') := List.getElem?_eq_getElem hk''
        have := eq_of_id h3a hr (hpush k' _ hn') hkr.symm
        rw [this]
        obtain ⟨g1', g2', -⟩ := hg (names[k']'hk'') (List.getElem_mem hk'')
        refine push_keeps i x _ _ _ g1' g2' ?_ (g3 _ (hmine k' hk''))
        intro he
        have hkk : k = k' := by
          obtain ⟨hk0, e0⟩ := List.getElem?_eq_some_iff.1 hk
          exact (List.getElem_inj (h₀ := hk0) (h₁ := hk'') hgn).1 (by rw [e0]; exact he)
        exact hne' (by rw [hkk, hkr])
      · rw [List.mem_singleton] at hm
        exact absurd (List.mem_map.2 ⟨r, hr, hm⟩) h3b
    · exact hu.others r (h2 r (by simp [hr])) hm x hx
  have hmm : mm j ∈ mapMine msgs mm names.length j := List.mem_append_right _ (by simp)
  obtain ⟨r1, r2⟩ := mapReq_on i L hp f names hne hgn (mm j) (fun x hx => (hg x hx).2.2 _ hmm) P (oneByOne i (ns e) E).1 hb
  refine ⟨by rw [h5, r1, hPs], fun x hx => ?_⟩
  rw [h6, oneByOne_append]
  simp only [oneByOne]
  rw [oneByOne_keeps i x E']
  · exact r2 x hx
  · intro r hr
    apply hu.others r (h2 r (by simp [hr])) ?_ x hx
    intro hm
    rw [List.map_append, List.map_cons] at h3
    rcases List.mem_append.1 hm with hm | hm
    · obtain ⟨k', hk', hkr⟩ := List.mem_map.1 hm
      have hk'' : k' < names.length := by simpa using hk'
      have := hpush k' _ (List.getElem?_eq_getElem hk'')
      exact (List.nodup_append.1 h3).2.2 r.1 (List.mem_map.2 ⟨_, this, hkr⟩) r.1 (by simp; right; exact ⟨r.2, hr⟩) rfl
    · rw [List.mem_singleton] at hm
      have := (List.nodup_cons.1 (List.nodup_append.1 h3).2.1).1
      exact this (List.mem_map.2 ⟨r, hr, hm⟩)

/-- the error of the first target (in the order of the targets) that failed -/
def firstError : List (Outcome V) → Option Err
  | [] => none
  | .raised e :: _ => some e
  | .ok _ :: t => firstError t

theorem mapM_flatten {α : Type} (f : α → Except Err V) : ∀ (ls : List (List α)), ls.flatten.mapM f = (do return (← ls.mapM (fun l => l.mapM f)).flatten)
  | [] => rfl
  | l :: t => by
    rw [List.flatten_cons, List.mapM_append, mapM_flatten f t, List.mapM_cons]
    cases h1 : l.mapM f <;> simp [bind, Except.bind, pure, Except.pure]
    cases h2 : t.mapM (fun l => l.mapM f) <;> simp

def outOf (L : Lists V) : Except Err (List V) → Outcome V
  | .ok l => .ok (.val (L.of l))
  | .error e => .raised e

theorem outs_ok (L : Lists V) (g : α → Except Err (List V)) : ∀ (l : List α) (parts : List (List V)), l.mapM g = .ok parts → l.map (fun a => outOf L (g a)) = parts.map (fun p => .ok (.val (L.of p)))
  | [], parts, h => by cases h; rfl
  | a :: t, parts, h => by
    rw [List.mapM_cons] at h
    cases h1 : g a with
    | error e => rw [h1] at h; cases h
    | ok p =>
      cases h2 : t.mapM g with
      | error e => rw [h1, h2] at h; cases h
      | ok ps =>
        rw [h1, h2] at h
        cases h
        rw [List.map_cons, outs_ok L g t ps h2, h1]; rfl

theorem outs_error (L : Lists V) (g : α → Except Err (List V)) : ∀ (l : List α) (e : Err), l.mapM g = .error e →
    (l.map (fun a => outOf L (g a))).mapM (fun o => match o with
      | .ok (.val v) => L.to v
      | _ => none) = none ∧ firstError (l.map (fun a => outOf L (g a))) = some e
  | [], e, h => by cases h
  | a :: t, e, h => by
    rw [List.mapM_cons] at h
    cases h1 : g a with
    | error e' =>
      rw [h1] at h; cases h
      simp [h1, outOf, firstError]
    | ok p =>
      cases h2 : t.mapM g with
      | error e' =>
        rw [h1, h2] at h; cases h
        have ih := outs_error L g t e h2
        rw [List.map_cons, h1, List.mapM_cons]
        refine ⟨?_, ih.2⟩
        rw [ih.1]; simp only [outOf, L.inv]; rfl
      | ok ps => rw [h1, h2] at h; cases h

theorem pyMap_split (seqs : List (List V)) (n q : Nat) (hq : 0 < q) (hn : ∀ s ∈ seqs, s.length = n) :
    ((List.range q).map (fun j => pyMap id (seqs.map (fun s => part .b s j q)))).flatten = pyMap id seqs := by
  have h1 : (List.range q).map (fun j => pyMap id (seqs.map (fun s => part .b s j q))) = (List.range q).map (fun j => piece .b (pyMap id seqs) j q n) := by
    apply List.map_congr_left
    intro j hj
    have hjq : j < q := by simpa using hj
    rw [← IPP.Map.pyMap_piece .b id seqs j q n hq]
    congr 1
    apply List.map_congr_left
    intro s hs
    rw [part_eq .b s j q hjq, hn s hs]
  rw [h1]
  have hlen : (pyMap id seqs).length ≤ n := by
    rw [IPP.Map.pyMap_length]
    cases seqs with
    | nil => simp [IPP.Map.minLen]
    | cons s t =>
      have := IPP.Map.minLen_le_maxLen (s :: t)
      rcases Nat.lt_or_ge n (IPP.Map.minLen (s :: t)) with h | h
      · have := ((IPP.Map.lt_minLen (s :: t) n).1 h).2 s (by simp)
        rw [hn s (by simp)] at this; omega
      · exact h
  simp only [IPP.Map.piece]
  rw [IPP.Map.slices_flatten, IPP.Map.lo_last _ _ hq, List.take_of_length_le hlen]

/-- **C73: `BroadcastView.map`.** For sequences of equal length: whatever other clients do with other variables and however everything is interleaved, when the replies are there the result is
`list(map(f, *sequences))`; if that raises, the result raises, and the error of the first target that failed is the error that the built-in `map` raises. The variables in which the
sequences were sent are gone from the engines. -/
theorem broadcast_map_partial (i : Interp V) (L : Lists V) (hp : ∀ r, i.picklable r = true) (ns : Nat → Space V) (h : List (Ev V)) (c q : Nat) (f : List V → Except Err V) (msgs : Nat → Nat → String)
    (mm : Nat → String) (ts : List Nat) (names : List String) (seqs : List (List V)) (pre post : List (Nat × String × Req V)) (hts : ts.Nodup) (htne : ts ≠ []) (hne : names ≠ [])
    (hl : names.length = seqs.length) (n : Nat) (hn : ∀ s ∈ seqs, s.length = n) (hsent : sendsOf c q h = pre ++ mapSends i L f msgs mm ts ts names seqs ++ post)
    (hu : ∀ j e, ts[j]? = some e → Undisturbed i ns h e names (mapMine msgs mm names.length j)) (hg : ∀ j, j < ts.length → GoodNames i names (mapMine msgs mm names.length j))
    (outs : List (Outcome V)) (hlen : outs.length = ts.length)
    (ho : ∀ j e o, ts[j]? = some e → outs[j]? = some o → (⟨c, q, e⟩, mm j, mapReq L f names, o) ∈ (run i (fresh ns) h).log) :
    (∀ l, listMap f seqs = .ok l → joined L .b outs = some l) ∧ (∀ err, listMap f seqs = .error err → joined L .b outs = none ∧ firstError outs = some err) ∧
    ∀ e ∈ ts, ∀ x ∈ names, get x ((run i (fresh ns) h).ns e) = none := by
  have hq : 0 < ts.length := List.length_pos_iff.2 htne
  have key : ∀ j e o, ts[j]? = some e → outs[j]? = some o → _ := fun j e o hej hoj =>
    map_reply i L hp ns h c q f msgs mm ts names seqs pre post hts hne hl hsent j e hej (hu j e hej)
      (hg j (by rcases Nat.lt_or_ge j ts.length with h | h; exact h; rw [List.getElem?_eq_none h] at hej; cases hej)) o (ho j e o hej hoj)
  have houts : outs = (List.range ts.length).map (fun j => outOf L (listMap f (seqs.map (fun s => part .b s j ts.length)))) := by
    apply List.ext_getElem?
    intro j
    by_cases hj : j < ts.length
    · obtain ⟨o, hoj⟩ : ∃ o, outs[j]? = some o := ⟨_, List.getElem?_eq_getElem (by omega)⟩
      obtain ⟨e, hej⟩ : ∃ e, ts[j]? = some e := ⟨_, List.getElem?_eq_getElem hj⟩
      rw [hoj, (key j e o hej hoj).1]
      simp only [List.getElem?_map, List.getElem?_range hj, Option.map_some]
      cases listMap f (seqs.map (fun s => part .b s j ts.length)) <;> rfl
    · rw [List.getElem?_eq_none (by omega), List.getElem?_eq_none (by simp; omega)]
  have hmap : listMap f seqs = (do return (← (List.range ts.length).mapM (fun j => listMap f (seqs.map (fun s => part .b s j ts.length)))).flatten) := by
    unfold listMap
    rw [← pyMap_split seqs n ts.length hq hn, mapM_flatten, List.mapM_map]
    rfl
  refine ⟨fun l hok => ?_, fun err herr => ?_, fun e he x hx => ?_⟩
  · rw [hmap] at hok
    cases hm : (List.range ts.length).mapM (fun j => listMap f (seqs.map (fun s => part .b s j ts.length))) with
    | error e => rw [hm] at hok; cases hok
    | ok parts =>
      rw [hm] at hok
      cases hok
      unfold joined
      rw [houts, outs_ok L _ _ parts hm, mapM_outs]
      cases parts with
      | nil =>
        have := congrArg List.length (outs_ok L _ _ [] hm)
        simp only [List.length_map, List.length_range, List.length_nil] at this
        omega
      | cons a t => rfl
  · rw [hmap] at herr
    cases hm : (List.range ts.length).mapM (fun j => listMap f (seqs.map (fun s => part .b s j ts.length))) with
    | ok parts => rw [hm] at herr; cases herr
    | error e =>
      rw [hm] at herr
      cases herr
      have := outs_error L _ _ err hm
      rw [houts]
      refine ⟨?_, this.2⟩
      unfold joined
      rw [this.1]
  · obtain ⟨j, hj, rfl⟩ := List.getElem_of_mem he
    exact (key j _ _ (List.getElem?_eq_getElem hj) (List.getElem?_eq_getElem (by omega))).2 x hx

end IPP.Namespace
