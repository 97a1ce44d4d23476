import Verif.Namespace.Props
/-!
# Requests of several clients to several engines (property C65)
-/
namespace IPP.Namespace
variable {V : Type}

/-! ## Specification -/

/-- engines with some namespaces, nothing sent yet -/
def fresh (ns : Nat → Space V) : Sys V := { ns := ns, chan := fun _ => [], log := [] }

/-- the requests a client has sent to an engine through a queue, in the order of sending -/
def sentOn (k : Key) (h : List (Ev V)) : List (String × Req V) := h.filterMap (fun e => match e with
  | .send k' m r => if k' = k then some (m, r) else none
  | .take _ => none)

/-- those that the engine has executed, in the order of execution -/
def doneOn (k : Key) (s : Sys V) : List (String × Req V) := s.log.filterMap (fun x => if x.1 = k then some (x.2.1, x.2.2.1) else none)

/-- all requests the engine has executed, with their replies -/
def doneAt (e : Nat) (s : Sys V) : List (String × Req V × Outcome V) := s.log.filterMap (fun x => if x.1.engine = e then some x.2 else none)

/-- executing requests one after the other: the namespace afterwards and the replies -/
def oneByOne (i : Interp V) (ns : Space V) : List (String × Req V) → Space V × List (Outcome V)
  | [] => (ns, [])
  | (m, r) :: t => ((oneByOne i (handle i ns m r).1 t).1, (handle i ns m r).2 :: (oneByOne i (handle i ns m r).1 t).2)

/-! ## Theorems -/

theorem run_append (i : Interp V) (s : Sys V) (a b : List (Ev V)) : run i s (a ++ b) = run i (run i s a) b := List.foldl_append

theorem order_aux (i : Interp V) (k : Key) : ∀ (h : List (Ev V)) (s : Sys V), doneOn k (run i s h) ++ (run i s h).chan k = (doneOn k s ++ s.chan k) ++ sentOn k h
  | [], s => by simp [run, sentOn]
  | e :: t, s => by
    have ih := order_aux i k t (step i s e)
    show doneOn k (run i (step i s e) t) ++ (run i (step i s e) t).chan k = _
    rw [ih]
    cases e with
    | send k' m r =>
      have hd : doneOn k (step i s (.send k' m r)) = doneOn k s := rfl
      rw [hd]
      simp only [step, sentOn, List.filterMap_cons]
      by_cases hk : k' = k
      · subst hk; simp
      · rw [if_neg hk, if_neg (fun e => hk e.symm)]
    | take k' =>
      simp only [sentOn, List.filterMap_cons]
      congr 1
      simp only [step]
      split
      · rfl
      · rename_i m r t' hc
        by_cases hk : k' = k
        · subst hk
          simp [doneOn, List.filterMap_append, hc]
        · have : ¬ k = k' := fun e => hk e.symm
          simp [doneOn, List.filterMap_append, hk, this]

/-- **Requests through one queue are executed once each, in the order of sending**: at any moment, in every interleaving of clients, queues and engines,
those executed and then those waiting are those sent. -/
theorem executed_in_order (i : Interp V) (ns : Nat → Space V) (h : List (Ev V)) (k : Key) :
    doneOn k (run i (fresh ns) h) ++ (run i (fresh ns) h).chan k = sentOn k h := by
  rw [order_aux]; simp [doneOn, fresh]

theorem oneByOne_append (i : Interp V) : ∀ (a b : List (String × Req V)) (ns : Space V),
    oneByOne i ns (a ++ b) = ((oneByOne i (oneByOne i ns a).1 b).1, (oneByOne i ns a).2 ++ (oneByOne i (oneByOne i ns a).1 b).2)
  | [], b, ns => rfl
  | (m, r) :: t, b, ns => by
    have ih := oneByOne_append i t b (handle i ns m r).1
    simp only [List.cons_append, oneByOne, ih]

theorem seq_aux (i : Interp V) (e : Nat) (ns : Nat → Space V) : ∀ (h : List (Ev V)) (s : Sys V),
    (s.ns e, (doneAt e s).map (·.2.2)) = oneByOne i (ns e) ((doneAt e s).map (fun x => (x.1, x.2.1))) →
    ((run i s h).ns e, (doneAt e (run i s h)).map (·.2.2)) = oneByOne i (ns e) ((doneAt e (run i s h)).map (fun x => (x.1, x.2.1)))
  | [], s, hs => hs
  | ev :: t, s, hs => by
    refine seq_aux i e ns t (step i s ev) ?_
    cases ev with
    | send k m r => exact hs
    | take k =>
      simp only [step]
      split
      · exact hs
      · rename_i m r t' hc
        by_cases hk : e = k.engine
        · subst hk
          have hd : doneAt k.engine { ns := fun e => if e = k.engine then (handle i (s.ns k.engine) m r).1 else s.ns e,
                                      chan := fun x => if x = k then t' else s.chan x,
                                      log := s.log ++ [(k, m, r, (handle i (s.ns k.engine) m r).2)] } = doneAt k.engine s ++ [(m, r, (handle i (s.ns k.engine) m r).2)] := by
            simp [doneAt, List.filterMap_append]
          rw [hd]
          simp only [if_true, List.map_append, List.map_cons, List.map_nil]
          rw [oneByOne_append, ← hs]
          simp [oneByOne]
        · have hd : doneAt e { ns := fun e => if e = k.engine then (handle i (s.ns k.engine) m r).1 else s.ns e,
                               chan := fun x => if x = k then t' else s.chan x,
                               log := s.log ++ [(k, m, r, (handle i (s.ns k.engine) m r).2)] } = doneAt e s := by
            have : ¬ k.engine = e := fun h => hk h.symm
            simp [doneAt, List.filterMap_append, this]
          rw [hd]
          simp only [if_neg hk]
          exact hs

/-- **An engine is a sequential machine**: its namespace, and all replies it has sent, are those of executing its requests one after the other; other engines have no influence. -/
theorem engine_sequential (i : Interp V) (ns : Nat → Space V) (h : List (Ev V)) (e : Nat) :
    ((run i (fresh ns) h).ns e, (doneAt e (run i (fresh ns) h)).map (·.2.2)) =
      oneByOne i (ns e) ((doneAt e (run i (fresh ns) h)).map (fun x => (x.1, x.2.1))) :=
  seq_aux i e ns h (fresh ns) rfl

/-! ### reading what one has written -/

/-- the messages sent to an engine, by anybody -/
def sentTo (e : Nat) (h : List (Ev V)) : List (String × Req V) := h.filterMap (fun x => match x with
  | .send k m r => if k.engine = e then some (m, r) else none
  | .take _ => none)

theorem done_sent_aux (i : Interp V) (k : Key) (x : String × Req V) : ∀ (h : List (Ev V)) (s : Sys V),
    x ∈ (run i s h).chan k ∨ x ∈ doneOn k (run i s h) → x ∈ s.chan k ∨ x ∈ doneOn k s ∨ x ∈ sentOn k h := by
  intro h s hx
  have := order_aux i k h s
  have hm : x ∈ doneOn k (run i s h) ++ (run i s h).chan k := by
    rcases hx with hx | hx
    · exact List.mem_append_right _ hx
    · exact List.mem_append_left _ hx
  rw [this] at hm
  rcases List.mem_append.1 hm with hm | hm
  · rcases List.mem_append.1 hm with hm | hm
    · exact .inr (.inl hm)
    · exact .inl hm
  · exact .inr (.inr hm)

theorem sentOn_sentTo {k : Key} {h : List (Ev V)} {x : String × Req V} (hx : x ∈ sentOn k h) : x ∈ sentTo k.engine h := by
  simp only [sentOn, List.mem_filterMap] at hx
  obtain ⟨e, he, h1⟩ := hx
  cases e with
  | take _ => cases h1
  | send k' m r =>
    simp only at h1
    split at h1
    · rename_i hk
      cases h1
      exact List.mem_filterMap.2 ⟨_, he, by simp [hk]⟩
    · cases h1

/-- everything an engine has executed was sent to it -/
theorem doneAt_sent (i : Interp V) (ns : Nat → Space V) (h : List (Ev V)) (e : Nat) (x : String × Req V × Outcome V) (hx : x ∈ doneAt e (run i (fresh ns) h)) :
    (x.1, x.2.1) ∈ sentTo e h := by
  simp only [doneAt, List.mem_filterMap] at hx
  obtain ⟨y, hy, h1⟩ := hx
  split at h1
  · rename_i he
    cases h1
    have hd : (y.2.1, y.2.2.1) ∈ doneOn y.1 (run i (fresh ns) h) := List.mem_filterMap.2 ⟨y, hy, by simp⟩
    have := executed_in_order i ns h y.1
    have hm : (y.2.1, y.2.2.1) ∈ sentOn y.1 h := by rw [← this]; exact List.mem_append_left _ hd
    rw [← he]; exact sentOn_sentTo hm
  · cases h1

/-- a request does not assign a variable, whatever the namespace -/
def Keeps (i : Interp V) (x : String) (m : String) (r : Req V) : Prop := ∀ ns, get x (handle i ns m r).1 = get x ns

/-- a request leaves the temporary variables of another message alone -/
def KeepsAll (i : Interp V) (ks : List String) (m : String) (r : Req V) : Prop := ∀ ns, Free ks ns → Free ks (handle i ns m r).1

theorem oneByOne_keeps (i : Interp V) (x : String) : ∀ (l : List (String × Req V)) (ns : Space V), (∀ e ∈ l, Keeps i x e.1 e.2) → get x (oneByOne i ns l).1 = get x ns
  | [], _, _ => rfl
  | (m, r) :: t, ns, h => by
    simp only [oneByOne]
    rw [oneByOne_keeps i x t _ (fun e he => h e (List.mem_cons_of_mem _ he)), h (m, r) List.mem_cons_self]

theorem oneByOne_free (i : Interp V) (ks : List String) : ∀ (l : List (String × Req V)) (ns : Space V), (∀ e ∈ l, KeepsAll i ks e.1 e.2) → Free ks ns → Free ks (oneByOne i ns l).1
  | [], _, _, h => h
  | (m, r) :: t, ns, h, hf => by
    simp only [oneByOne]
    exact oneByOne_free i ks t _ (fun e he => h e (List.mem_cons_of_mem _ he)) (h (m, r) List.mem_cons_self ns hf)

theorem oneByOne_length (i : Interp V) : ∀ (l : List (String × Req V)) (ns : Space V), (oneByOne i ns l).2.length = l.length
  | [], _ => rfl
  | (m, r) :: t, ns => by simp only [oneByOne, List.length_cons]; rw [oneByOne_length i t]

theorem prefix_unique {β : Type} {f : β → String} {y : β} : ∀ {a b c d : List β}, a ++ y :: b = c ++ y :: d → ((a ++ y :: b).map f).Nodup → a = c
  | [], b, [], d, _, _ => rfl
  | [], b, z :: c, d, h, hn => by
    exfalso
    simp only [List.nil_append, List.cons_append, List.cons.injEq] at h
    simp only [List.nil_append, List.map_cons, List.nodup_cons] at hn
    exact hn.1 (List.mem_map.2 ⟨y, by rw [h.2]; simp, rfl⟩)
  | z :: a, b, [], d, h, hn => by
    exfalso
    simp only [List.nil_append, List.cons_append, List.cons.injEq] at h
    simp only [List.cons_append, List.map_cons, List.nodup_cons] at hn
    exact hn.1 (List.mem_map.2 ⟨y, by simp, by rw [h.1]⟩)
  | z :: a, b, w :: c, d, h, hn => by
    simp only [List.cons_append, List.cons.injEq] at h
    simp only [List.cons_append, List.map_cons, List.nodup_cons] at hn
    rw [h.1, prefix_unique h.2 hn.2]

theorem get_of_mem {A : Type} {x : String} {v : A} : ∀ {l : List (String × A)}, (l.map (·.1)).Nodup → (x, v) ∈ l → get x l = some v
  | e :: t, hn, hm => by
    simp only [List.map_cons, List.nodup_cons] at hn
    simp only [get]
    rcases List.mem_cons.1 hm with rfl | hm
    · simp
    · rw [if_neg (fun he => hn.1 (by rw [he]; exact List.mem_map.2 ⟨(x, v), hm, rfl⟩)), get_of_mem hn.2 hm]

/-- the ids at an engine are those of different requests -/
structure Ids (e : Nat) (s : Sys V) (used : List String) : Prop where
  done : ((doneAt e s).map (·.1)).Nodup
  chan : ∀ k : Key, k.engine = e → ((s.chan k).map (·.1)).Nodup
  two : ∀ k k' : Key, k.engine = e → k'.engine = e → k ≠ k' → ∀ m, m ∈ (s.chan k).map (·.1) → m ∉ (s.chan k').map (·.1)
  apart : ∀ k : Key, k.engine = e → ∀ m, m ∈ (s.chan k).map (·.1) → m ∉ (doneAt e s).map (·.1)
  usedC : ∀ k : Key, k.engine = e → ∀ m, m ∈ (s.chan k).map (·.1) → m ∈ used
  usedD : ∀ m, m ∈ (doneAt e s).map (·.1) → m ∈ used

theorem Ids.run (i : Interp V) (e : Nat) : ∀ (h : List (Ev V)) (s : Sys V) (used : List String), Ids e s used → (used ++ (sentTo e h).map (·.1)).Nodup →
    Ids e (run i s h) (used ++ (sentTo e h).map (·.1))
  | [], s, used, hi, _ => by simpa [sentTo, Namespace.run] using hi
  | .send k m r :: t, s, used, hi, hn => by
    by_cases hk : k.engine = e
    · have hs : sentTo e (.send k m r :: t) = (m, r) :: sentTo e t := by simp [sentTo, List.filterMap_cons, hk]
      rw [hs] at hn ⊢
      have hass : used ++ ((m, r) :: sentTo e t).map (·.1) = (used ++ [m]) ++ (sentTo e t).map (·.1) := by simp
      rw [hass] at hn ⊢
      have hfresh : m ∉ used := by
        have := (List.nodup_append.1 (List.nodup_append.1 hn).1)
        intro hc
        exact this.2.2 m hc m (by simp) rfl
      refine Ids.run i e t (step i s (.send k m r)) (used ++ [m]) ?_ hn
      have hchan : ∀ x, (step i s (.send k m r)).chan x = if x = k then s.chan k ++ [(m, r)] else s.chan x := fun x => rfl
      have hmem : ∀ x m', m' ∈ ((step i s (.send k m r)).chan x).map (·.1) → m' ∈ (s.chan x).map (·.1) ∨ (x = k ∧ m' = m) := by
        intro x m' hm'
        rw [hchan] at hm'
        split at hm'
        · rename_i hx
          subst hx
          rw [List.map_append] at hm'
          rcases List.mem_append.1 hm' with h1 | h1
          · exact .inl h1
          · exact .inr ⟨rfl, by simpa using h1⟩
        · exact .inl hm'
      refine ⟨hi.done, ?_, ?_, ?_, ?_, ?_⟩
      · intro x hx
        rw [hchan]
        split
        · rename_i hxk; subst hxk
          rw [List.map_append, List.nodup_append]
          refine ⟨hi.chan x hx, by simp, ?_⟩
          intro a ha b hb
          simp only [List.map_cons, List.map_nil, List.mem_singleton] at hb
          subst hb
          intro he
          exact hfresh (he ▸ hi.usedC x hx a ha)
        · exact hi.chan x hx
      · intro x y hx hy hxy m' h1 h2
        rcases hmem x m' h1 with h3 | ⟨h3, h4⟩
        · rcases hmem y m' h2 with h5 | ⟨_, h6⟩
          · exact hi.two x y hx hy hxy m' h3 h5
          · exact hfresh (h6 ▸ hi.usedC x hx _ h3)
        · rcases hmem y m' h2 with h5 | ⟨h5, _⟩
          · exact hfresh (h4 ▸ hi.usedC y hy _ h5)
          · exact hxy (h3.trans h5.symm)
      · intro x hx m' h1 h2
        rcases hmem x m' h1 with h1 | ⟨rfl, rfl⟩
        · exact hi.apart x hx m' h1 h2
        · exact hfresh (hi.usedD _ h2)
      · intro x hx m' h1
        rcases hmem x m' h1 with h1 | ⟨rfl, rfl⟩
        · exact List.mem_append_left _ (hi.usedC x hx m' h1)
        · simp
      · intro m' h1
        exact List.mem_append_left _ (hi.usedD m' h1)
    · have hs : sentTo e (.send k m r :: t) = sentTo e t := by simp [sentTo, List.filterMap_cons, hk]
      rw [hs] at hn ⊢
      refine Ids.run i e t (step i s (.send k m r)) used ?_ hn
      have hchan : ∀ x : Key, x.engine = e → (step i s (.send k m r)).chan x = s.chan x := by
        intro x hx
        simp only [step]
        rw [if_neg]
        intro hc; exact hk (hc ▸ hx)
      exact ⟨hi.done, fun x hx => by rw [hchan x hx]; exact hi.chan x hx,
        fun x y hx hy hxy => by rw [hchan x hx, hchan y hy]; exact hi.two x y hx hy hxy,
        fun x hx => by rw [hchan x hx]; exact hi.apart x hx, fun x hx => by rw [hchan x hx]; exact hi.usedC x hx, hi.usedD⟩
  | .take k :: t, s, used, hi, hn => by
    refine Ids.run i e t (step i s (.take k)) used ?_ hn
    simp only [step]
    split
    · exact hi
    · rename_i m r t' hc
      by_cases hk : k.engine = e
      · have hd : doneAt e { ns := fun e => if e = k.engine then (handle i (s.ns k.engine) m r).1 else s.ns e,
                             chan := fun x => if x = k then t' else s.chan x,
                             log := s.log ++ [(k, m, r, (handle i (s.ns k.engine) m r).2)] } = doneAt e s ++ [(m, r, (handle i (s.ns k.engine) m r).2)] := by
          simp [doneAt, List.filterMap_append, hk]
        have hck := hi.chan k hk
        rw [hc, List.map_cons, List.nodup_cons] at hck
        have hsub : ∀ x m', m' ∈ ((if x = k then t' else s.chan x).map (·.1)) → m' ∈ (s.chan x).map (·.1) := by
          intro x m' hm'
          split at hm'
          · rename_i hx; subst hx; rw [hc]; exact List.mem_cons_of_mem _ hm'
          · exact hm'
        have hmk : m ∈ (s.chan k).map (·.1) := by rw [hc]; simp
        refine ⟨?_, ?_, ?_, ?_, ?_, ?_⟩
        · rw [hd, List.map_append, List.nodup_append]
          refine ⟨hi.done, by simp, ?_⟩
          intro a ha b hb he
          simp only [List.map_cons, List.map_nil, List.mem_singleton] at hb
          subst hb
          exact hi.apart k hk b hmk (he ▸ ha)
        · intro x hx
          simp only
          split
          · exact hck.2
          · exact hi.chan x hx
        · intro x y hx hy hxy m' h1 h2
          exact hi.two x y hx hy hxy m' (hsub x m' h1) (hsub y m' h2)
        · intro x hx m' h1 h2
          rw [hd, List.map_append] at h2
          rcases List.mem_append.1 h2 with h2 | h2
          · exact hi.apart x hx m' (hsub x m' h1) h2
          · simp only [List.map_cons, List.map_nil, List.mem_singleton] at h2
            subst h2
            simp only at h1
            split at h1
            · exact hck.1 h1
            · rename_i hxk
              exact hi.two x k hx hk hxk m' h1 hmk
        · intro x hx m' h1
          exact hi.usedC x hx m' (hsub x m' h1)
        · intro m' h1
          rw [hd, List.map_append] at h1
          rcases List.mem_append.1 h1 with h1 | h1
          · exact hi.usedD m' h1
          · simp only [List.map_cons, List.map_nil, List.mem_singleton] at h1
            exact h1 ▸ hi.usedC k hk m hmk
      · have hd : doneAt e { ns := fun e => if e = k.engine then (handle i (s.ns k.engine) m r).1 else s.ns e,
                             chan := fun x => if x = k then t' else s.chan x,
                             log := s.log ++ [(k, m, r, (handle i (s.ns k.engine) m r).2)] } = doneAt e s := by
          simp [doneAt, List.filterMap_append, hk]
        have hchan : ∀ x : Key, x.engine = e → (if x = k then t' else s.chan x) = s.chan x := by
          intro x hx
          rw [if_neg]; intro hxk; exact hk (hxk ▸ hx)
        exact ⟨by rw [hd]; exact hi.done, fun x hx => by simp only [hchan x hx]; exact hi.chan x hx,
          fun x y hx hy hxy => by simp only [hchan x hx, hchan y hy]; exact hi.two x y hx hy hxy,
          fun x hx => by rw [hd]; simp only [hchan x hx]; exact hi.apart x hx, fun x hx => by simp only [hchan x hx]; exact hi.usedC x hx, by rw [hd]; exact hi.usedD⟩

theorem done_nodup (i : Interp V) (ns : Nat → Space V) (h : List (Ev V)) (e : Nat) (hu : ((sentTo e h).map (·.1)).Nodup) : ((doneAt e (run i (fresh ns) h)).map (·.1)).Nodup :=
  (Ids.run i e h (fresh ns) [] ⟨by simp [doneAt, fresh], by simp [fresh], by simp [fresh], by simp [fresh], by simp [fresh], by simp [doneAt, fresh]⟩ (by simpa using hu)).done

/-- **One reads what one has written**: a client pushes a value to an engine and then, without waiting, through the same queue pulls the name. Whatever other clients do and however all of it
is interleaved: if no other request that is sent to the engine assigns the name, the reply to the pull is the pushed value. -/
theorem read_your_writes (i : Interp V) (ns : Nat → Space V) (h : List (Ev V)) (k : Key) (a b c : List (String × Req V)) (m1 m2 : String) (l : List (String × V)) (x : String) (v : V)
    (hsent : sentOn k h = a ++ (m1, pushReq i l) :: b ++ (m2, pullReq i (.one x)) :: c)
    (hu : ((sentTo k.engine h).map (·.1)).Nodup)
    (hpush : (∀ e ∈ l, i.ident e.1 = true) ∧ (l.map (·.1)).Nodup ∧ (∀ e ∈ l, e.1 ∉ temps m1 ∧ ¬ pushNames e.1)) (hv : (x, v) ∈ l)
    (hp : ∀ r, i.picklable r = true)
    (hothers : ∀ e ∈ sentTo k.engine h, e.1 ≠ m1 → Keeps i x e.1 e.2)
    (htemps : ∀ e ∈ sentTo k.engine h, KeepsAll i (temps m1) e.1 e.2 ∧ KeepsAll i (temps m2) e.1 e.2) (hns : Free (temps m1) (ns k.engine) ∧ Free (temps m2) (ns k.engine)) :
    ∀ o, (k, m2, pullReq i (.one x), o) ∈ (run i (fresh ns) h).log → o = .ok (.val v) := by
  intro o ho
  generalize hS : run i (fresh ns) h = S at ho
  have hord := executed_in_order i ns h k
  have hseq := engine_sequential i ns h k.engine
  have hdone := doneAt_sent i ns h k.engine
  rw [hS] at hord hseq hdone
  -- the log up to the pull
  obtain ⟨L1, L2, hlog⟩ := List.append_of_mem ho
  -- requests on k before the pull
  have hk : doneOn k S = L1.filterMap (fun x => if x.1 = k then some (x.2.1, x.2.2.1) else none) ++ (m2, pullReq i (.one x)) ::
      L2.filterMap (fun x => if x.1 = k then some (x.2.1, x.2.2.1) else none) := by
    simp [doneOn, hlog, List.filterMap_append]
  have he : doneAt k.engine S = L1.filterMap (fun x => if x.1.engine = k.engine then some x.2 else none) ++ (m2, pullReq i (.one x), o) ::
      L2.filterMap (fun x => if x.1.engine = k.engine then some x.2 else none) := by
    simp [doneAt, hlog, List.filterMap_append]
  generalize hK1 : L1.filterMap (fun x => if x.1 = k then some (x.2.1, x.2.2.1) else none) = K1 at hk
  generalize L2.filterMap (fun x => if x.1 = k then some (x.2.1, x.2.2.1) else none) = K2 at hk
  generalize hE1 : L1.filterMap (fun x => if x.1.engine = k.engine then some x.2 else none) = E1 at he
  generalize L2.filterMap (fun x => if x.1.engine = k.engine then some x.2 else none) = E2 at he
  -- the ids on k are distinct
  have hsub : (sentOn k h).map (·.1) |>.Nodup := by
    have : List.Sublist (sentOn k h) (sentTo k.engine h) := by
      clear hsent hu hothers htemps hord hseq hdone hS
      induction h with
      | nil => exact List.Sublist.slnil
      | cons ev t ih =>
        simp only [sentOn, sentTo, List.filterMap_cons] at ih ⊢
        cases ev with
        | take _ => exact ih
        | send k' m r =>
          simp only
          by_cases hkk : k' = k
          · subst hkk; simp only [if_true]; exact ih.cons₂ _
          · rw [if_neg hkk]
            by_cases hee : k'.engine = k.engine
            · rw [if_pos hee]; exact ih.cons _
            · rw [if_neg hee]; exact ih
    exact (this.map _).nodup hu
  -- the requests before the pull on k
  have hK1eq : K1 = a ++ (m1, pushReq i l) :: b := by
    rw [hk, hsent] at hord
    have hnd := hsub
    rw [hsent] at hnd
    have hord' : K1 ++ (m2, pullReq i (.one x)) :: (K2 ++ S.chan k) = (a ++ (m1, pushReq i l) :: b) ++ (m2, pullReq i (.one x)) :: c := by
      simpa using hord
    have hn2 : ((K1 ++ (m2, pullReq i (.one x)) :: (K2 ++ S.chan k)).map (·.1)).Nodup := by
      rw [hord']; exact hnd
    exact prefix_unique (f := fun p : String × Req V => p.1) hord' hn2
  have hpushIn : (m1, pushReq i l) ∈ E1.map (fun x => (x.1, x.2.1)) := by
    have : (m1, pushReq i l) ∈ K1 := by rw [hK1eq]; simp
    rw [← hK1, List.mem_filterMap] at this
    obtain ⟨y, hy, h1⟩ := this
    split at h1
    · rename_i hyk
      rw [← Option.some.inj h1, ← hE1]
      refine List.mem_map.2 ⟨y.2, List.mem_filterMap.2 ⟨y, hy, by simp [hyk]⟩, rfl⟩
    · cases h1
  obtain ⟨P, Q, hPQ⟩ := List.append_of_mem hpushIn
  -- the whole sequence at the engine
  have hreqs : (doneAt k.engine S).map (fun x => (x.1, x.2.1)) = P ++ (m1, pushReq i l) :: Q ++ (m2, pullReq i (.one x)) :: E2.map (fun x => (x.1, x.2.1)) := by
    rw [he]; simp [hPQ]
  have hsentTo : ∀ e ∈ (doneAt k.engine S).map (fun x => (x.1, x.2.1)), e ∈ sentTo k.engine h := by
    intro e hem
    obtain ⟨y, hy, rfl⟩ := List.mem_map.1 hem
    exact hdone y hy
  have hdup : ((P ++ (m1, pushReq i l) :: Q).map (·.1)).Nodup := by
    -- the ids of executed requests are distinct
    have hd : ((doneAt k.engine S).map (·.1)).Nodup := hS ▸ done_nodup i ns h k.engine hu
    have : ((doneAt k.engine S).map (fun x => (x.1, x.2.1))).map (·.1) = (doneAt k.engine S).map (·.1) := by rw [List.map_map]; rfl
    rw [← this, hreqs, List.map_append] at hd
    exact (List.nodup_append.1 hd).1
  have hQ : ∀ e ∈ Q, e.1 ≠ m1 := by
    intro e heq hc
    rw [List.map_append, List.map_cons] at hdup
    have := (List.nodup_cons.1 (List.nodup_append.1 hdup).2.1).1
    exact this (List.mem_map.2 ⟨e, heq, hc⟩)
  have hmemP : ∀ e ∈ P, e ∈ sentTo k.engine h := fun e hem => hsentTo e (by rw [hreqs]; simp [hem])
  have hmemQ : ∀ e ∈ Q, e ∈ sentTo k.engine h := fun e hem => hsentTo e (by rw [hreqs]; simp [hem])
  have hmem1 : (m1, pushReq i l) ∈ sentTo k.engine h := hsentTo _ (by rw [hreqs]; simp)
  -- the namespaces
  let n1 := (oneByOne i (ns k.engine) P).1
  let n2 := (handle i n1 m1 (pushReq i l)).1
  let n3 := (oneByOne i n2 Q).1
  have f1 : Free (temps m1) n1 := oneByOne_free i _ P _ (fun e hem => (htemps e (hmemP e hem)).1) hns.1
  have f1' : Free (temps m2) n1 := oneByOne_free i _ P _ (fun e hem => (htemps e (hmemP e hem)).2) hns.2
  have g2 : get x n2 = some (.user v) := by
    have := (push_effect_partial i n1 m1 l hpush.1 hpush.2.1 hpush.2.2 (hp _) f1).2 x
    show get x (handle i n1 m1 (pushReq i l)).1 = _
    rw [this, get_of_mem hpush.2.1 hv]
  have f2 : Free (temps m2) n2 := (htemps _ hmem1).2 n1 f1'
  have g3 : get x n3 = some (.user v) := by
    show get x (oneByOne i n2 Q).1 = _
    rw [oneByOne_keeps i x Q n2 (fun e hem => hothers e (hmemQ e hem) (hQ e hem)), g2]
  have f3 : Free (temps m2) n3 := oneByOne_free i _ Q _ (fun e hem => (htemps e (hmemQ e hem)).2) f2
  have hi : i.ident x = true := hpush.1 _ hv
  have hres := (pull_one i n3 m2 x f3 hi hp).1 v g3
  -- the reply in the log
  have hout := congrArg Prod.snd hseq
  simp only at hout
  rw [hreqs, List.append_assoc, oneByOne_append] at hout
  have hout2 : (doneAt k.engine S).map (·.2.2) = (oneByOne i (ns k.engine) P).2 ++ (handle i n1 m1 (pushReq i l)).2 :: ((oneByOne i n2 Q).2 ++ (handle i n3 m2 (pullReq i (.one x))).2 :: (oneByOne i (handle i n3 m2 (pullReq i (.one x))).1 (E2.map (fun x => (x.1, x.2.1)))).2) := by
    rw [hout]
    simp only [List.cons_append, oneByOne]
    rw [oneByOne_append]
    rfl
  rw [he] at hout2
  have hlen1 : E1.length = (oneByOne i (ns k.engine) P).2.length + 1 + (oneByOne i n2 Q).2.length := by
    have h1 := congrArg List.length hPQ
    simp only [List.length_map, List.length_append, List.length_cons] at h1
    rw [oneByOne_length, oneByOne_length, h1]; omega
  have hout3 : E1.map (·.2.2) ++ o :: E2.map (·.2.2) = ((oneByOne i (ns k.engine) P).2 ++ (handle i n1 m1 (pushReq i l)).2 :: (oneByOne i n2 Q).2) ++ (handle i n3 m2 (pullReq i (.one x))).2 :: (oneByOne i (handle i n3 m2 (pullReq i (.one x))).1 (E2.map (fun x => (x.1, x.2.1)))).2 := by
    simpa using hout2
  have := List.append_inj hout3 (by simp; omega)
  have h2 := (List.cons.inj this.2).1
  rw [h2, hres]

end IPP.Namespace
