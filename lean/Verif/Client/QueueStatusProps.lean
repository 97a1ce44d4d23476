import Verif.Client.QueueStatus
import Verif.Hub.StatusProps

/-!
# `queue_status` reports the engines asked for (C104)
-/
namespace IPP.Client.QStat

open IPP.Client (Target buildTargets)

/-! ## Specification -/

/-- What an engine's entry should be. -/
def entry (h : HubState) (verbose : Bool) (e : Int) : Val :=
  .engine (if verbose then .ids (h.queues e) else .count (h.queues e).length)
    (if verbose then .ids (h.completed e) else .count (h.completed e).length)
    (if verbose then .ids (h.tasks e) else .count (h.tasks e).length)

/-- The dict has the entries of exactly these engines, each once under its number, and the
unassigned tasks; nothing else. -/
def Reports (h : HubState) (verbose : Bool) (ts : List Int) (d : Dict) : Prop :=
  (d.map (·.1)).Nodup ∧
  ∀ k v, (k, v) ∈ d ↔
    (∃ e ∈ ts, k = .int e ∧ v = entry h verbose e) ∨
    (k = .str "unassigned".toList ∧
      v = .unassigned (if verbose then .ids h.unassigned else .count h.unassigned.length))

/-- Ids are not negative. -/
def NonNeg (l : List Int) : Prop := ∀ e ∈ l, 0 ≤ e

/-! ## Numbers as strings -/

theorem strInt_pyInt (n : Int) (h : 0 ≤ n) : pyInt (strInt n) = some n := by
  have hne : strInt n ≠ [] := by
    intro e
    have := Nat.length_toDigits_pos (b := 10) (n := n.toNat)
    unfold strInt at e
    rw [e] at this
    simp at this
  have hall : (strInt n).all Char.isDigit = true := by
    rw [List.all_eq_true]
    intro c hc
    exact Nat.isDigit_of_mem_toDigits (b := 10) (by omega) (by omega) hc
  unfold pyInt
  rw [if_pos ⟨hne, hall⟩]
  unfold strInt
  rw [Nat.ofDigitChars_ten_toDigits]
  congr 1
  omega

theorem strInt_inj {a b : Int} (ha : 0 ≤ a) (hb : 0 ≤ b) (h : strInt a = strInt b) : a = b := by
  have h1 := strInt_pyInt a ha
  have h2 := strInt_pyInt b hb
  rw [h] at h1
  rw [h1] at h2
  exact Option.some.inj h2

theorem word_not_number (w : Text) (h : pyInt w = none) (n : Int) (hn : 0 ≤ n) :
    strInt n ≠ w := by
  rintro rfl
  rw [strInt_pyInt n hn] at h
  cases h

theorem unassigned_word : pyInt "unassigned".toList = none := by decide +kernel
theorem status_word : pyInt "status".toList = none := by decide +kernel

/-! ## The hub's content -/

theorem cells (h : HubState) (verbose : Bool) (e : Int) :
    Val.engine (cell verbose (h.queues e)) (cell verbose (h.completed e))
      (cell verbose (h.tasks e)) = entry h verbose e := rfl

def pair (h : HubState) (verbose : Bool) (e : Int) : Key × Val :=
  (.str (strInt e), entry h verbose e)

theorem put_fold (h : HubState) (verbose : Bool) (ts : List Int) (hn : NonNeg ts)
    (ms : List Int) (hm : NonNeg ms) (hd : ms.Nodup) :
    ∃ ms' : List Int, ms'.Nodup ∧ NonNeg ms' ∧ (∀ x, x ∈ ms' ↔ x ∈ ms ∨ x ∈ ts) ∧
      ts.foldl (fun d t => put d (.str (strInt t))
        (.engine (cell verbose (h.queues t)) (cell verbose (h.completed t))
          (cell verbose (h.tasks t))))
        ((.str "status".toList, .ok) :: ms.map (pair h verbose)) =
      (.str "status".toList, .ok) :: ms'.map (pair h verbose) := by
  induction ts generalizing ms with
  | nil => exact ⟨ms, hd, hm, by simp, rfl⟩
  | cons t ts ih =>
    have ht : 0 ≤ t := hn t (by simp)
    have hts : NonNeg ts := fun e he => hn e (by simp [he])
    have hst : strInt t ≠ "status".toList := word_not_number _ status_word t ht
    rw [List.foldl_cons, cells]
    by_cases hmem : t ∈ ms
    · have hput : put ((.str "status".toList, .ok) :: ms.map (pair h verbose))
          (.str (strInt t)) (entry h verbose t) =
          (.str "status".toList, .ok) :: ms.map (pair h verbose) := by
        unfold put
        rw [if_pos]
        · rw [List.map_cons, if_neg (by simpa using fun e => hst e.symm), List.map_map]
          congr 1
          apply List.map_congr_left
          intro x hx
          simp only [Function.comp, pair, Key.str.injEq]
          split
          · next e =>
            have := strInt_inj (hm x hx) ht e
            subst this
            rfl
          · rfl
        · simp only [List.any_cons, List.any_map, Bool.or_eq_true, List.any_eq_true]
          exact Or.inr ⟨t, hmem, by simp [pair]⟩
      rw [hput]
      obtain ⟨ms', h1, h2, h3, h4⟩ := ih hts ms hm hd
      refine ⟨ms', h1, h2, ?_, h4⟩
      intro x
      rw [h3 x]
      simp only [List.mem_cons]
      constructor
      · rintro (h | h)
        · exact Or.inl h
        · exact Or.inr (Or.inr h)
      · rintro (h | rfl | h)
        · exact Or.inl h
        · exact Or.inl hmem
        · exact Or.inr h
    · have hput : put ((.str "status".toList, .ok) :: ms.map (pair h verbose))
          (.str (strInt t)) (entry h verbose t) =
          (.str "status".toList, .ok) :: (ms ++ [t]).map (pair h verbose) := by
        unfold put
        rw [if_neg]
        · simp [pair]
        · simp only [List.any_cons, List.any_map, Bool.or_eq_true, List.any_eq_true, not_or,
            not_exists, not_and]
          refine ⟨by simpa using fun e => hst e.symm, ?_⟩
          intro x hx e
          simp only [Function.comp, pair, beq_iff_eq, Key.str.injEq] at e
          exact hmem (strInt_inj (hm x hx) ht e ▸ hx)
      rw [hput]
      obtain ⟨ms', h1, h2, h3, h4⟩ := ih hts (ms ++ [t])
        (by
          intro e he
          simp only [List.mem_append, List.mem_singleton] at he
          rcases he with he | rfl
          · exact hm e he
          · exact ht)
        (by
          rw [List.nodup_append]
          refine ⟨hd, by simp, ?_⟩
          intro a ha b hb
          simp only [List.mem_singleton] at hb
          subst hb
          exact fun e => hmem (e ▸ ha))
      refine ⟨ms', h1, h2, ?_, h4⟩
      intro x
      rw [h3 x]
      simp [or_assoc]

theorem hub_content (h : HubState) (verbose : Bool) (ts : List Int) (hn : NonNeg ts) :
    ∃ ms : List Int, ms.Nodup ∧ NonNeg ms ∧ (∀ x, x ∈ ms ↔ x ∈ ts) ∧
      hubContent h verbose ts = (.str "status".toList, .ok) :: (ms.map (pair h verbose) ++
        [(.str "unassigned".toList, .unassigned (cell verbose h.unassigned))]) := by
  obtain ⟨ms, h1, h2, h3, h4⟩ := put_fold h verbose ts hn [] (by simp [NonNeg]) (by simp)
  refine ⟨ms, h1, h2, by simpa using h3, ?_⟩
  unfold hubContent
  rw [List.map_nil] at h4
  rw [h4]
  unfold put
  rw [if_neg, List.cons_append]
  simp only [List.any_cons, List.any_map, Bool.or_eq_true, List.any_eq_true, not_or, not_exists,
    not_and]
  refine ⟨by decide +kernel, ?_⟩
  intro x hx e
  simp only [Function.comp, pair, beq_iff_eq, Key.str.injEq] at e
  exact word_not_number _ unassigned_word x (h2 x hx) e

/-! ## `int_keys` -/

theorem loop_numbers (f : Int → Val) (un : Val) (ms : List Int) (hm : NonNeg ms) (hd : ms.Nodup)
    (done : List Int) (hx : ∀ x ∈ done, x ∉ ms) :
    intKeysLoop (ms.map (fun e => Key.str (strInt e)) ++ [.str "unassigned".toList])
      (ms.map (fun e => (Key.str (strInt e), f e)) ++ ((.str "unassigned".toList, un) ::
        done.map (fun e => (Key.int e, f e)))) =
    .ok ((.str "unassigned".toList, un) :: (done ++ ms).map (fun e => (Key.int e, f e))) := by
  induction ms generalizing done with
  | nil =>
    simp only [List.map_nil, List.nil_append, List.append_nil, intKeysLoop]
    rw [unassigned_word]
  | cons e ms ih =>
    have he : 0 ≤ e := hm e (by simp)
    have hm' : NonNeg ms := fun x hx => hm x (by simp [hx])
    have hnd := List.nodup_cons.mp hd
    rw [List.map_cons, List.cons_append, intKeysLoop, strInt_pyInt e he]
    simp only
    rw [if_neg]
    · rw [List.map_cons, List.cons_append, List.lookup_cons]
      simp only [beq_self_eq_true]
      have hf : (((Key.str (strInt e), f e) :: (ms.map (fun e => (Key.str (strInt e), f e)) ++
          ((.str "unassigned".toList, un) :: done.map (fun e => (Key.int e, f e))))).filter
            (fun p => p.1 ≠ Key.str (strInt e))) =
          ms.map (fun e => (Key.str (strInt e), f e)) ++
          ((.str "unassigned".toList, un) :: done.map (fun e => (Key.int e, f e))) := by
        rw [List.filter_cons, if_neg (by simp)]
        rw [List.filter_eq_self]
        intro p hp
        simp only [List.mem_append, List.mem_map, List.mem_cons] at hp
        rcases hp with ⟨x, hx1, rfl⟩ | rfl | ⟨x, hx1, rfl⟩
        · simp only [ne_eq, Key.str.injEq, decide_not, Bool.not_eq_eq_eq_not, Bool.not_true,
            decide_eq_false_iff_not]
          intro e2
          exact hnd.1 (strInt_inj (hm' x hx1) he e2 ▸ hx1)
        · simp only [ne_eq, Key.str.injEq, decide_not, Bool.not_eq_eq_eq_not, Bool.not_true,
            decide_eq_false_iff_not]
          intro e2
          exact word_not_number _ unassigned_word e he e2.symm
        · simp
      rw [hf]
      have := ih hm' hnd.2 (done ++ [e]) (by
        intro x hx1
        simp only [List.mem_append, List.mem_singleton] at hx1
        rcases hx1 with hx1 | rfl
        · exact fun h => hx x hx1 (by simp [h])
        · exact hnd.1)
      simp only [List.map_append, List.map_cons, List.map_nil, List.append_assoc,
        List.cons_append, List.nil_append] at this ⊢
      exact this
    · simp only [List.any_eq_true, not_exists, not_and]
      intro p hp e2
      simp only [List.mem_append, List.mem_map, List.mem_cons] at hp
      rw [beq_iff_eq] at e2
      rcases hp with ⟨x, hx1, rfl⟩ | rfl | ⟨x, hx1, rfl⟩
      · cases e2
      · cases e2
      · simp only [Key.int.injEq] at e2
        subst e2
        exact hx x hx1 (by simp)

/-- What `int_keys` makes of the hub's content, without `status`. -/
theorem content_keys (h : HubState) (verbose : Bool) (ts : List Int) (hn : NonNeg ts) :
    ∃ ms : List Int, ms.Nodup ∧ (∀ x, x ∈ ms ↔ x ∈ ts) ∧
      intKeys ((hubContent h verbose ts).filter (fun p => p.1 ≠ .str "status".toList)) =
        .ok ((.str "unassigned".toList, .unassigned (cell verbose h.unassigned)) ::
          ms.map (fun e => (Key.int e, entry h verbose e))) := by
  obtain ⟨ms, h1, h2, h3, h4⟩ := hub_content h verbose ts hn
  refine ⟨ms, h1, h3, ?_⟩
  rw [h4]
  have hf : (((Key.str "status".toList, Val.ok) :: (ms.map (pair h verbose) ++
        [(.str "unassigned".toList, .unassigned (cell verbose h.unassigned))])).filter
        (fun p => p.1 ≠ Key.str "status".toList)) =
      ms.map (pair h verbose) ++
        [(.str "unassigned".toList, .unassigned (cell verbose h.unassigned))] := by
    rw [List.filter_cons, if_neg (by simp), List.filter_eq_self]
    intro p hp
    simp only [List.mem_append, List.mem_map, List.mem_singleton] at hp
    rcases hp with ⟨x, hx, rfl⟩ | rfl
    · simp only [pair, ne_eq, Key.str.injEq, decide_not, Bool.not_eq_eq_eq_not, Bool.not_true,
        decide_eq_false_iff_not]
      exact word_not_number _ status_word x (h2 x hx)
    · show decide (Key.str "unassigned".toList ≠ Key.str "status".toList) = true
      decide +kernel
  rw [hf]
  unfold intKeys
  have := loop_numbers (entry h verbose) (.unassigned (cell verbose h.unassigned)) ms h2 h1 []
    (by simp)
  have hp : pair h verbose = fun e => (Key.str (strInt e), entry h verbose e) := rfl
  rw [hp]
  simpa [Function.comp_def] using this

/-! ## The call -/

/-- **The dict reports exactly the engines asked for.** -/
theorem finish_reports (h : HubState) (verbose : Bool) (t : Target) (ts : List Int)
    (hn : NonNeg ts) (ht : ∀ i, t ≠ .int i) :
    ∃ d, finishCall t (hubContent h verbose ts) = .ok (.all d) ∧ Reports h verbose ts d := by
  obtain ⟨ms, h1, h2, h3⟩ := content_keys h verbose ts hn
  refine ⟨(Key.str "unassigned".toList, Val.unassigned (cell verbose h.unassigned)) ::
    ms.map (fun e => (Key.int e, entry h verbose e)), ?_, ?_, ?_⟩
  · unfold finishCall
    rw [h3]
    cases t with
    | int i => exact absurd rfl (ht i)
    | _ => rfl
  · rw [List.map_cons, List.nodup_cons]
    constructor
    · simp
    · rw [List.map_map]
      exact List.Pairwise.map _ (fun a b (hab : a ≠ b) => by simpa using hab) h1
  · intro k v
    simp only [List.mem_cons, Prod.mk.injEq, List.mem_map]
    constructor
    · rintro (⟨rfl, rfl⟩ | ⟨e, he, rfl, rfl⟩)
      · exact Or.inr ⟨rfl, rfl⟩
      · exact Or.inl ⟨e, (h2 e).mp he, rfl, rfl⟩
    · rintro (⟨e, he, rfl, rfl⟩ | ⟨rfl, rfl⟩)
      · exact Or.inr ⟨e, (h2 e).mpr he, rfl, rfl⟩
      · exact Or.inl ⟨rfl, rfl⟩

theorem lookup_entry (h : HubState) (verbose : Bool) (un : Val) (ms : List Int) (i : Int) :
    ((Key.str "unassigned".toList, un) :: ms.map (fun e => (Key.int e, entry h verbose e))).lookup
      (.int i) = if i ∈ ms then some (entry h verbose i) else none := by
  rw [List.lookup_cons]
  have : (Key.int i == Key.str "unassigned".toList) = false := rfl
  rw [this]
  simp only
  induction ms with
  | nil => rfl
  | cons a ms ih =>
    rw [List.map_cons, List.lookup_cons, ih]
    by_cases ha : i = a
    · subst ha
      simp
    · have : (Key.int i == Key.int a) = false := by simpa using ha
      rw [this]
      simp [ha]

/-- With a number the entry of this number, or KeyError. -/
theorem finish_one (h : HubState) (verbose : Bool) (i : Int) (ts : List Int) (hn : NonNeg ts) :
    finishCall (.int i) (hubContent h verbose ts) =
      if i ∈ ts then .ok (.one (entry h verbose i)) else .error .keyError := by
  obtain ⟨ms, h1, h2, h3⟩ := content_keys h verbose ts hn
  unfold finishCall
  rw [h3]
  simp only [lookup_entry, h2]
  by_cases hi : i ∈ ts
  · simp [hi]
  · simp [hi]

/-- **`queue_status()` reports every engine of the hub**, whatever the client knows. -/
theorem status_all (c : IPP.Client.Client) (h : HubState) (verbose : Bool) (hn : NonNeg h.ids) :
    ∃ d, queueStatus c h .all verbose = .ok (.all d) ∧ Reports h verbose h.ids d := by
  unfold queueStatus ask validate
  rw [if_pos rfl]
  exact finish_reports h verbose .all h.ids hn (by simp)

/-- **With several targets it reports these**, those that the client's `_build_targets` finds,
if the hub has them. -/
theorem status_targets (c : IPP.Client.Client) (h : HubState) (verbose : Bool) (t : Target)
    (us : List _) (es : List Int) (hb : buildTargets c t = .ok (us, es)) (ht : ∀ i, t ≠ .int i)
    (ha : t ≠ .all) (hn : NonNeg h.ids) :
    if es ≠ [] ∧ ∀ e ∈ es, e ∈ h.ids then
      ∃ d, queueStatus c h t verbose = .ok (.all d) ∧ Reports h verbose es d
    else queueStatus c h t verbose = .error .noSuchEngine := by
  unfold queueStatus ask validate
  rw [if_neg ha, hb]
  simp only
  split
  · next hc =>
    have h1 : es.any (fun e => !h.ids.contains e) = false := by
      rw [List.any_eq_false]
      intro e he
      simp [hc.2 e he]
    rw [h1]
    simp only [Bool.false_eq_true, if_false, if_neg hc.1]
    exact finish_reports h verbose t es (fun e he => hn e (hc.2 e he)) ht
  · next hc =>
    by_cases hany : es.any (fun e => !h.ids.contains e) = true
    · rw [if_pos hany]
    · rw [if_neg hany]
      by_cases he : es = []
      · rw [if_pos he]
      · exfalso
        apply hc
        refine ⟨he, ?_⟩
        intro e hmem
        simp only [List.any_eq_true, not_exists, not_and] at hany
        have := hany e hmem
        simpa using this

/-- What `_build_targets` makes of a number. -/
theorem build_int {c : IPP.Client.Client} {i : Int} {us : List _} {es : List Int}
    (hb : buildTargets c (.int i) = .ok (us, es)) : ∃ e, es = [e] ∧ (0 ≤ i → e = i) ∧ 0 ≤ e := by
  unfold buildTargets at hb
  simp only at hb
  have fin : ∀ l, IPP.Client.finish c l = .ok (us, es) → es = l := by
    intro l hl
    unfold IPP.Client.finish at hl
    split at hl
    · cases hl
    · cases hl
      rfl
  have nn : ∀ x ∈ c.ids.map (fun (e : Nat) => (e : Int)), 0 ≤ x := by
    intro x hx
    obtain ⟨n, -, rfl⟩ := List.mem_map.mp hx
    omega
  split at hb
  · cases hb
  · split at hb
    · next hi =>
      split at hb
      · cases hb
      · next t ht =>
        split at hb
        · next hmem => exact ⟨t, fin _ hb, fun h => by omega, nn t hmem⟩
        · cases hb
    · split at hb
      · next hmem => exact ⟨i, fin _ hb, fun _ => rfl, nn i hmem⟩
      · cases hb

/-- **With the number of an engine it returns the engine's entry.** -/
theorem status_one_partial (c : IPP.Client.Client) (h : HubState) (verbose : Bool) (i : Int)
    (us : List _) (es : List Int) (hb : buildTargets c (.int i) = .ok (us, es)) (hi : 0 ≤ i)
    (hm : i ∈ h.ids) : queueStatus c h (.int i) verbose = .ok (.one (entry h verbose i)) := by
  obtain ⟨e, rfl, he, -⟩ := build_int hb
  have := he hi
  subst this
  unfold queueStatus ask validate
  rw [if_neg (by simp), hb]
  simp only [List.any_cons, List.any_nil, Bool.or_false]
  rw [if_neg (by simpa using hm), if_neg (by simp)]
  simp only
  rw [finish_one h verbose e [e] (by simpa [NonNeg] using hi), if_pos (by simp)]

/-- **A negative number always fails**: it names an engine from the end of the list of ids, as
everywhere, the hub is asked for this engine and answers, and then the call raises KeyError. -/
theorem status_negative_violated (c : IPP.Client.Client) (h : HubState) (verbose : Bool) (i : Int)
    (us : List _) (es : List Int) (hb : buildTargets c (.int i) = .ok (us, es)) (hi : i < 0)
    (hm : ∀ e ∈ es, e ∈ h.ids) :
    queueStatus c h (.int i) verbose = .error .keyError ∧
    ∃ e d, es = [e] ∧ queueStatus c h (.coll [e]) verbose = .ok (.all d) ∧
      (Key.int e, entry h verbose e) ∈ d := by
  obtain ⟨e, rfl, -, he⟩ := build_int hb
  have hmem := hm e (by simp)
  constructor
  · unfold queueStatus ask validate
    rw [if_neg (by simp), hb]
    simp only [List.any_cons, List.any_nil, Bool.or_false]
    rw [if_neg (by simpa using hmem), if_neg (by simp)]
    simp only
    rw [finish_one h verbose i [e] (by simpa [NonNeg] using he), if_neg (by simp; omega)]
  · have hc : buildTargets c (.coll [e]) = .ok (us, [e]) := by
      unfold buildTargets at hb ⊢
      simp only at hb ⊢
      split at hb
      · cases hb
      · next hne =>
        rw [if_neg hne]
        have inner : ∀ l, IPP.Client.finish c l = .ok (us, [e]) →
            IPP.Client.finish c [e] = .ok (us, [e]) := by
          intro l hl
          have : [e] = l := by
            unfold IPP.Client.finish at hl
            split at hl
            · cases hl
            · cases hl
              rfl
          rw [this]
          rw [← this] at hl ⊢
          exact hl
        split at hb
        · cases hb
        · split at hb
          · exact inner _ hb
          · cases hb
    obtain ⟨d, hd, hr⟩ := finish_reports h verbose (.coll [e]) [e]
      (by simpa [NonNeg] using he) (by simp)
    refine ⟨e, d, rfl, ?_, ?_⟩
    · unfold queueStatus ask validate
      rw [if_neg (by simp), hc]
      simp only [List.any_cons, List.any_nil, Bool.or_false]
      rw [if_neg (by simpa using hmem), if_neg (by simp)]
      exact hd
    · exact (hr.2 _ _).mpr (Or.inl ⟨e, by simp, rfl, rfl⟩)

/-- Bad targets raise before anything is sent. -/
theorem status_bad_target (c : IPP.Client.Client) (h : HubState) (verbose : Bool) (t : Target)
    (e : IPP.Client.Err) (hb : buildTargets c t = .error e) (ha : t ≠ .all) :
    queueStatus c h t verbose = .error (.target e) := by
  unfold queueStatus
  rw [if_neg ha, hb]

/-! ## With the hub's bookkeeping (C30) -/

/-- What the handler reads in the hub of C30. -/
def ofHub (s : IPP.Hub.Hub) : HubState :=
  { ids := s.ids.map (fun (e : Nat) => (e : Int)), queues := fun e => s.queues e.toNat
    completed := fun e => s.completed e.toNat, tasks := fun e => s.tasks e.toNat
    unassigned := s.unassigned }

/-- **From end to end**: the call for a registered engine returns the messages sent to its queue
and not answered, those it answered, and the tasks it has and has not finished, or their
numbers. -/
theorem status_end_to_end_partial (mc : IPP.Hub.MCfg) (evs : List IPP.Hub.MEv)
    (hw : IPP.Hub.WellBehaved mc evs) (e : Nat) (u : IPP.Hub.Uuid)
    (he : (e, u) ∈ (IPP.Hub.mrun mc evs).reg.engines)
    (c : IPP.Client.Client) (us : List _) (es : List Int)
    (hb : buildTargets c (.int e) = .ok (us, es)) :
    queueStatus c (ofHub (IPP.Hub.mrun mc evs)) (.int e) true =
      .ok (.one (.engine (.ids (IPP.Hub.unanswered u evs)) (.ids (IPP.Hub.finished u evs))
        (.ids (IPP.Hub.running u evs)))) ∧
    queueStatus c (ofHub (IPP.Hub.mrun mc evs)) (.int e) false =
      .ok (.one (.engine (.count (IPP.Hub.unanswered u evs).length)
        (.count (IPP.Hub.finished u evs).length) (.count (IPP.Hub.running u evs).length))) := by
  have hq := IPP.Hub.queue_status_exact_partial mc evs hw e u he
  unfold IPP.Hub.queueStatus at hq
  split at hq
  · next hid =>
    simp only [Option.some.injEq, Prod.mk.injEq] at hq
    obtain ⟨h1, h2, h3⟩ := hq
    have hm : (e : Int) ∈ (ofHub (IPP.Hub.mrun mc evs)).ids :=
      List.mem_map.mpr ⟨e, hid, rfl⟩
    have hen : ∀ b, entry (ofHub (IPP.Hub.mrun mc evs)) b e =
        .engine (if b then .ids (IPP.Hub.unanswered u evs) else .count (IPP.Hub.unanswered u evs).length)
          (if b then .ids (IPP.Hub.finished u evs) else .count (IPP.Hub.finished u evs).length)
          (if b then .ids (IPP.Hub.running u evs) else .count (IPP.Hub.running u evs).length) := by
      intro b
      unfold entry ofHub
      simp only [Int.toNat_natCast, h1, h2, h3]
    constructor
    · rw [status_one_partial c _ true e us es hb (by omega) hm, hen]
      rfl
    · rw [status_one_partial c _ false e us es hb (by omega) hm, hen]
      rfl
  · cases hq

/-! ## A concrete case -/

def sampleHub : HubState :=
  { ids := [0, 3, 12], queues := fun e => if e = 3 then [7, 8] else [], completed := fun _ => [1],
    tasks := fun e => if e = 12 then [9] else [], unassigned := [5] }

example : NonNeg sampleHub.ids ∧ ask sampleHub .all false none =
    .ok (.all [(.str "unassigned".toList, .unassigned (.count 1)),
      (.int 0, .engine (.count 0) (.count 1) (.count 0)),
      (.int 3, .engine (.count 2) (.count 1) (.count 0)),
      (.int 12, .engine (.count 0) (.count 1) (.count 1))]) := by
  unfold NonNeg
  decide +kernel

/-- Three engines, the middle one died: `-1` is engine 5, and the call raises. -/
example :
    let c := IPP.Client.run [.register 0 7, .register 3 8, .unregister 3, .register 5 9]
    let h : HubState := { sampleHub with ids := [0, 3, 5] }
    buildTargets c (.int (-1)) = .ok ([9], [5]) ∧
    queueStatus c h (.int (-1)) false = .error .keyError ∧
    queueStatus c h (.int 5) true = .ok (.one (.engine (.ids []) (.ids [1]) (.ids []))) ∧
    queueStatus c h (.coll [5, 0, 5]) false =
      .ok (.all [(.str "unassigned".toList, .unassigned (.count 1)),
        (.int 5, .engine (.count 0) (.count 1) (.count 0)),
        (.int 0, .engine (.count 0) (.count 1) (.count 0))]) := by
  decide +kernel

end IPP.Client.QStat
