import Verif.Async.TimingMain

/-!
# C85: `elapsed` over time, `serial_time`, and what they have to do with `wall_time`
-/
namespace IPP.Timing
open Spec

theorem landings_append (evs more : List (Int × Ev)) (i : Nat) : ∃ X, landings (evs ++ more) i = landings evs i ++ X ∧ ∀ x ∈ X, (x.1, Ev.reply i x.2) ∈ more := by
  induction more using snoc_induction with
  | h0 => exact ⟨[], by simp, by simp⟩
  | h1 l e ih =>
    obtain ⟨X, h1, h2⟩ := ih
    rw [← List.append_assoc, landings_snoc, h1]
    obtain ⟨c, ev⟩ := e
    cases ev with
    | send h => exact ⟨X, by simp, fun x hx => by simp [h2 x hx]⟩
    | output j => exact ⟨X, by simp, fun x hx => by simp [h2 x hx]⟩
    | reply j r =>
      dsimp only
      split
      · rename_i hc
        refine ⟨X ++ [(c, r)], by simp, ?_⟩
        intro x hx
        rcases List.mem_append.1 hx with hx | hx
        · simp [h2 x hx]
        · simp only [List.mem_singleton] at hx
          subst hx
          simp [hc.1]
      · exact ⟨X, by simp, fun x hx => by simp [h2 x hx]⟩

theorem clock_le {evs : List (Int × Ev)} (hc : Clock evs) {pre post : List (Int × Ev)} {e : Int × Ev} (h : evs = pre ++ e :: post) : (∀ x ∈ pre, x.1 ≤ e.1) ∧ ∀ x ∈ post, e.1 ≤ x.1 := by
  subst h
  unfold Clock at hc
  rw [List.map_append, List.map_cons, List.pairwise_append] at hc
  refine ⟨fun x hx => hc.2.2 x.1 (List.mem_map.2 ⟨x, hx, rfl⟩) e.1 (by simp), fun x hx => ?_⟩
  exact (List.pairwise_cons.1 hc.2.1).1 x.1 (List.mem_map.2 ⟨x, hx, rfl⟩)

theorem mem_sends {evs : List (Int × Ev)} {h c : Int} (hm : (h, c) ∈ sends evs) : (c, Ev.send h) ∈ evs := by
  obtain ⟨⟨c', ev⟩, he, hx⟩ := List.mem_filterMap.1 hm
  cases ev with
  | send h' => simp at hx; obtain ⟨rfl, rfl⟩ := hx; exact he
  | reply j r => simp at hx
  | output j => simp at hx

/-- the replies to a task land after its submission -/
theorem lands_after {loc : Int → Int} {evs : List (Int × Ev)} (hp : Proper loc evs) (hc : Clock evs) {i : Nat} {x : Int × Reply} (hx : x ∈ landings evs i) {t : Int} (ht : SubmittedAt evs i t) : t ≤ x.1 := by
  obtain ⟨h, c, hs, h1, h2⟩ := submitted_between hp ht
  obtain ⟨pre, post, e⟩ := List.append_of_mem (mem_landings evs i x hx)
  obtain ⟨h', c', hs', -⟩ := hp.2.1 pre x.1 i x.2 post e
  have : (sends evs)[i]? = some (h', c') := by
    rw [e, sends_append, List.getElem?_append_left (lt_of_getElem? hs'), hs']
  rw [hs] at this
  cases this
  have hm := mem_sends (List.mem_of_getElem? hs')
  have := (clock_le hc e).1 _ hm
  dsimp only at this
  omega

/-- the end of the time that `elapsed` measures: the latest reception when all tasks are answered, and the present before -/
def EndAt (evs : List (Int × Ev)) (now T : Int) : Prop :=
  (∃ i, i < (sends evs).length ∧ answered evs i = false) ∧ T = now ∨
  (∀ i, i < (sends evs).length → answered evs i = true) ∧ Greatest (fun t => ∃ i, i < (sends evs).length ∧ ReceivedAt evs i t) T

/-- `elapsed`, before and after the result is ready -/
theorem elapsed_value (loc : Int → Int) (single : Bool) (evs : List (Int × Ev)) (hp : Proper loc evs) (hne : 0 < (sends evs).length) (hs1 : single = true → (sends evs).length = 1)
    (now : Int) (hnow : ∀ e ∈ evs, e.1 ≤ now) : ∃ S T, elapsed loc single (run loc evs) now = .ok (T - S) ∧ Least (fun t => ∃ i, SubmittedAt evs i t) S ∧ EndAt evs now T := by
  have hn : ∀ i t, SubmittedAt evs i t → t ≤ now := by
    intro i t ht
    obtain ⟨h, c, hs, h1, h2⟩ := submitted_between hp ht
    have := hnow _ (mem_sends (List.mem_of_getElem? hs))
    dsimp only at this
    omega
  rcases Classical.em (∃ i, i < (sends evs).length ∧ answered evs i = false) with h | h
  · obtain ⟨S, h1, h2⟩ := elapsed_exact loc single evs hp now hn h
    exact ⟨S, now, h1, h2, .inl ⟨h, rfl⟩⟩
  · have hall : ∀ i, i < (sends evs).length → answered evs i = true := by
      intro i hi
      cases ha : answered evs i with
      | true => rfl
      | false => exact absurd ⟨i, hi, ha⟩ h
    obtain ⟨S, R, h1, h2, h3⟩ := wall_exact loc single evs hp hne hs1 hall
    refine ⟨S, R, ?_, h2, .inr ⟨hall, h3⟩⟩
    unfold elapsed
    rw [if_pos ((ready_iff loc evs hp).2 hall)]
    exact h1

theorem greatest_unique {P : Int → Prop} {a b : Int} (ha : Greatest P a) (hb : Greatest P b) : a = b := Int.le_antisymm (hb.2 a ha.1) (ha.2 b hb.1)

/-- **C85, `elapsed` over time.** `elapsed` is never negative and never decreases, whatever happens between two looks at it, as long as the client's clock does not go back. -/
theorem elapsed_never_decreases (loc : Int → Int) (single : Bool) (evs more : List (Int × Ev)) (now now' : Int) (hp : Proper loc (evs ++ more)) (hm : sends more = [])
    (hne : 0 < (sends evs).length) (hs1 : single = true → (sends evs).length = 1)
    (hc : Clock (evs ++ more)) (h1 : ∀ e ∈ evs, e.1 ≤ now) (h2 : ∀ e ∈ more, now ≤ e.1) (h3 : ∀ e ∈ evs ++ more, e.1 ≤ now') (h4 : now ≤ now') :
    ∃ a b, elapsed loc single (run loc evs) now = .ok a ∧ elapsed loc single (run loc (evs ++ more)) now' = .ok b ∧ 0 ≤ a ∧ a ≤ b := by
  have es : sends (evs ++ more) = sends evs := by rw [sends_append, hm, List.append_nil]
  have hc1 : Clock evs := by
    unfold Clock at hc ⊢
    rw [List.map_append, List.pairwise_append] at hc
    exact hc.1
  obtain ⟨S, T, e1, l1, t1⟩ := elapsed_value loc single evs hp.prefix hne hs1 now h1
  obtain ⟨S', T', e2, l2, t2⟩ := elapsed_value loc single (evs ++ more) hp (by rw [es]; exact hne) (by rw [es]; exact hs1) now' h3
  refine ⟨_, _, e1, e2, ?_, ?_⟩
  · -- not negative
    suffices S ≤ T by omega
    rcases t1 with ⟨-, rfl⟩ | ⟨-, ⟨i, hi, r, hr⟩, hg⟩
    · obtain ⟨i, hi⟩ := l1.1
      obtain ⟨h, c, hs, -, hle⟩ := submitted_between hp.prefix hi
      have := h1 _ (mem_sends (List.mem_of_getElem? hs))
      dsimp only at this
      omega
    · obtain ⟨⟨h, c⟩, hs⟩ := getElem?_of_lt hi
      obtain ⟨s, -, -, hat⟩ := submitted_of loc evs hp.prefix i h c hs
      have a1 := l1.2 _ ⟨i, hat⟩
      have a2 := lands_after hp.prefix hc1 (List.mem_of_getLast? hr) hat
      dsimp only at a2
      omega
  · have hS : S' ≤ S := by
      obtain ⟨i, hi⟩ := l1.1
      have hi' := hi
      obtain ⟨h, c, hs, -⟩ := hi
      obtain ⟨s, -, -, hat⟩ := submitted_of loc (evs ++ more) hp i h c (by rw [es]; exact hs)
      have a1 := l2.2 _ ⟨i, hat⟩
      suffices instant loc s ≤ S by omega
      obtain ⟨X, hX, -⟩ := landings_append evs more i
      obtain ⟨h0, c0, hs0, hd⟩ := hi'
      obtain ⟨h1', c1', hs1', hd'⟩ := hat
      rw [es, hs0] at hs1'
      cases hs1'
      have hle : h0 ≤ c0 := hp.1 _ _ (List.mem_append_left _ (mem_sends (List.mem_of_getElem? hs0)))
      rcases hd with ⟨⟨x, hx, ex⟩, rfl⟩ | ⟨-, rfl⟩
      · rcases hd' with ⟨-, e⟩ | ⟨hno, e⟩
        · omega
        · rw [hno x (by rw [hX]; simp [hx])] at ex
          cases ex
      · rcases hd' with ⟨-, e⟩ | ⟨-, e⟩ <;> omega
    have hT : T ≤ T' := by
      rcases t1 with ⟨⟨i, hi, ha⟩, rfl⟩ | ⟨hall, ⟨i, hi, r, hr⟩, hg⟩
      · rcases t2 with ⟨-, rfl⟩ | ⟨hall', hg'⟩
        · exact h4
        · -- the answer came later
          have hal := hall' i (by rw [es]; exact hi)
          have hne' := (landings_ne_nil _ _).2 hal
          obtain ⟨X, hX, hXm⟩ := landings_append evs more i
          have hnil : landings evs i = [] := by
            cases hL : landings evs i with
            | nil => rfl
            | cons y ys =>
              have := (landings_ne_nil evs i).1 (by simp [hL])
              rw [this] at ha; cases ha
          rw [hnil, List.nil_append] at hX
          obtain ⟨a, b, e⟩ := exists_snoc hne'
          have hb : b ∈ X := by rw [← hX, e]; simp
          have hlow := h2 _ (hXm b hb)
          have hup := hg'.2 b.1 ⟨i, by rw [es]; exact hi, b.2, by rw [e]; simp⟩
          dsimp only at hlow
          omega
      · rcases t2 with ⟨⟨j, hj, ha⟩, rfl⟩ | ⟨-, hg'⟩
        · exfalso
          rw [es] at hj
          have hal := (landings_ne_nil evs j).2 (hall j hj)
          obtain ⟨X, hX, -⟩ := landings_append evs more j
          have := (landings_ne_nil (evs ++ more) j).1 (by rw [hX]; simp [hal])
          rw [this] at ha; cases ha
        · obtain ⟨X, hX, hXm⟩ := landings_append evs more i
          have hTn : T ≤ now := by
            have := h1 _ (mem_landings evs i _ (List.mem_of_getLast? hr))
            exact this
          cases hXe : X with
          | nil =>
            rw [hXe, List.append_nil] at hX
            exact hg'.2 T ⟨i, by rw [es]; exact hi, r, by rw [hX]; exact hr⟩
          | cons y ys =>
            obtain ⟨a, b, e⟩ := exists_snoc (l := X) (by simp [hXe])
            have hb : b ∈ X := by rw [e]; simp
            have hlow := h2 _ (hXm b hb)
            have hup := hg'.2 b.1 ⟨i, by rw [es]; exact hi, b.2, by rw [hX, e, ← List.append_assoc]; simp⟩
            dsimp only at hlow
            omega
    omega

/-- **C85, stable.** When the outputs have arrived too, nothing that arrives changes the times any more. -/
theorem times_final (loc : Int → Int) (evs more : List (Int × Ev)) (hp : Proper loc (evs ++ more)) (hm : sends more = []) (hcl : ∀ i, i < (sends evs).length → closed evs i = true) :
    run loc (evs ++ more) = run loc evs := by
  have hrun : run loc (evs ++ more) = more.foldl (fun ts e => step loc ts e.1 e.2) (run loc evs) := by simp [run]
  rw [hrun]
  have hdone : ∀ t ∈ run loc evs, t.value = true ∧ t.output = true := by
    intro t ht
    obtain ⟨i, h, c, hs, rfl⟩ := run_map loc evs hp.prefix t ht
    have := hcl i (lt_of_getElem? hs)
    simpa [closed] using this
  have gen : ∀ (more : List (Int × Ev)), sends more = [] → more.foldl (fun ts e => step loc ts e.1 e.2) (run loc evs) = run loc evs := by
    intro more
    induction more with
    | nil => intro _; rfl
    | cons e more ih =>
      intro hm
      obtain ⟨c, ev⟩ := e
      rw [List.foldl_cons]
      suffices step loc (run loc evs) c ev = run loc evs by
        rw [this]
        apply ih
        have : sends ((c, ev) :: more) = sends [(c, ev)] ++ sends more := by rw [← sends_append]; rfl
        rw [this] at hm
        exact (List.append_eq_nil_iff.1 hm).2
      cases ev with
      | send h => simp [sends] at hm
      | reply i r =>
        simp only [step]
        cases h : (run loc evs)[i]? with
        | none => rfl
        | some t =>
          have ht := hdone t (List.mem_of_getElem? h)
          have : t.reply loc c r = t := by unfold Task.reply; rw [if_pos ht]
          dsimp only
          rw [this]
          apply List.ext_getElem?
          intro j
          by_cases hj : i = j
          · subst hj; rw [List.getElem?_set_self (lt_of_getElem? h), h]
          · rw [List.getElem?_set_ne hj]
      | output i =>
        simp only [step]
        cases h : (run loc evs)[i]? with
        | none => rfl
        | some t =>
          have ht := hdone t (List.mem_of_getElem? h)
          have : { t with output := true } = t := by
            obtain ⟨a, b, c⟩ := t
            simp at ht
            simp [ht.2]
          dsimp only
          rw [this]
          apply List.ext_getElem?
          intro j
          by_cases hj : i = j
          · subst hj; rw [List.getElem?_set_self (lt_of_getElem? h), h]
          · rw [List.getElem?_set_ne hj]
  exact gen more hm

/-! ### serial time -/

/-- task number `i` after a history -/
def taskOf (loc : Int → Int) (evs : List (Int × Ev)) (i : Nat) : Task :=
  { md := mdOf loc (landings evs i) (((sends evs)[i]?.getD (0, 0)).2), value := answered evs i, output := outDone evs i }

theorem run_range (loc : Int → Int) (evs : List (Int × Ev)) (hp : Proper loc evs) : run loc evs = (List.range (sends evs).length).map (taskOf loc evs) := by
  obtain ⟨hl, hr⟩ := run_eq loc evs hp
  apply List.ext_getElem?
  intro i
  by_cases hi : i < (sends evs).length
  · obtain ⟨⟨h, c⟩, hs⟩ := getElem?_of_lt hi
    rw [hr i h c hs, List.getElem?_map, List.getElem?_range hi]
    simp [taskOf, hs]
  · rw [List.getElem?_eq_none (by omega), List.getElem?_eq_none (by simp; omega)]

theorem serialFrom_ok (loc : Int → Int) (F : Nat → Task) (d : Nat → Int) : ∀ (l : List Nat) (t : Int), (∀ i ∈ l, compareDatetimes loc (F i).md.completed (F i).md.started = .ok (d i)) →
    serialFrom loc t (l.map F) = .ok (t + (l.map d).sum) := by
  intro l
  induction l with
  | nil => intro t _; simp [serialFrom]
  | cons a l ih =>
    intro t h
    simp only [List.map_cons, serialFrom, h a (by simp), bind, Except.bind, List.sum_cons]
    rw [ih _ (fun i hi => h i (by simp [hi]))]
    congr 1
    omega

/-- **C85, `serial_time`.** When the result is ready and every task was started, `serial_time` is the sum of the times that the engines spent on the tasks. -/
theorem serial_exact (loc : Int → Int) (evs : List (Int × Ev)) (hp : Proper loc evs) (hall : ∀ i, i < (sends evs).length → answered evs i = true) (f g : Nat → Int)
    (hf : ∀ i, i < (sends evs).length → StartedAt loc evs i (f i)) (hg : ∀ i, i < (sends evs).length → CompletedAt loc evs i (g i)) :
    serialTime loc (run loc evs) = .ok ((List.range (sends evs).length).map (fun i => g i - f i)).sum := by
  unfold serialTime
  rw [if_pos ((ready_iff loc evs hp).2 hall), run_range loc evs hp, serialFrom_ok loc (taskOf loc evs) (fun i => g i - f i)]
  · simp
  · intro i hi
    have hi := List.mem_range.1 hi
    obtain ⟨s, es, rfl'⟩ := hf i hi
    obtain ⟨s', es', rfl''⟩ := hg i hi
    simp only [taskOf, mdOf, es, es', Option.map_some]
    rw [compare_aware loc (aware_ensure loc s'), instant_ensure, instant_ensure, rfl', rfl'']

/-- **C85, when `serial_time` is there.** If one of the tasks was never started (aborted, its dependencies failed, its engine died), `serial_time` raises AttributeError, although the result is ready. -/
theorem serial_missing_violated (loc : Int → Int) (evs : List (Int × Ev)) (hp : Proper loc evs) (hall : ∀ i, i < (sends evs).length → answered evs i = true)
    (i : Nat) (hi : i < (sends evs).length) (hns : ∀ t, ¬ StartedAt loc evs i t) : serialTime loc (run loc evs) = .error .attributeError := by
  unfold serialTime
  rw [if_pos ((ready_iff loc evs hp).2 hall), run_range loc evs hp]
  have gen : ∀ (l : List Nat) (t : Int), i ∈ l → serialFrom loc t (l.map (taskOf loc evs)) = .error .attributeError := by
    intro l
    induction l with
    | nil => intro t h; cases h
    | cons a l ih =>
      intro t h
      simp only [List.map_cons, serialFrom]
      by_cases hai : a = i
      · subst hai
        have : (taskOf loc evs a).md.started = none := by
          simp only [taskOf, mdOf]
          cases hL : ((landings evs a).filterMap (fun x => x.2.started)).getLast? with
          | none => rfl
          | some s => exact absurd ⟨s, hL, rfl⟩ (hns _)
        rw [this]
        cases (taskOf loc evs a).md.completed <;> rfl
      · have hil : i ∈ l := by rcases List.mem_cons.1 h with h | h
                               · exact absurd h.symm hai
                               · exact h
        cases hc : compareDatetimes loc (taskOf loc evs a).md.completed (taskOf loc evs a).md.started with
        | ok d => simp only [bind, Except.bind]; exact ih _ hil
        | error e =>
          simp only [bind, Except.bind]
          congr 1
          -- stored times are aware
          simp only [taskOf, mdOf] at hc
          cases h1 : ((landings evs a).filterMap (fun x => x.2.date)).getLast? with
          | none => rw [h1] at hc; simp [compareDatetimes] at hc; exact hc.symm
          | some s => cases h2 : ((landings evs a).filterMap (fun x => x.2.started)).getLast? with
            | none => rw [h2] at hc; simp [compareDatetimes] at hc; exact hc.symm
            | some s' =>
              rw [h1, h2] at hc
              simp only [Option.map_some] at hc
              rw [compare_aware loc (aware_ensure loc s)] at hc
              cases hc
  exact gen _ _ (List.mem_range.2 hi)

/-- before the result is ready, both raise TimeoutError -/
theorem early_timeout (loc : Int → Int) (single : Bool) (evs : List (Int × Ev)) (hp : Proper loc evs) (i : Nat) (hi : i < (sends evs).length) (ha : answered evs i = false) :
    serialTime loc (run loc evs) = .error .timeout ∧ wallTime loc single (run loc evs) = .error .timeout := by
  have hrd : ¬ ready (run loc evs) = true := by
    intro h
    rw [(ready_iff loc evs hp).1 h i hi] at ha
    cases ha
  unfold serialTime wallTime
  rw [if_neg hrd, if_neg hrd]
  exact ⟨rfl, rfl⟩

/-! ### serial and wall time -/

/-- intervals that do not overlap, within a span, are together not longer than the span -/
theorem sum_disjoint : ∀ (n : Nat) (l : List (Int × Int)) (A B : Int), l.length ≤ n → A ≤ B → (∀ x ∈ l, A ≤ x.1 ∧ x.1 ≤ x.2 ∧ x.2 ≤ B) →
    l.Pairwise (fun x y => x.2 ≤ y.1 ∨ y.2 ≤ x.1) → (l.map (fun x => x.2 - x.1)).sum ≤ B - A := by
  intro n
  induction n with
  | zero =>
    intro l A B hn hAB _ _
    have : l = [] := List.length_eq_zero_iff.1 (by omega)
    subst this
    simp; omega
  | succ n ih =>
    intro l A B hn hAB hin hdis
    cases l with
    | nil => simp; omega
    | cons x l =>
      obtain ⟨hx1, hx2, hx3⟩ := hin x (by simp)
      obtain ⟨hd, hdl⟩ := List.pairwise_cons.1 hdis
      have hsplit : (l.map (fun x => x.2 - x.1)).sum = ((l.filter (fun y => decide (y.2 ≤ x.1))).map (fun x => x.2 - x.1)).sum + ((l.filter (fun y => !decide (y.2 ≤ x.1))).map (fun x => x.2 - x.1)).sum := by
        clear ih hn hin hdis hd hdl
        induction l with
        | nil => rfl
        | cons y l ih =>
          simp only [List.map_cons, List.sum_cons, List.filter_cons]
          by_cases h : y.2 ≤ x.1
          · simp [h]; omega
          · simp [h]; omega
      have h1 := ih (l.filter (fun y => decide (y.2 ≤ x.1))) A x.1 (by have := List.length_filter_le (fun y : Int × Int => decide (y.2 ≤ x.1)) l; simp at hn; omega) hx1
        (by
          intro y hy
          obtain ⟨hy, hle⟩ := List.mem_filter.1 hy
          obtain ⟨a, b, -⟩ := hin y (by simp [hy])
          exact ⟨a, b, by simpa using hle⟩)
        (hdl.filter _)
      have h2 := ih (l.filter (fun y => !decide (y.2 ≤ x.1))) x.2 B (by have := List.length_filter_le (fun y : Int × Int => !decide (y.2 ≤ x.1)) l; simp at hn; omega) hx3
        (by
          intro y hy
          obtain ⟨hy, hle⟩ := List.mem_filter.1 hy
          obtain ⟨-, b, c⟩ := hin y (by simp [hy])
          refine ⟨?_, b, c⟩
          rcases hd y hy with h | h
          · exact h
          · simp at hle; omega)
        (hdl.filter _)
      simp only [List.map_cons, List.sum_cons, hsplit]
      omega

/-- the same for several engines -/
theorem sum_engines (A B : Int) (hAB : A ≤ B) (a b : Nat → Int) (eng : Nat → Nat) : ∀ (es : List Nat) (l : List Nat), l.Nodup → (∀ i ∈ l, eng i ∈ es) → (∀ i ∈ l, A ≤ a i ∧ a i ≤ b i ∧ b i ≤ B) →
    (∀ i ∈ l, ∀ j ∈ l, i ≠ j → eng i = eng j → b i ≤ a j ∨ b j ≤ a i) → (l.map (fun i => b i - a i)).sum ≤ es.length * (B - A) := by
  intro es
  induction es with
  | nil =>
    intro l _ h _ _
    cases l with
    | nil => simp
    | cons i l => have := h i (by simp); simp at this
  | cons e es ih =>
    intro l hnd hin hb hdis
    have hsplit : (l.map (fun i => b i - a i)).sum = ((l.filter (fun i => decide (eng i = e))).map (fun i => b i - a i)).sum + ((l.filter (fun i => !decide (eng i = e))).map (fun i => b i - a i)).sum := by
      clear ih hnd hin hb hdis
      induction l with
      | nil => rfl
      | cons y l ih =>
        simp only [List.map_cons, List.sum_cons, List.filter_cons]
        by_cases h : eng y = e
        · simp [h]; omega
        · simp [h]; omega
    have h1 : ((l.filter (fun i => decide (eng i = e))).map (fun i => b i - a i)).sum ≤ B - A := by
      have := sum_disjoint _ ((l.filter (fun i => decide (eng i = e))).map (fun i => (a i, b i))) A B (Nat.le_refl _) hAB
        (by
          intro x hx
          obtain ⟨i, hi, rfl⟩ := List.mem_map.1 hx
          exact hb i (List.mem_filter.1 hi).1)
        (by
          rw [List.pairwise_map]
          have hnd' : (l.filter (fun i => decide (eng i = e))).Pairwise (fun x y => x ≠ y) := hnd.filter _
          refine hnd'.imp_of_mem ?_
          intro i j hi hj hne
          obtain ⟨hi, ei⟩ := List.mem_filter.1 hi
          obtain ⟨hj, ej⟩ := List.mem_filter.1 hj
          have ei : eng i = e := by simpa using ei
          have ej : eng j = e := by simpa using ej
          exact hdis i hi j hj hne (by rw [ei, ej]))
      rw [List.map_map] at this
      exact this
    have h2 := ih (l.filter (fun i => !decide (eng i = e))) (hnd.filter _)
      (by
        intro i hi
        obtain ⟨hi, hne⟩ := List.mem_filter.1 hi
        have hne : ¬ eng i = e := by simpa using hne
        rcases List.mem_cons.1 (hin i hi) with h | h
        · exact absurd h hne
        · exact h)
      (fun i hi => hb i (List.mem_filter.1 hi).1)
      (fun i hi j hj hne he => hdis i (List.mem_filter.1 hi).1 j (List.mem_filter.1 hj).1 hne he)
    rw [hsplit, List.length_cons]
    have : ((es.length + 1 : Nat) : Int) * (B - A) = (es.length : Int) * (B - A) + (B - A) := by
      rw [Int.natCast_add, Int.add_mul]; simp
    omega

/-- **C85, speed-up.** Each engine runs one task at a time, between the submission and the reception of the reply, and measures it with its own clock, which may be wrong by any amount:
then `serial_time` is between zero and the number of engines times `wall_time`. -/
theorem speedup_at_most_engines (loc : Int → Int) (single : Bool) (evs : List (Int × Ev)) (hp : Proper loc evs) (hne : 0 < (sends evs).length) (hs1 : single = true → (sends evs).length = 1)
    (hall : ∀ i, i < (sends evs).length → answered evs i = true)
    (eng : Nat → Nat) (engines : List Nat) (he : ∀ i, i < (sends evs).length → eng i ∈ engines)
    (wrong : Nat → Int) (a b : Nat → Int)
    (hf : ∀ i, i < (sends evs).length → StartedAt loc evs i (a i + wrong (eng i))) (hg : ∀ i, i < (sends evs).length → CompletedAt loc evs i (b i + wrong (eng i)))
    (hcause : ∀ i s r, i < (sends evs).length → SubmittedAt evs i s → ReceivedAt evs i r → s ≤ a i ∧ a i ≤ b i ∧ b i ≤ r)
    (hone : ∀ i j, i < (sends evs).length → j < (sends evs).length → i ≠ j → eng i = eng j → b i ≤ a j ∨ b j ≤ a i) :
    ∃ serial wall, serialTime loc (run loc evs) = .ok serial ∧ wallTime loc single (run loc evs) = .ok wall ∧ 0 ≤ serial ∧ 0 ≤ wall ∧ serial ≤ engines.length * wall := by
  obtain ⟨S, R, hw, hS, hR⟩ := wall_exact loc single evs hp hne hs1 hall
  have hser := serial_exact loc evs hp hall (fun i => a i + wrong (eng i)) (fun i => b i + wrong (eng i)) hf hg
  have hin : ∀ i, i < (sends evs).length → S ≤ a i ∧ a i ≤ b i ∧ b i ≤ R := by
    intro i hi
    obtain ⟨⟨h, c⟩, hs⟩ := getElem?_of_lt hi
    obtain ⟨s, -, -, hat⟩ := submitted_of loc evs hp i h c hs
    obtain ⟨x, y, e⟩ := exists_snoc ((landings_ne_nil evs i).2 (hall i hi))
    have hrec : ReceivedAt evs i y.1 := ⟨y.2, by rw [e]; simp⟩
    obtain ⟨h1, h2, h3⟩ := hcause i _ _ hi hat hrec
    have := hS.2 _ ⟨i, hat⟩
    have := hR.2 _ ⟨i, hi, hrec⟩
    omega
  have hSR : S ≤ R := by have := hin 0 hne; omega
  have heq : (List.range (sends evs).length).map (fun i => (b i + wrong (eng i)) - (a i + wrong (eng i))) = (List.range (sends evs).length).map (fun i => b i - a i) :=
    List.map_congr_left (fun i _ => by omega)
  rw [heq] at hser
  refine ⟨_, _, hser, hw, ?_, by omega, ?_⟩
  · have : ∀ l : List Nat, (∀ i ∈ l, i < (sends evs).length) → 0 ≤ (l.map (fun i => b i - a i)).sum := by
      intro l
      induction l with
      | nil => intro _; simp
      | cons i l ih =>
        intro h
        have h1 := ih (fun j hj => h j (by simp [hj]))
        have h2 := hin i (h i (by simp))
        simp only [List.map_cons, List.sum_cons]
        omega
    exact this _ (fun i hi => List.mem_range.1 hi)
  · exact sum_engines S R hSR a b eng engines (List.range (sends evs).length) List.nodup_range (fun i hi => he i (List.mem_range.1 hi)) (fun i hi => hin i (List.mem_range.1 hi))
      (fun i hi j hj hn e => hone i j (List.mem_range.1 hi) (List.mem_range.1 hj) hn e)

/-! ### examples -/

/-- two tasks on two engines, one of whose clocks is an hour ahead; times in seconds -/
def ex : List (Int × Ev) := [(10, .send 9), (11, .send 10),
  (20, .reply 1 { parent := some ⟨10, some 0⟩, started := some ⟨3612, some 0⟩, date := some ⟨3619, some 0⟩, noOutput := false }), (21, .output 1), (22, .output 0),
  (30, .reply 0 { parent := some ⟨9 + 7200, some 7200⟩, started := some ⟨13, some 0⟩, date := some ⟨28, some 0⟩, noOutput := false })]

/-- a second example: the engine of the first task dies -/
def exDied : List (Int × Ev) := [(10, .send 9), (11, .send 10),
  (20, .reply 1 { parent := some ⟨10, some 0⟩, started := some ⟨12, some 0⟩, date := some ⟨19, some 0⟩, noOutput := false }),
  (30, .reply 0 { parent := none, started := none, date := some ⟨30, some 0⟩, noOutput := true })]

theorem proper_of (loc : Int → Int) (evs : List (Int × Ev)) (h1 : ∀ c h, (c, Ev.send h) ∈ evs → h ≤ c)
    (h2 : ∀ k, k < evs.length → match evs[k]? with
      | some (_, .reply i r) => ∃ h c', (sends (evs.take k))[i]? = some (h, c') ∧ ∀ p, r.parent = some p → instant loc p = h
      | some (_, .output i) => i < (sends (evs.take k)).length
      | _ => True) : Proper loc evs := by
  refine ⟨h1, ?_, ?_⟩
  · intro pre c i r post e
    have := h2 pre.length (by rw [e]; simp)
    rw [e] at this
    simpa using this
  · intro pre c i post e
    have := h2 pre.length (by rw [e]; simp)
    rw [e] at this
    simpa using this

example (loc : Int → Int) : Proper loc ex ∧ Clock ex ∧ (∀ i, i < (sends ex).length → closed ex i = true) ∧ wallTime loc false (run loc ex) = .ok (30 - 9) ∧ serialTime loc (run loc ex) = .ok (7 + 15) := by
  refine ⟨proper_of loc ex (by intro c h hm; simp [ex] at hm; omega) ?_, by simp [Clock, ex], ?_, rfl, rfl⟩
  · intro k hk
    have : k < 6 := hk
    match k, this with
    | 0, _ => trivial
    | 1, _ => trivial
    | 2, _ => exact ⟨10, 11, rfl, by intro p hp; cases hp; rfl⟩
    | 3, _ => show 1 < 2; omega
    | 4, _ => show 0 < 2; omega
    | 5, _ => exact ⟨9, 10, rfl, by intro p hp; cases hp; rfl⟩
  · intro i hi
    have : i < 2 := hi
    match i, this with
    | 0, _ => rfl
    | 1, _ => rfl

/-- the hypotheses of `speedup_at_most_engines` hold in the example, with the second engine's clock an hour ahead -/
example (loc : Int → Int) : ∃ serial wall, serialTime loc (run loc ex) = .ok serial ∧ wallTime loc false (run loc ex) = .ok wall ∧ serial ≤ 2 * wall := by
  have hp : Proper loc ex := by
    refine proper_of loc ex (by intro c h hm; simp [ex] at hm; omega) ?_
    intro k hk
    have : k < 6 := hk
    match k, this with
    | 0, _ => trivial
    | 1, _ => trivial
    | 2, _ => exact ⟨10, 11, rfl, by intro p hp; cases hp; rfl⟩
    | 3, _ => show 1 < 2; omega
    | 4, _ => show 0 < 2; omega
    | 5, _ => exact ⟨9, 10, rfl, by intro p hp; cases hp; rfl⟩
  obtain ⟨x, y, h1, h2, -, -, h3⟩ := speedup_at_most_engines loc false ex hp (by decide) (by intro h; cases h)
    (by intro i hi; have : i < 2 := hi; match i, this with | 0, _ => rfl | 1, _ => rfl)
    (fun i => i) [0, 1] (by intro i hi; have : i < 2 := hi; match i, this with | 0, _ => simp | 1, _ => simp)
    (fun e => if e = 1 then 3600 else 0) (fun i => if i = 1 then 12 else 13) (fun i => if i = 1 then 19 else 28)
    (by intro i hi; have : i < 2 := hi; match i, this with
          | 0, _ => exact ⟨_, rfl, rfl⟩
          | 1, _ => exact ⟨_, rfl, rfl⟩)
    (by intro i hi; have : i < 2 := hi; match i, this with
          | 0, _ => exact ⟨_, rfl, rfl⟩
          | 1, _ => exact ⟨_, rfl, rfl⟩)
    (by
      intro i s r hi hs hr
      obtain ⟨h, c, hs1, hle, hle'⟩ := submitted_between hp hs
      obtain ⟨r', hr⟩ := hr
      have : i < 2 := hi
      match i, this with
      | 0, _ => cases hs1; cases hr; simp; omega
      | 1, _ => cases hs1; cases hr; simp; omega)
    (by intro i j _ _ hn he; exact absurd he hn)
  exact ⟨x, y, h1, h2, by simpa using h3⟩

/-- **C85 violated.** The engine of the first task dies: `serial_time` says that AsyncResults have no such attribute, although the result is ready; `wall_time` is there. -/
theorem serial_of_died_violated (loc : Int → Int) : Proper loc exDied ∧ (∀ i, i < (sends exDied).length → closed exDied i = true ∨ i = 1) ∧ ready (run loc exDied) = true ∧
    serialTime loc (run loc exDied) = .error .attributeError ∧ wallTime loc false (run loc exDied) = .ok (30 - 10) := by
  refine ⟨proper_of loc exDied (by intro c h hm; simp [exDied] at hm; omega) ?_, ?_, rfl, rfl, rfl⟩
  · intro k hk
    have : k < 4 := hk
    match k, this with
    | 0, _ => trivial
    | 1, _ => trivial
    | 2, _ => exact ⟨10, 11, rfl, by intro p hp; cases hp; rfl⟩
    | 3, _ => exact ⟨9, 10, rfl, by intro p hp; cases hp⟩
  · intro i hi
    have : i < 2 := hi
    match i, this with
    | 0, _ => exact .inl rfl
    | 1, _ => exact .inr rfl

end IPP.Timing
