import Verif.Async.TimingProps

/-!
# C85: the statements about `wall_time`, `serial_time` and `elapsed`
-/
namespace IPP.Timing
open Spec

theorem getElem?_of_lt {α : Type} {l : List α} {i : Nat} (h : i < l.length) : ∃ x, l[i]? = some x := ⟨l[i], List.getElem?_eq_getElem h⟩

theorem lt_of_getElem? {α : Type} {l : List α} {i : Nat} {x : α} (h : l[i]? = some x) : i < l.length := by
  rcases Nat.lt_or_ge i l.length with h' | h'
  · exact h'
  · rw [List.getElem?_eq_none h'] at h; cases h

/-- ready: every task was answered -/
theorem ready_iff (loc : Int → Int) (evs : List (Int × Ev)) (hp : Proper loc evs) : ready (run loc evs) = true ↔ ∀ i, i < (sends evs).length → answered evs i = true := by
  obtain ⟨hl, ht⟩ := run_eq loc evs hp
  unfold ready
  rw [List.all_eq_true]
  constructor
  · intro h i hi
    obtain ⟨⟨hh, c⟩, hs⟩ := getElem?_of_lt hi
    have := h _ (List.mem_of_getElem? (ht i hh c hs))
    exact this
  · intro h t hmem
    obtain ⟨i, hi⟩ := List.getElem?_of_mem hmem
    have hlt : i < (sends evs).length := by rw [← hl]; exact lt_of_getElem? hi
    obtain ⟨⟨hh, c⟩, hs⟩ := getElem?_of_lt hlt
    rw [ht i hh c hs] at hi
    cases hi
    exact h i hlt

theorem exists_snoc {α : Type} {l : List α} (h : l ≠ []) : ∃ a b, l = a ++ [b] := ⟨l.dropLast, l.getLast h, (List.dropLast_concat_getLast h).symm⟩

theorem snoc_induction {α : Type} {P : List α → Prop} (h0 : P []) (h1 : ∀ l a, P l → P (l ++ [a])) (l : List α) : P l := by
  have gen : ∀ n (l : List α), l.length = n → P l := by
    intro n
    induction n with
    | zero => intro l hl; rw [List.length_eq_zero_iff.1 hl]; exact h0
    | succ n ih =>
      intro l hl
      obtain ⟨a, b, rfl⟩ := exists_snoc (l := l) (by intro h; simp [h] at hl)
      exact h1 a b (ih a (by simpa using hl))
  exact gen _ l rfl

/-- a task that was answered has a reply that landed, and the other way round -/
theorem landings_ne_nil (evs : List (Int × Ev)) (i : Nat) : landings evs i ≠ [] ↔ answered evs i = true := by
  induction evs using snoc_induction with
  | h0 => simp [landings, answered]
  | h1 l e ih =>
    rw [landings_snoc, answered_snoc]
    obtain ⟨c, ev⟩ := e
    cases ev with
    | send h => simpa using ih
    | output j => simpa using ih
    | reply j r =>
      dsimp only
      by_cases hij : j = i
      · subst hij
        cases ha : answered l j
        · simp [closed, ha]
        · have := ih.2 ha
          simp [this]
      · simpa [hij] using ih

theorem mem_landings (evs : List (Int × Ev)) (i : Nat) : ∀ x ∈ landings evs i, (x.1, Ev.reply i x.2) ∈ evs := by
  induction evs using snoc_induction with
  | h0 => simp [landings]
  | h1 l e ih =>
    intro x hx
    rw [landings_snoc] at hx
    obtain ⟨c, ev⟩ := e
    rcases List.mem_append.1 hx with h | h
    · exact List.mem_append_left _ (ih x h)
    · cases ev with
      | send h' => simp at h
      | output j => simp at h
      | reply j r =>
        dsimp only at h
        split at h
        · rename_i hc
          simp only [List.mem_singleton] at h
          subst h
          rw [← hc.1]
          simp
        · simp at h

/-- a reply repeats the date of the header of its request -/
theorem parent_eq {loc : Int → Int} {evs : List (Int × Ev)} (hp : Proper loc evs) {i : Nat} {h c : Int} (hs : (sends evs)[i]? = some (h, c)) {t : Int} {r : Reply} (hr : (t, Ev.reply i r) ∈ evs)
    {p : Stamp} (he : r.parent = some p) : instant loc p = h := by
  obtain ⟨pre, post, rfl⟩ := List.append_of_mem hr
  obtain ⟨h', c', hs', hpar⟩ := hp.2.1 pre t i r post rfl
  rw [sends_append, List.getElem?_append_left (lt_of_getElem? hs'), hs'] at hs
  cases hs
  exact hpar p he

/-- the time of submission that the metadata holds -/
theorem submitted_of (loc : Int → Int) (evs : List (Int × Ev)) (hp : Proper loc evs) (i : Nat) (h c : Int) (hs : (sends evs)[i]? = some (h, c)) :
    ∃ s, (mdOf loc (landings evs i) c).submitted = some s ∧ Aware s ∧ SubmittedAt evs i (instant loc s) := by
  unfold mdOf
  dsimp only
  cases hg : ((landings evs i).filterMap (fun x => x.2.parent)).getLast? with
  | none =>
    refine ⟨utcnow c, rfl, aware_utcnow c, h, c, hs, .inr ⟨?_, by simp⟩⟩
    have : (landings evs i).filterMap (fun x => x.2.parent) = [] := by
      simpa using hg
    intro x hx
    exact List.filterMap_eq_nil_iff.1 this x hx
  | some p =>
    refine ⟨ensure loc p, rfl, aware_ensure loc p, h, c, hs, .inl ?_⟩
    have hm := List.mem_of_getLast? hg
    obtain ⟨x, hx, hxp⟩ := List.mem_filterMap.1 hm
    refine ⟨⟨x, hx, by simp [hxp]⟩, ?_⟩
    rw [instant_ensure]
    exact parent_eq hp hs (mem_landings evs i x hx) hxp

theorem SubmittedAt_unique {evs : List (Int × Ev)} {i : Nat} {a b : Int} (ha : SubmittedAt evs i a) (hb : SubmittedAt evs i b) : a = b := by
  obtain ⟨h, c, hs, h1⟩ := ha
  obtain ⟨h', c', hs', h2⟩ := hb
  rw [hs] at hs'
  cases hs'
  rcases h1 with ⟨⟨x, hx, e⟩, rfl⟩ | ⟨e, rfl⟩ <;> rcases h2 with ⟨⟨y, hy, e'⟩, rfl⟩ | ⟨e', rfl⟩
  · rfl
  · rw [e' x hx] at e; cases e
  · rw [e y hy] at e'; cases e'
  · rfl

/-- a time of submission lies between the date in the header and the clock at the send -/
theorem submitted_between {loc : Int → Int} {evs : List (Int × Ev)} (hp : Proper loc evs) {i : Nat} {t : Int} (h : SubmittedAt evs i t) : ∃ h c, (sends evs)[i]? = some (h, c) ∧ h ≤ t ∧ t ≤ c := by
  obtain ⟨h, c, hs, ht⟩ := h
  have hm := List.mem_of_getElem? hs
  have hle : h ≤ c := by
    obtain ⟨⟨c', ev⟩, he, hx⟩ := List.mem_filterMap.1 hm
    cases ev with
    | send h' => simp at hx; obtain ⟨rfl, rfl⟩ := hx; exact hp.1 _ _ he
    | reply j r => simp at hx
    | output j => simp at hx
  refine ⟨h, c, hs, ?_⟩
  rcases ht with ⟨-, rfl⟩ | ⟨-, rfl⟩ <;> omega

/-- the tasks as a list of metadata -/
theorem run_map (loc : Int → Int) (evs : List (Int × Ev)) (hp : Proper loc evs) : ∀ t ∈ run loc evs, ∃ i h c, (sends evs)[i]? = some (h, c) ∧ t = { md := mdOf loc (landings evs i) c, value := answered evs i, output := outDone evs i } := by
  intro t ht
  obtain ⟨hl, hr⟩ := run_eq loc evs hp
  obtain ⟨i, hi⟩ := List.getElem?_of_mem ht
  obtain ⟨⟨h, c⟩, hs⟩ := getElem?_of_lt (l := sends evs) (i := i) (by rw [← hl]; exact lt_of_getElem? hi)
  rw [hr i h c hs] at hi
  cases hi
  exact ⟨i, h, c, hs, rfl⟩

theorem map_some {α β : Type} (f : α → Option β) : ∀ l : List α, (∀ x ∈ l, ∃ y, f x = some y) → ∃ ys : List β, l.map f = ys.map some := by
  intro l
  induction l with
  | nil => intro _; exact ⟨[], rfl⟩
  | cons a l ih =>
    intro h
    obtain ⟨y, hy⟩ := h a (by simp)
    obtain ⟨ys, hys⟩ := ih (fun x hx => h x (by simp [hx]))
    exact ⟨y :: ys, by simp [hy, hys]⟩

/-- **C85, `wall_time`.** When the result is ready, `wall_time` is the time from the earliest submission to the latest reception, for one task and for many. -/
theorem wall_exact (loc : Int → Int) (single : Bool) (evs : List (Int × Ev)) (hp : Proper loc evs) (hne : 0 < (sends evs).length) (hs1 : single = true → (sends evs).length = 1)
    (hall : ∀ i, i < (sends evs).length → answered evs i = true) :
    ∃ S R, wallTime loc single (run loc evs) = .ok (R - S) ∧ Least (fun t => ∃ i, SubmittedAt evs i t) S ∧ Greatest (fun t => ∃ i, i < (sends evs).length ∧ ReceivedAt evs i t) R := by
  obtain ⟨hl, hr⟩ := run_eq loc evs hp
  have hrd := (ready_iff loc evs hp).2 hall
  have hsub : ∀ t ∈ run loc evs, ∃ s, t.md.submitted = some s := by
    intro t ht
    obtain ⟨i, h, c, hs, rfl⟩ := run_map loc evs hp t ht
    obtain ⟨s, e, -⟩ := submitted_of loc evs hp i h c hs
    exact ⟨s, e⟩
  have hrec : ∀ t ∈ run loc evs, ∃ s, t.md.received = some s := by
    intro t ht
    obtain ⟨i, h, c, hs, rfl⟩ := run_map loc evs hp t ht
    have hne := (landings_ne_nil evs i).2 (hall i (lt_of_getElem? hs))
    obtain ⟨a, b, e⟩ := exists_snoc hne
    exact ⟨utcnow b.1, by simp [mdOf, e]⟩
  obtain ⟨ss, ess⟩ := map_some (fun t : Task => t.md.submitted) (run loc evs) hsub
  obtain ⟨rs, ers⟩ := map_some (fun t : Task => t.md.received) (run loc evs) hrec
  -- the entries
  have ms : ∀ s ∈ ss, Aware s ∧ ∃ i, SubmittedAt evs i (instant loc s) := by
    intro s hs
    have : some s ∈ (run loc evs).map (fun t : Task => t.md.submitted) := by rw [ess]; exact List.mem_map.2 ⟨s, hs, rfl⟩
    obtain ⟨t, ht, e⟩ := List.mem_map.1 this
    obtain ⟨i, h, c, hsi, rfl⟩ := run_map loc evs hp t ht
    obtain ⟨s', e', ha, hat⟩ := submitted_of loc evs hp i h c hsi
    dsimp only at e
    rw [e'] at e
    cases e
    exact ⟨ha, i, hat⟩
  have mr : ∀ s ∈ rs, Aware s ∧ ∃ i, i < (sends evs).length ∧ ReceivedAt evs i (instant loc s) := by
    intro s hs
    have : some s ∈ (run loc evs).map (fun t : Task => t.md.received) := by rw [ers]; exact List.mem_map.2 ⟨s, hs, rfl⟩
    obtain ⟨t, ht, e⟩ := List.mem_map.1 this
    obtain ⟨i, h, c, hsi, rfl⟩ := run_map loc evs hp t ht
    dsimp only [mdOf] at e
    obtain ⟨x, hx, e⟩ := Option.map_eq_some_iff.1 e
    subst e
    exact ⟨aware_utcnow _, i, lt_of_getElem? hsi, x.2, by rw [hx, instant_utcnow]⟩
  have cs : ∀ i t, SubmittedAt evs i t → ∃ s ∈ ss, instant loc s = t := by
    intro i t hat
    have hat' := hat
    obtain ⟨h, c, hsi, -⟩ := hat
    obtain ⟨s, e, -, hs'⟩ := submitted_of loc evs hp i h c hsi
    have hm := List.mem_of_getElem? (hr i h c hsi)
    have : some s ∈ ss.map some := by rw [← ess]; exact List.mem_map.2 ⟨_, hm, e⟩
    obtain ⟨s', hm', e'⟩ := List.mem_map.1 this
    cases e'
    exact ⟨s, hm', SubmittedAt_unique hs' hat'⟩
  have cr : ∀ i t, i < (sends evs).length → ReceivedAt evs i t → ∃ s ∈ rs, instant loc s = t := by
    intro i t hi hat
    obtain ⟨r, hat⟩ := hat
    obtain ⟨⟨h, c⟩, hsi⟩ := getElem?_of_lt hi
    have hm := List.mem_of_getElem? (hr i h c hsi)
    have : some (utcnow t) ∈ rs.map some := by rw [← ers]; exact List.mem_map.2 ⟨_, hm, by simp [mdOf, hat]⟩
    obtain ⟨s', hm', e'⟩ := List.mem_map.1 this
    cases e'
    exact ⟨_, hm', by simp⟩
  have lens : ss.length = (run loc evs).length := by have := congrArg List.length ess; simpa using this.symm
  have lenr : rs.length = (run loc evs).length := by have := congrArg List.length ers; simpa using this.symm
  cases ss with
  | nil => simp at lens; omega
  | cons s ss =>
    cases rs with
    | nil => simp at lenr; omega
    | cons r rs =>
      have as := (ms s (by simp)).1
      have ar := (mr r (by simp)).1
      obtain ⟨y, hy, ey, ly⟩ := pyMin_aware loc ss s as (fun x hx => (ms x (by simp [hx])).1)
      obtain ⟨z, hz, ez, lz⟩ := pyMax_aware loc rs r ar (fun x hx => (mr x (by simp [hx])).1)
      refine ⟨instant loc y, instant loc z, ?_, ⟨(ms y hy).2, ?_⟩, ⟨(mr z hz).2, ?_⟩⟩
      · unfold wallTime
        rw [if_pos hrd, ess, ers]
        dsimp only
        cases single with
        | false =>
          simp only [Bool.false_eq_true, if_false, List.map_cons, timedelta, ey, ez, bind, Except.bind]
          exact compare_aware loc (mr z hz).1
        | true =>
          have h1 := hs1 rfl
          have : ss = [] := by
            apply List.length_eq_zero_iff.1
            simp at lens; omega
          subst this
          have : rs = [] := by
            apply List.length_eq_zero_iff.1
            simp at lenr; omega
          subst this
          simp at hy hz
          subst hy; subst hz
          simp only [if_true, List.map_cons, List.head?_cons, Option.join_some, timedelta1]
          exact compare_aware loc ar
      · rintro x ⟨i, hx⟩
        obtain ⟨s', hm, rfl⟩ := cs i x hx
        exact ly s' hm
      · rintro x ⟨i, hi, hx⟩
        obtain ⟨s', hm, rfl⟩ := cr i x hi hx
        exact lz s' hm

/-- **C85, `elapsed`.** While the result is not ready, `elapsed` is the time since the earliest submission. -/
theorem elapsed_exact (loc : Int → Int) (single : Bool) (evs : List (Int × Ev)) (hp : Proper loc evs) (now : Int) (hnow : ∀ i t, SubmittedAt evs i t → t ≤ now)
    (hun : ∃ i, i < (sends evs).length ∧ answered evs i = false) : ∃ S, elapsed loc single (run loc evs) now = .ok (now - S) ∧ Least (fun t => ∃ i, SubmittedAt evs i t) S := by
  obtain ⟨hl, hr⟩ := run_eq loc evs hp
  have hrd : ready (run loc evs) = false := by
    cases h : ready (run loc evs) with
    | false => rfl
    | true =>
      obtain ⟨i, hi, ha⟩ := hun
      rw [(ready_iff loc evs hp).1 h i hi] at ha
      cases ha
  have gen : ∀ (ts : List Task) (m : Stamp), Aware m → (∀ t ∈ ts, ∃ s, t.md.submitted = some s ∧ Aware s) →
      ∃ y, earliest m ts = .ok y ∧ (y = m ∨ ∃ t ∈ ts, t.md.submitted = some y) ∧ Aware y ∧ instant loc y ≤ instant loc m ∧ ∀ t ∈ ts, ∀ s, t.md.submitted = some s → instant loc y ≤ instant loc s := by
    intro ts
    induction ts with
    | nil => intro m hm _; exact ⟨m, rfl, .inl rfl, hm, Int.le_refl _, by simp⟩
    | cons t ts ih =>
      intro m hm h
      obtain ⟨s, es, as⟩ := h t (by simp)
      simp only [earliest, es, less_aware loc as hm, bind, Except.bind]
      by_cases hlt : instant loc s < instant loc m
      · obtain ⟨y, e, ho, ha, hle, hall⟩ := ih s as (fun t ht => h t (by simp [ht]))
        refine ⟨y, by simpa [hlt] using e, .inr ?_, ha, by omega, ?_⟩
        · rcases ho with rfl | ⟨t', ht', e'⟩
          · exact ⟨t, by simp, es⟩
          · exact ⟨t', by simp [ht'], e'⟩
        · intro t' ht' s' es'
          rcases List.mem_cons.1 ht' with rfl | ht'
          · rw [es] at es'; cases es'; exact hle
          · exact hall t' ht' s' es'
      · obtain ⟨y, e, ho, ha, hle, hall⟩ := ih m hm (fun t ht => h t (by simp [ht]))
        refine ⟨y, by simpa [hlt] using e, ?_, ha, hle, ?_⟩
        · rcases ho with rfl | ⟨t', ht', e'⟩
          · exact .inl rfl
          · exact .inr ⟨t', by simp [ht'], e'⟩
        · intro t' ht' s' es'
          rcases List.mem_cons.1 ht' with rfl | ht'
          · rw [es] at es'; cases es'; omega
          · exact hall t' ht' s' es'
  obtain ⟨y, e, ho, ha, hle, hall⟩ := gen (run loc evs) (utcnow now) (aware_utcnow now) (by
    intro t ht
    obtain ⟨i, h, c, hs, rfl⟩ := run_map loc evs hp t ht
    obtain ⟨s, e, a, -⟩ := submitted_of loc evs hp i h c hs
    exact ⟨s, e, a⟩)
  have hle' : ∀ i t, SubmittedAt evs i t → instant loc y ≤ t := by
    intro i t hat
    have hat' := hat
    obtain ⟨h, c, hsi, -⟩ := hat
    obtain ⟨s, e, -, hs'⟩ := submitted_of loc evs hp i h c hsi
    have := hall _ (List.mem_of_getElem? (hr i h c hsi)) s e
    rw [SubmittedAt_unique hat' hs']
    exact this
  refine ⟨instant loc y, ?_, ?_, fun x ⟨i, hx⟩ => hle' i x hx⟩
  · unfold elapsed
    rw [if_neg (by simp [hrd]), e]
    simp only [bind, Except.bind]
    rw [compare_aware loc (aware_utcnow now), instant_utcnow]
  · rcases ho with rfl | ⟨t, ht, e'⟩
    · obtain ⟨i, hi, -⟩ := hun
      obtain ⟨⟨h, c⟩, hsi⟩ := getElem?_of_lt hi
      obtain ⟨s, -, -, hs'⟩ := submitted_of loc evs hp i h c hsi
      refine ⟨i, ?_⟩
      have h1 := hle' i _ hs'
      have h2 := hnow i _ hs'
      rw [instant_utcnow] at h1 ⊢
      have : now = instant loc s := by omega
      rw [this]
      exact hs'
    · obtain ⟨i, h, c, hsi, rfl⟩ := run_map loc evs hp t ht
      obtain ⟨s, e2, -, hs'⟩ := submitted_of loc evs hp i h c hsi
      dsimp only at e'
      rw [e2] at e'
      cases e'
      exact ⟨i, hs'⟩

end IPP.Timing
