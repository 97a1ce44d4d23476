import Verif.Async.Interactive
import Verif.Async.WaitProps

/-!
# Waiting with a progress bar (C98)
-/
namespace IPP.Async.Wait.Interactive
open IPP.Async IPP.Async.Wait

/-! ## Specification -/

/-- What was asked for has happened: all tasks are finished; one is; one has failed or all are finished. -/
def Happened (c : Call) (s : St V) : Prop :=
  match c.asked with
  | .first => ∃ i, i < c.A.n ∧ ∃ r, Finished s i r
  | .exception => (∃ i, i < c.A.n ∧ ∃ r, Finished s i r ∧ Fails c.A r) ∨ ∀ i, i < c.A.n → ∃ r, Finished s i r
  | _ => ∀ i, i < c.A.n → ∃ r, Finished s i r

/-- ... and the callbacks of the futures have run. -/
def Noticed (c : Call) (s : St V) : Prop :=
  match c.asked with
  | .first => ∃ i, i < c.A.n ∧ stageOf c.A s i ≠ .pending
  | .exception => (∃ i, i < c.A.n ∧ stageOf c.A s i ≠ .pending ∧ ∃ r, Finished s i r ∧ Fails c.A r) ∨
      ∀ i, i < c.A.n → stageOf c.A s i ≠ .pending
  | _ => s.main = .ready

/-- The elements of the tasks whose reply has come. -/
def arrived (c : Call) (o : Nat → Bool) : Nat :=
  (((List.range c.A.n).filter (fun i => !o (c.ids i))).map (fun i => c.size (c.ids i))).sum

/-- The moment at which the call may be made: the result as it was constructed, some steps later; a finished task is no longer outstanding. -/
def Callable (c : Call) (m : Moment V) : Prop :=
  (∃ ch, Steps c.A (St.init ch) m.st) ∧ ∀ i r, m.st.child i = some r → m.out (c.ids i) = false

/-! ## Steps -/

theorem xsteps_trans {c : Call} {x y z : St V × (Nat → Bool)} (h : XSteps c x y) (h' : XSteps c y z) : XSteps c x z := by
  induction h' with
  | refl => exact h
  | tail _ hs ih => exact .tail ih hs

theorem xsteps_steps {c : Call} {x y : St V × (Nat → Bool)} (h : XSteps c x y) : Steps c.A x.1 y.1 := by
  induction h with
  | refl => exact .refl _
  | tail _ hs ih =>
    cases hs with
    | fut s s' o h1 _ => exact .tail ih h1
    | discard s o k => exact ih

theorem xsteps_out {c : Call} {x y : St V × (Nat → Bool)} (h : XSteps c x y) (j : Nat) (hj : y.2 j = true) : x.2 j = true := by
  induction h with
  | refl => exact hj
  | tail _ hs ih =>
    cases hs with
    | fut s s' o h1 _ => exact ih hj
    | discard s o k =>
      simp only at hj
      by_cases hk : j = k
      · simp [hk] at hj
      · simp only [hk, if_false] at hj; exact ih hj

theorem xsteps_ok {c : Call} {x y : St V × (Nat → Bool)} (h : XSteps c x y)
    (ho : ∀ i r, x.1.child i = some r → x.2 (c.ids i) = false) : ∀ i r, y.1.child i = some r → y.2 (c.ids i) = false := by
  induction h with
  | refl => exact ho
  | tail _ hs ih =>
    cases hs with
    | fut s s' o h1 h2 =>
      intro i r hr
      cases hc : s.child i with
      | none => exact h2 i r hc hr
      | some r' => exact ih i r' hc
    | discard s o k =>
      intro i r hr
      simp only
      by_cases hk : c.ids i = k
      · simp [hk]
      · simp only [hk, if_false]; exact ih i r hr

theorem round_steps {c : Call} {m m' : Moment V} {b : Bool} (h : Round c m m' b) :
    XSteps c (m.st, m.out) (m'.st, m'.out) ∧ m.t ≤ m'.t ∧ ∀ iv, c.interval = some iv → m'.t ≤ m.t + iv + c.late := by
  cases h with
  | all tmo b _ _ h1 h2 _ h3 => exact ⟨h1, h2, h3⟩
  | part tmo w d p _ _ h1 h2 _ h3 => exact ⟨h1, h2, h3⟩

/-- A round after which the loop goes on has lasted for the whole interval. -/
theorem round_false {c : Call} (hn : 0 < c.A.n) {m m' : Moment V} (h : Round c m m' false) :
    ∃ iv, c.interval = some iv ∧ m.t + iv ≤ m'.t := by
  generalize hb : false = b at h
  cases h with
  | all tmo b' _ hw h1 h2 h3 h4 =>
    apply h3
    rcases hw.enough with he | he
    · exfalso
      have := hw.flag
      rw [he, ← hb] at this
      simp at this
    · exact he
  | part tmo w d p hw' hw h1 h2 h3 h4 =>
    apply h3
    rcases hw.enough with he | he
    · exfalso
      have hp : (∀ i, i < c.A.n → i ∈ d) → p.isEmpty = true ∧ d.isEmpty = false := by
        intro ha
        constructor
        · rw [hw.pending, List.isEmpty_iff, List.filter_eq_nil_iff]
          intro i hi
          simp at hi
          simp [ha i hi]
        · have := ha 0 hn
          cases d with
          | nil => cases this
          | cons x xs => rfl
      rcases hw' with ⟨_, rfl⟩ | ⟨_, rfl⟩
      · simp only [if_true] at hb
        rcases he with he | he
        · rw [(hp he).2] at hb; cases hb
        · cases d with
          | nil => exact he rfl
          | cons x xs => cases hb
      · rw [if_neg (by decide)] at hb
        rcases he with he | ⟨i, hi, hf⟩
        · rw [(hp he).1] at hb; cases hb
        · have : d.any (failedPart c.A m'.st) = true := List.any_eq_true.2 ⟨i, hi, hf⟩
          rw [this] at hb; simp at hb
    · exact he

/-- A round after which the loop ends: what was asked for has happened. -/
theorem round_true {c : Call} {m m' : Moment V} (hi : Inv c.A m.st) (h : Round c m m' true) : Happened c m'.st := by
  generalize hb : true = b at h
  have hi' : Inv c.A m'.st := inv_steps hi (xsteps_steps (round_steps h).1)
  cases h with
  | all tmo b' ha hw h1 h2 h3 h4 =>
    unfold Happened
    rw [ha]
    intro i hin
    have := hw.flag
    rw [← hb] at this
    exact main_finished hi' (by have : m'.st.main = .ready := by simpa using this.symm
                                rw [this]; decide) i hin
  | part tmo w d p hw' hw h1 h2 h3 h4 =>
    have hd : ∀ i ∈ d, ∃ r, Finished m'.st i r := fun i h => stage_finished hi' i (hw.sound i h).1 (hw.sound i h).2
    unfold Happened
    rcases hw' with ⟨ha, rfl⟩ | ⟨ha, rfl⟩
    · rw [ha]
      simp only [if_true] at hb
      cases d with
      | nil => cases hb
      | cons x xs => exact ⟨x, (hw.sound x (by simp)).1, hd x (by simp)⟩
    · rw [ha]
      rw [if_neg (by decide)] at hb
      rcases Bool.or_eq_true_iff.1 hb.symm with hp | hf
      · refine Or.inr (fun i hin => hd i ?_)
        rw [List.isEmpty_iff, hw.pending, List.filter_eq_nil_iff] at hp
        have := hp i (by simp [hin])
        simpa using this
      · obtain ⟨i, h5, h6⟩ := List.any_eq_true.1 hf
        obtain ⟨r, hr, hff⟩ := (failedPart_iff c.A m'.st i).1 h6
        exact Or.inl ⟨i, (hw.sound i h5).1, r, hr, hff⟩

theorem happened_mono {c : Call} {s t : St V} (h : Steps c.A s t) (hh : Happened c s) : Happened c t := by
  have hc : ∀ i, (∃ r, Finished s i r) → ∃ r, Finished t i r := fun i ⟨r, hr⟩ => ⟨r, steps_child h i r hr⟩
  unfold Happened at hh ⊢
  cases ha : c.asked with
  | all => rw [ha] at hh; exact fun i hi => hc i (hh i hi)
  | other => rw [ha] at hh; exact fun i hi => hc i (hh i hi)
  | first => rw [ha] at hh; obtain ⟨i, hi, hr⟩ := hh; exact ⟨i, hi, hc i hr⟩
  | exception =>
    rw [ha] at hh
    rcases hh with ⟨i, hi, r, hr, hf⟩ | hh
    · exact Or.inl ⟨i, hi, r, steps_child h i r hr, hf⟩
    · exact Or.inr (fun i hi => hc i (hh i hi))

theorem all_happened {c : Call} (hn : 0 < c.A.n) {s : St V} (h : ∀ i, i < c.A.n → ∃ r, Finished s i r) : Happened c s := by
  unfold Happened
  cases c.asked with
  | all => exact h
  | other => exact h
  | first => exact ⟨0, hn, h 0 hn⟩
  | exception => exact Or.inr h

/-! ## The loop -/

theorem loop_steps {c : Call} {tic : Nat} {m m' : Moment V} {l : List Int} {e : End} (h : Loop c tic m l m' e) :
    XSteps c (m.st, m.out) (m'.st, m'.out) ∧ m.t ≤ m'.t := by
  induction h with
  | over m T _ _ => exact ⟨.refl _, Nat.le_refl _⟩
  | last m m1 m2 _ hr hg =>
    have := round_steps hr
    exact ⟨xsteps_trans this.1 hg.steps, Nat.le_trans this.2.1 hg.fwd⟩
  | again m m1 m2 m3 l e _ hr hg _ ih =>
    have := round_steps hr
    exact ⟨xsteps_trans this.1 (xsteps_trans hg.steps ih.1), Nat.le_trans this.2.1 (Nat.le_trans hg.fwd ih.2)⟩
  | wrong m m' _ _ hg => exact ⟨hg.steps, hg.fwd⟩

theorem loop_happened {c : Call} {tic : Nat} {m m' : Moment V} {l : List Int} {e : End} (h : Loop c tic m l m' e)
    (hi : Inv c.A m.st) (he : e = .returned) : Happened c m'.st ∨ ∃ T, c.timeout = some T ∧ tic + T < m'.t := by
  induction h with
  | over m T h1 h2 => exact Or.inr ⟨T, h1, h2⟩
  | last m m1 m2 _ hr hg => exact Or.inl (happened_mono (xsteps_steps hg.steps) (round_true hi hr))
  | again m m1 m2 m3 l e _ hr hg _ ih =>
    exact ih (inv_steps hi (steps_trans (xsteps_steps (round_steps hr).1) (xsteps_steps hg.steps))) he
  | wrong => cases he

theorem loop_late {c : Call} {tic T iv : Nat} {m m' : Moment V} {l : List Int} {e : End} (h : Loop c tic m l m' e)
    (ht : c.timeout = some T) (hv : c.interval = some iv) (hm : m.t ≤ tic + T + iv + 2 * c.late) :
    m'.t ≤ tic + T + iv + 2 * c.late := by
  induction h with
  | over m T _ _ => exact hm
  | last m m1 m2 h1 hr hg =>
    have := h1 T ht
    have := (round_steps hr).2.2 iv hv
    have := hg.soon
    omega
  | again m m1 m2 m3 l e h1 hr hg _ ih =>
    apply ih
    have := h1 T ht
    have := (round_steps hr).2.2 iv hv
    have := hg.soon
    omega
  | wrong m m' h1 _ hg =>
    have := h1 T ht
    have := hg.soon
    omega

theorem loop_rounds {c : Call} (hn : 0 < c.A.n) {tic T iv : Nat} {m m' : Moment V} {l : List Int} {e : End}
    (h : Loop c tic m l m' e) (ht : c.timeout = some T) (hv : c.interval = some iv) :
    l = [] ∨ m.t + (l.length - 1) * iv ≤ tic + T := by
  induction h with
  | over m T _ _ => exact Or.inl rfl
  | last m m1 m2 h1 hr hg => right; have := h1 T ht; simpa using this
  | again m m1 m2 m3 l e h1 hr hg _ ih =>
    right
    have h2 := h1 T ht
    obtain ⟨iv', hv', h3⟩ := round_false hn hr
    rw [hv] at hv'
    cases hv'
    have h4 := hg.fwd
    rcases ih with rfl | ih
    · simpa using h2
    · cases l with
      | nil => simpa using h2
      | cons x xs =>
        simp only [List.length_cons, Nat.add_sub_cancel] at ih ⊢
        rw [Nat.succ_mul]
        omega
  | wrong m m' h1 _ hg => exact Or.inl rfl

/-! ## Theorems: when it returns -/

theorem wi_inv {c : Call} {m0 : Moment V} (h0 : Callable c m0) : Inv c.A m0.st := by
  obtain ⟨⟨ch, hs⟩, _⟩ := h0
  exact inv_steps (inv_init c.A ch) hs

/-- **C98 (it waits long enough).** `wait_interactive` returns only when what was asked for has happened, or when more than `timeout` has passed since the
call. For all kinds of results, all values of `return_when`, all interleavings. -/
theorem returns_when (c : Call) (hn : 0 < c.A.n) (m0 m : Moment V) (shown : List Int) (h0 : Callable c m0)
    (h : WaitInteractive c m0 shown m .returned) :
    Happened c m.st ∨ ∃ T, c.timeout = some T ∧ m0.t + T < m.t := by
  have hi := wi_inv h0
  cases h with
  | ready m1 _ h1 h2 h3 =>
    refine Or.inl (happened_mono (xsteps_steps h3.steps) (all_happened hn (fun i hin => ?_)))
    exact main_finished (inv_steps hi (xsteps_steps h1.steps)) (by rw [h2]; decide) i hin
  | loop m1 m2 _ l h1 h2 h3 h4 =>
    rcases loop_happened h3 (inv_steps hi (xsteps_steps h1.steps)) rfl with hh | ⟨T, hT, hlt⟩
    · exact Or.inl (happened_mono (xsteps_steps h4.steps) hh)
    · exact Or.inr ⟨T, hT, Nat.lt_of_lt_of_le hlt h4.fwd⟩

/-- **C98 (not much too long).** With a timeout and an interval it returns at most one interval after the timeout (and the time that the threads
need for three steps). -/
theorem returns_in_time (c : Call) (T iv : Nat) (ht : c.timeout = some T) (hv : c.interval = some iv) (m0 m : Moment V)
    (shown : List Int) (e : End) (h : WaitInteractive c m0 shown m e) : m.t ≤ m0.t + T + iv + 3 * c.late := by
  cases h with
  | ready m1 _ h1 h2 h3 => have := h1.soon; have := h3.soon; omega
  | loop m1 m2 _ l h1 h2 h3 h4 =>
    have := loop_late h3 ht hv (by have := h1.soon; omega)
    have := h4.soon
    omega
  | fails m1 _ l h1 h2 h3 =>
    have := loop_late h3 ht hv (by have := h1.soon; omega)
    omega

/-- **C98 (it ends).** With a timeout and a positive interval it makes at most `timeout / interval + 1` rounds: the bar is moved at most once more. -/
theorem rounds_bounded (c : Call) (hn : 0 < c.A.n) (T iv : Nat) (ht : c.timeout = some T) (hv : c.interval = some iv) (hp : 0 < iv)
    (m0 m : Moment V) (shown : List Int) (e : End) (h : WaitInteractive c m0 shown m e) : shown.length ≤ T / iv + 2 := by
  have key : ∀ (m1 m2 : Moment V) (l : List Int) (e : End), m0.t ≤ m1.t → Loop c m0.t m1 l m2 e → l.length ≤ T / iv + 1 := by
    intro m1 m2 l e hle hl
    rcases loop_rounds hn hl ht hv with rfl | h'
    · simp
    · have : (l.length - 1) * iv ≤ T := by omega
      have := (Nat.le_div_iff_mul_le hp).2 this
      omega
  cases h with
  | ready => simp
  | loop m1 m2 _ l h1 h2 h3 h4 => have := key _ _ _ _ h1.fwd h3; simp; omega
  | fails m1 _ l h1 h2 h3 => have := key _ _ _ _ h1.fwd h3; omega

theorem noticed_round {c : Call} {m m' : Moment V} {b : Bool} (h : Round c m m' b) (hs : Noticed c m.st) : b = true := by
  cases h with
  | all tmo b' ha hw h1 h2 h3 h4 =>
    unfold Noticed at hs
    rw [ha] at hs
    have hs : m.st.main = .ready := hs
    have := (main_mono hw.steps).2 hs
    rw [hw.flag, this]; rfl
  | part tmo w d p hw' hw h1 h2 h3 h4 =>
    unfold Noticed at hs
    rcases hw' with ⟨ha, rfl⟩ | ⟨ha, rfl⟩
    · rw [ha] at hs
      obtain ⟨i, hi, hst⟩ := hs
      have := hw.known i hi hst
      cases d with
      | nil => cases this
      | cons => rfl
    · rw [ha] at hs
      rw [if_neg (by decide)]
      rcases hs with ⟨i, hi, hst, r, hr, hf⟩ | hall
      · have hd := hw.known i hi hst
        have hff := (failedPart_iff c.A m'.st i).2 ⟨r, steps_child hw.steps i r hr, hf⟩
        have : d.any (failedPart c.A m'.st) = true := List.any_eq_true.2 ⟨i, hd, hff⟩
        rw [this]; simp
      · have : p.isEmpty = true := by
          rw [List.isEmpty_iff, hw.pending, List.filter_eq_nil_iff]
          intro i hi
          simp at hi
          simp [hw.known i hi (hall i hi)]
        rw [this]; rfl

/-- **C98 (and then it does not wait again).** If what was asked for has been noticed when a round begins, then it is the last one. -/
theorem noticed_ends (c : Call) (tic : Nat) (m m' : Moment V) (l : List Int) (e : End) (h : Loop c tic m l m' e)
    (hs : Noticed c m.st) : l.length ≤ 1 := by
  cases h with
  | over => simp
  | last => simp
  | again _ m1 m2 _ l _ _ hr _ _ => have := noticed_round hr hs; cases this
  | wrong => simp

/-- **C98 (a finished result is not waited for).** If the result is ready at the call, no round is made, whatever the arguments are. -/
theorem ready_returns (c : Call) (m0 m : Moment V) (shown : List Int) (e : End) (hm : m0.st.main = .ready)
    (h : WaitInteractive c m0 shown m e) : e = .returned ∧ shown.length = 1 ∧ m.t ≤ m0.t + 2 * c.late := by
  have key : ∀ m1 : Moment V, Go c m0 m1 → m1.st.main = .ready := fun m1 hg => (main_mono (xsteps_steps hg.steps)).2 hm
  cases h with
  | ready m1 _ h1 h2 h3 => have := h1.soon; have := h3.soon; exact ⟨rfl, rfl, by omega⟩
  | loop m1 m2 _ l h1 h2 h3 h4 => exact absurd (key m1 h1) h2
  | fails m1 _ l h1 h2 h3 => exact absurd (key m1 h1) h2

/-- **C98 (a wrong `return_when`)** is refused with ValueError, unless the result is ready or the time is over; correct ones never are. -/
theorem value_error_only (c : Call) (m0 m : Moment V) (shown : List Int) (h : WaitInteractive c m0 shown m .valueError) :
    c.asked = .other := by
  cases h with
  | fails m1 _ l h1 h2 h3 =>
    clear h1 h2
    generalize he : End.valueError = e at h3
    induction h3 with
    | over => cases he
    | last => cases he
    | again _ _ _ _ _ _ _ _ _ _ ih => exact ih he
    | wrong _ _ _ ha _ => exact ha

theorem other_refused (c : Call) (ha : c.asked = .other) (ht : c.timeout = none) (m0 m : Moment V) (shown : List Int)
    (h : WaitInteractive c m0 shown m .returned) : ∃ m1, Go c m0 m1 ∧ m1.st.main = .ready := by
  have nr : ∀ (m m' : Moment V) b, ¬ Round c m m' b := by
    intro m m' b hr
    cases hr with
    | all _ _ h => rw [ha] at h; cases h
    | part _ _ _ _ h => rw [ha] at h; rcases h with ⟨h, _⟩ | ⟨h, _⟩ <;> cases h
  cases h with
  | ready m1 _ h1 h2 h3 => exact ⟨m1, h1, h2⟩
  | loop m1 m2 _ l h1 h2 h3 h4 =>
    exfalso
    generalize he : End.returned = e at h3
    cases h3 with
    | over _ T hT => rw [ht] at hT; cases hT
    | last _ _ _ _ hr => exact nr _ _ _ hr
    | again _ _ _ _ _ _ _ hr => exact nr _ _ _ hr
    | wrong => cases he

/-! ## Theorems: the bar -/

theorem count_append (c : Call) (l l' : List Nat) : count c (l ++ l') = count c l + count c l' := by
  simp [count]

theorem count_filter_le (c : Call) (p q : Nat → Bool) (hpq : ∀ j, p j = true → q j = true) (l : List Nat) :
    count c (l.filter p) ≤ count c (l.filter q) := by
  induction l with
  | nil => exact Nat.le_refl _
  | cons x xs ih =>
    have e : ∀ (f : Nat → Bool), count c ((x :: xs).filter f) = (if f x then c.size x else 0) + count c (xs.filter f) := by
      intro f
      by_cases hf : f x = true
      · simp [List.filter_cons, hf, count]
      · simp [List.filter_cons, hf, count]
    rw [e, e]
    by_cases hp : p x = true
    · rw [if_pos hp, if_pos (hpq x hp)]; omega
    · rw [if_neg hp]; omega

theorem progress_mono {c : Call} {x y : St V × (Nat → Bool)} (h : XSteps c x y) : progress c x.2 ≤ progress c y.2 := by
  unfold progress
  have := count_filter_le c y.2 x.2 (fun j hj => xsteps_out h j hj) (once (msgIds c))
  omega

theorem progress_le (c : Call) (o : Nat → Bool) : progress c o ≤ total c := by unfold progress; omega

theorem mem_once : ∀ (l : List Nat) (x : Nat), x ∈ once l ↔ x ∈ l := by
  intro l
  induction l with
  | nil => simp [once]
  | cons y ys ih =>
    intro x
    simp only [once, List.mem_cons, List.mem_filter, ih]
    by_cases hx : x = y <;> simp [hx]

theorem progress_all {c : Call} {o : Nat → Bool} (h : ∀ i, i < c.A.n → o (c.ids i) = false) : progress c o = total c := by
  unfold progress
  have : (once (msgIds c)).filter o = [] := by
    rw [List.filter_eq_nil_iff]
    intro x hx
    rw [mem_once] at hx
    unfold msgIds at hx
    simp only [List.mem_map, List.mem_range] at hx
    obtain ⟨i, hi, rfl⟩ := hx
    simp [h i hi]
  rw [this]
  simp [count]

theorem loop_bar {c : Call} {tic : Nat} {m m' : Moment V} {l : List Int} {e : End} (h : Loop c tic m l m' e) :
    l.Pairwise (· ≤ ·) ∧ (∀ v ∈ l, progress c m.out ≤ v ∧ v ≤ progress c m'.out) := by
  induction h with
  | over => exact ⟨.nil, by simp⟩
  | last m m1 m2 _ hr hg =>
    refine ⟨by simp, ?_⟩
    intro v hv
    simp at hv
    subst hv
    exact ⟨progress_mono (xsteps_trans (round_steps hr).1 hg.steps), Int.le_refl _⟩
  | again m m1 m2 m3 l e _ hr hg hl ih =>
    have h1 := progress_mono (xsteps_trans (round_steps hr).1 hg.steps)
    have h2 := progress_mono (loop_steps hl).1
    simp only at h1 h2
    refine ⟨List.pairwise_cons.2 ⟨fun v hv => (ih.2 v hv).1, ih.1⟩, ?_⟩
    intro v hv
    rcases List.mem_cons.1 hv with rfl | hv
    · exact ⟨h1, h2⟩
    · exact ⟨Int.le_trans h1 (ih.2 v hv).1, (ih.2 v hv).2⟩
  | wrong => exact ⟨.nil, by simp⟩

/-- **C98 (the bar never goes back).** The values that the bar shows ascend, and are at most the number of elements. -/
theorem bar_ascends (c : Call) (m0 m : Moment V) (shown : List Int) (e : End) (h : WaitInteractive c m0 shown m e) :
    shown.Pairwise (· ≤ ·) ∧ ∀ v ∈ shown, progress c m0.out ≤ v ∧ v ≤ total c := by
  cases h with
  | ready m1 _ h1 h2 h3 =>
    refine ⟨by simp, ?_⟩
    intro v hv
    simp at hv; subst hv
    exact ⟨progress_mono (xsteps_trans h1.steps h3.steps), progress_le _ _⟩
  | loop m1 m2 _ l h1 h2 h3 h4 =>
    obtain ⟨hp, hb⟩ := loop_bar h3
    have a1 := progress_mono h1.steps
    have a2 := progress_mono h4.steps
    have a3 := progress_mono (loop_steps h3).1
    simp only at a1 a2 a3
    refine ⟨List.pairwise_append.2 ⟨hp, by simp, ?_⟩, ?_⟩
    · intro v hv w hw
      simp at hw; subst hw
      exact Int.le_trans (hb v hv).2 a2
    · intro v hv
      rcases List.mem_append.1 hv with hv | hv
      · exact ⟨Int.le_trans a1 (hb v hv).1, Int.le_trans (hb v hv).2 (progress_le _ _)⟩
      · simp at hv; subst hv
        exact ⟨by omega, progress_le _ _⟩
  | fails m1 _ l h1 h2 h3 =>
    obtain ⟨hp, hb⟩ := loop_bar h3
    have a1 := progress_mono h1.steps
    exact ⟨hp, fun v hv => ⟨Int.le_trans a1 (hb v hv).1, Int.le_trans (hb v hv).2 (progress_le _ _)⟩⟩

theorem wi_steps {c : Call} {m0 m : Moment V} {shown : List Int} {e : End} (h : WaitInteractive c m0 shown m e) :
    XSteps c (m0.st, m0.out) (m.st, m.out) := by
  cases h with
  | ready m1 _ h1 h2 h3 => exact xsteps_trans h1.steps h3.steps
  | loop m1 m2 _ l h1 h2 h3 h4 => exact xsteps_trans h1.steps (xsteps_trans (loop_steps h3).1 h4.steps)
  | fails m1 _ l h1 h2 h3 => exact xsteps_trans h1.steps (loop_steps h3).1

theorem wi_last {c : Call} {m0 m : Moment V} {shown : List Int} (h : WaitInteractive c m0 shown m .returned) :
    shown.getLast? = some (progress c m.out) := by
  cases h with
  | ready m1 _ h1 h2 h3 => rfl
  | loop m1 m2 _ l h1 h2 h3 h4 => simp

/-- **C98 (the bar is full at the end).** When the call has returned and all tasks are finished, the last value that the bar shows is the number of elements. -/
theorem bar_full (c : Call) (m0 m : Moment V) (shown : List Int) (h0 : Callable c m0)
    (h : WaitInteractive c m0 shown m .returned) (hf : ∀ i, i < c.A.n → ∃ r, Finished m.st i r) :
    shown.getLast? = some (total c : Int) := by
  rw [wi_last h, progress_all]
  intro i hi
  obtain ⟨r, hr⟩ := hf i hi
  exact xsteps_ok (wi_steps h) h0.2 i r hr

theorem once_nodup : ∀ (l : List Nat), l.Nodup → once l = l := by
  intro l
  induction l with
  | nil => intro _; rfl
  | cons x xs ih =>
    intro h
    rw [List.nodup_cons] at h
    rw [once, ih h.2, List.filter_eq_self.2]
    intro y hy
    simp only [decide_eq_true_eq, ne_eq]
    rintro rfl
    exact h.1 hy

theorem count_split (c : Call) (p : Nat → Bool) (l : List Nat) :
    count c l = count c (l.filter p) + count c (l.filter (fun x => !p x)) := by
  induction l with
  | nil => rfl
  | cons x xs ih =>
    have e : ∀ (f : Nat → Bool), count c ((x :: xs).filter f) = (if f x then c.size x else 0) + count c (xs.filter f) := by
      intro f
      by_cases hf : f x = true
      · simp [List.filter_cons, hf, count]
      · simp [List.filter_cons, hf, count]
    rw [e, e]
    have : count c (x :: xs) = c.size x + count c xs := by simp [count]
    rw [this, ih]
    by_cases hp : p x = true <;> simp [hp] <;> omega

theorem arrived_count (c : Call) (o : Nat → Bool) : arrived c o = count c ((msgIds c).filter (fun x => !o x)) := by
  unfold arrived count msgIds
  rw [List.filter_map, List.map_map]
  rfl

/-- **C98 (what the bar shows).** If the requests have different ids, `progress` is the number of elements of the tasks whose reply has come: all of those
that are finished are counted, and what is not yet answered is not. -/
theorem progress_counts (c : Call) (hd : (msgIds c).Nodup) (o : Nat → Bool) : progress c o = arrived c o := by
  unfold progress total
  rw [once_nodup _ hd, arrived_count, count_split c o (msgIds c)]
  omega

/-- each value the bar shows was the number of elements that had arrived at some moment of the call -/
theorem bar_true (c : Call) (hd : (msgIds c).Nodup) (m0 m : Moment V) (shown : List Int) (e : End)
    (h : WaitInteractive c m0 shown m e) :
    ∀ v ∈ shown, ∃ m' : Moment V, XSteps c (m0.st, m0.out) (m'.st, m'.out) ∧ XSteps c (m'.st, m'.out) (m.st, m.out) ∧
      v = arrived c m'.out := by
  have key : ∀ (tic : Nat) (a b : Moment V) (l : List Int) (e : End), Loop c tic a l b e → ∀ v ∈ l, ∃ m' : Moment V,
      XSteps c (a.st, a.out) (m'.st, m'.out) ∧ XSteps c (m'.st, m'.out) (b.st, b.out) ∧ v = arrived c m'.out := by
    intro tic a b l e hl
    induction hl with
    | over => simp
    | last m m1 m2 _ hr hg =>
      intro v hv
      simp at hv; subst hv
      exact ⟨m2, xsteps_trans (round_steps hr).1 hg.steps, .refl _, progress_counts c hd _⟩
    | again m m1 m2 m3 l e _ hr hg hl ih =>
      have s1 := xsteps_trans (round_steps hr).1 hg.steps
      intro v hv
      rcases List.mem_cons.1 hv with rfl | hv
      · exact ⟨m2, s1, (loop_steps hl).1, progress_counts c hd _⟩
      · obtain ⟨m', a1, a2, a3⟩ := ih v hv
        exact ⟨m', xsteps_trans s1 a1, a2, a3⟩
    | wrong => simp
  have hend : ∀ v, v = progress c m.out → ∃ m' : Moment V, XSteps c (m0.st, m0.out) (m'.st, m'.out) ∧
      XSteps c (m'.st, m'.out) (m.st, m.out) ∧ v = arrived c m'.out :=
    fun v hv => ⟨m, wi_steps h, .refl _, by rw [hv]; exact progress_counts c hd _⟩
  cases h with
  | ready m1 _ h1 h2 h3 => intro v hv; simp at hv; exact hend v hv
  | loop m1 m2 _ l h1 h2 h3 h4 =>
    intro v hv
    rcases List.mem_append.1 hv with hv | hv
    · obtain ⟨m', a1, a2, a3⟩ := key _ _ _ _ _ h3 v hv
      exact ⟨m', xsteps_trans h1.steps a1, xsteps_trans a2 h4.steps, a3⟩
    · simp at hv; exact hend v hv
  | fails m1 _ l h1 h2 h3 =>
    intro v hv
    obtain ⟨m', a1, a2, a3⟩ := key _ _ _ _ _ h3 v hv
    exact ⟨m', xsteps_trans h1.steps a1, a2, a3⟩

/-! ## Violations -/

/-- one task, not finished -/
def exCall (asked : Asked) (interval timeout : Option Nat) (late : Nat) : Call :=
  ⟨⟨.single, 1, false, some [some 0]⟩, fun i => i, fun _ => 1, interval, timeout, asked, late⟩

/-- one moment of it -/
def exMoment (t : Nat) : Moment Nat := ⟨St.init (fun _ => none), fun _ => true, t⟩

theorem exGo (c : Call) (t : Nat) : Go c (exMoment t) (exMoment t) := ⟨.refl _, Nat.le_refl _, Nat.le_add_right _ _⟩

theorem exRun (iv T : Nat) (h : T < iv) : WaitInteractive (exCall .all (some iv) (some T) 0) (exMoment 0) [0, 0] (exMoment iv) .returned := by
  refine .loop (exMoment 0) (exMoment iv) (exMoment iv) [0] (exGo _ _) (by intro h; cases h) ?_ (exGo _ _)
  refine .again (exMoment 0) (exMoment iv) (exMoment iv) (exMoment iv) [] .returned ?_ ?_ (exGo _ _) ?_
  · intro T' _; exact Nat.zero_le _
  · refine .all _ _ true false rfl ⟨.refl _, rfl, Or.inr rfl⟩ (.refl _) (Nat.zero_le _) (fun _ => ⟨iv, rfl, by simp [exMoment]⟩) ?_
    intro iv' hiv
    cases hiv
    simp [exMoment, exCall]
  · exact .over _ T rfl (by simp [exMoment]; exact h)

/-- **C98 violated (no TimeoutError).** The documentation promises a TimeoutError when the timeout has passed: the call returns as if all were well, with the
task unfinished. -/
theorem no_timeout_error_violated (T : Nat) : ∃ (m : Moment Nat) (shown : List Int),
    WaitInteractive (exCall .all (some (T + 1)) (some T) 0) (exMoment 0) shown m .returned ∧ m.st.child 0 = none :=
  ⟨_, _, exRun (T + 1) T (Nat.lt_succ_self T), rfl⟩

/-- **C98 violated (the timeout is late by an interval).** With a timeout shorter than the interval (for `client.wait_interactive` the interval is
1 s) the call returns only after the interval: no run in which the task stays unfinished is over sooner, once the loop is entered in time. -/
theorem interval_before_timeout_violated (iv T : Nat) (h : T < iv) :
    (∃ (m : Moment Nat) (shown : List Int), WaitInteractive (exCall .all (some iv) (some T) 0) (exMoment 0) shown m .returned) ∧
    ∀ (m : Moment Nat) (shown : List Int), WaitInteractive (exCall .all (some iv) (some T) 0) (exMoment 0) shown m .returned →
      m.st.child 0 = none → iv ≤ m.t := by
  refine ⟨⟨_, _, exRun iv T h⟩, ?_⟩
  intro m shown hw hc
  have hcall : Callable (exCall .all (some iv) (some T) 0) (exMoment 0) := ⟨⟨_, .refl _⟩, fun i r hr => by cases hr⟩
  have hnot : ∀ s : St Nat, Inv (exCall .all (some iv) (some T) 0).A s → Steps (exCall .all (some iv) (some T) 0).A s m.st →
      s.main ≠ .ready := by
    intro s hi hs hm
    obtain ⟨r, hr⟩ := main_finished hi (by rw [hm]; decide) 0 (Nat.zero_lt_one)
    have := steps_child hs 0 r hr
    rw [hc] at this
    cases this
  have hi := wi_inv hcall
  cases hw with
  | ready m1 _ h1 h2 h3 => exact absurd h2 (hnot _ (inv_steps hi (xsteps_steps h1.steps)) (xsteps_steps h3.steps))
  | loop m1 m2 _ l h1 h2 h3 h4 =>
    have ht : m1.t = 0 := by have := h1.soon; simp [exMoment, exCall] at this; exact this
    have hi1 := inv_steps hi (xsteps_steps h1.steps)
    have h4' := h4.fwd
    generalize he : End.returned = e at h3
    cases h3 with
    | over _ T' hT hlt => rw [ht] at hlt; exact absurd hlt (Nat.not_lt_zero _)
    | wrong => cases he
    | last _ m3 _ _ hr hg =>
      exfalso
      generalize hb : true = b at hr
      cases hr with
      | all tmo b' _ hw h1' h2 h3 h4'' =>
        have := hw.flag
        rw [← hb] at this
        exact hnot _ (inv_steps hi1 (xsteps_steps h1')) (xsteps_steps (xsteps_trans hg.steps h4.steps)) (by simpa using this.symm)
      | part tmo w d p hw' => rcases hw' with ⟨h, _⟩ | ⟨h, _⟩ <;> cases h
    | again _ m3 m4 _ l _ _ hr hg hl =>
      obtain ⟨iv', hv, h5⟩ := round_false (Nat.zero_lt_one) hr
      cases hv
      have := hg.fwd
      have := (loop_steps hl).2
      omega

/-- **C98 violated (results from the hub).** For a result whose tasks another client has submitted, no id is in `outstanding`: the bar is full at once though
nothing is finished. -/
theorem hub_bar_violated (c : Call) (o : Nat → Bool) (ho : ∀ i, i < c.A.n → o (c.ids i) = false) : progress c o = total c :=
  progress_all ho

/-- **C98 violated (a request that is twice in the result).** `client.get_result([id, id])` before the reply: the bar shows one of two. -/
theorem twice_violated :
    let c : Call := ⟨⟨.list, 2, false, none⟩, fun _ => 7, fun _ => 1, some 1, none, .all, 0⟩
    progress c (fun _ => true) = 1 ∧ total c = 2 ∧ arrived c (fun _ => true) = 0 := by decide

/-! ## `Client.wait_interactive` -/

/-- **C98 (all outstanding requests).** If the table of futures is not changed meanwhile, the client waits for all requests that have output, in order, and
returns at once exactly if there are none. -/
theorem client_waits_for (l : List (Nat × Bool)) :
    clientWait l.length (l.map (fun x => (x.1, x.2, l.length))) =
      (if (l.filter (·.2)).isEmpty then .returnsAtOnce else .waitsFor ((l.filter (·.2)).map (·.1))) := by
  have key : ∀ (n : Nat) (k : List (Nat × Bool)), collectFutures n (k.map (fun x => (x.1, x.2, n))) = some ((k.filter (·.2)).map (·.1)) := by
    intro n k
    induction k with
    | nil => rfl
    | cons x xs ih =>
      simp only [List.map_cons, collectFutures, ne_eq, not_true_eq_false, if_false, ih, Option.map_some]
      by_cases hx : x.2 = true <;> simp [hx]
  unfold clientWait
  rw [key]
  cases h : l.filter (·.2) with
  | nil => rfl
  | cons => rfl

/-- **C98 violated (a reply at the wrong moment).** If a request is answered while `client.wait_interactive()` goes through the futures, the io thread removes its
entry, and the call raises RuntimeError (dictionary changed size during iteration). -/
theorem client_race_violated (f g : Nat) (b : Bool) (rest : List (Nat × Bool × Nat)) (n : Nat) :
    clientWait (n + 1) ((f, b, n + 1) :: (g, true, n) :: rest) = .runtimeError := by
  unfold clientWait collectFutures
  simp [collectFutures]

/-! ## Non-vacuity -/

/-- a task that finishes during the second round -/
def exDone (t : Nat) : Moment Nat :=
  ⟨⟨fun j => if j = 0 then some (.val (.scalar 7)) else none, .ready, false, fun _ => .pending⟩, fun j => if j = 0 then false else true, t⟩

theorem exSteps (c : Call) (hc : c = exCall .all (some 10) none 1) (t t' : Nat) :
    XSteps c ((exMoment t).st, (exMoment t).out) ((exDone t').st, (exDone t').out) := by
  subst hc
  let s0 : St Nat := St.init (fun _ => none)
  let s1 : St Nat := { s0 with child := fun j => if j = 0 then some (.val (.scalar 7)) else s0.child j }
  let s2 : St Nat := { s1 with main := .done }
  refine .tail (y := (s2, (exDone t').out)) (.tail (y := (s1, (exDone t').out)) (.tail (y := (s0, (exDone t').out))
    (.tail (.refl _) (.discard _ _ 0)) (.fut s0 s1 _ (.finish s0 0 _ (by decide) rfl) ?_)) (.fut s1 s2 _ (.mainDone s1 [.val (.scalar 7)] rfl rfl rfl) ?_))
    (.fut s2 _ _ (.mainReady s2 rfl) ?_)
  · intro i r _ hr
    have : i = 0 := by
      simp only [s1] at hr
      by_cases h : i = 0
      · exact h
      · simp only [h, if_false] at hr; cases hr
    subst this
    rfl
  · intro i r h1 h2; rw [show s2.child i = s1.child i from rfl, h1] at h2; cases h2
  · intro i r h1 h2; rw [show (exDone t').st.child i = s1.child i from rfl] at h2; rw [show s2.child i = s1.child i from rfl] at h1; rw [h1] at h2; cases h2

/-- a run with two rounds: the hypotheses of the theorems above are met, and the bar shows 0, 1, 1 -/
theorem exFull : Callable (exCall .all (some 10) none 1) (exMoment 0) ∧
    WaitInteractive (exCall .all (some 10) none 1) (exMoment 0) [0, 1, 1] (exDone 15) .returned ∧
    total (exCall .all (some 10) none 1) = 1 := by
  refine ⟨⟨⟨_, .refl _⟩, fun i r hr => by cases hr⟩, ?_, by decide⟩
  refine .loop (exMoment 0) (exDone 15) (exDone 15) [0, 1] (exGo _ _) (by intro h; cases h) ?_ ⟨.refl _, Nat.le_refl _, by decide⟩
  refine .again (exMoment 0) (exMoment 10) (exMoment 10) (exDone 15) [1] .returned (fun T h => by cases h) ?_ (exGo _ _) ?_
  · refine .all _ _ true false rfl ⟨.refl _, rfl, Or.inr rfl⟩ (.refl _) (by decide) (fun _ => ⟨10, rfl, by decide⟩) ?_
    intro iv' hiv
    cases hiv
    decide
  · refine .last (exMoment 10) (exDone 15) (exDone 15) (fun T h => by cases h) ?_ ⟨.refl _, Nat.le_refl _, by decide⟩
    have hs := exSteps _ rfl 10 15
    refine .all _ _ false true rfl ⟨xsteps_steps hs, rfl, Or.inl rfl⟩ hs (by decide) (fun h => by cases h) ?_
    intro iv' hiv
    cases hiv
    decide

end IPP.Async.Wait.Interactive
