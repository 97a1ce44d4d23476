import Verif.Heart.Lemmas

/-!
# C26, C27: heartbeat monitor; C46: engine-side monitor

Vocabulary: `Spec.lean`.  All statements are for every history of pongs (from any heart, with any token) and beats (at any interval).
-/
namespace IPP.Heart

/-! ## C26 -/

/-- C26, exactness: at the end of a beat interval a heart is declared dead iff it was known to be alive and has answered none of the last
`max + 1` intervals (including the one that just ended). -/
theorem stopped_iff (max : Nat) (evs : List Ev) (dt : Nat) :
    ∃ news, (run max (evs ++ [.beat dt])).notes = (run max evs).notes ++ news ∧
      ∀ h, (.stopped h ∈ news ↔ Alive h (run max evs).notes ∧ SilentFor h (max + 1) (evs ++ [.beat dt])) := by
  have hi := inv_run max evs
  rw [run_snoc]
  refine ⟨_, beat_notes max _ dt, fun h => ?_⟩
  rw [alive_iff hi, silent_beat]
  have hm : Note.stopped h ∈ (newAt (run max evs)).map .new ++ (failAt max (run max evs)).map .stopped ↔ h ∈ failAt max (run max evs) := by
    simp
  rw [hm]
  simp only [failAt, List.mem_filter, decide_eq_true_eq]
  constructor
  · rintro ⟨h1, h2, h3⟩
    obtain ⟨a, _, c⟩ := hi.prob h h1
    have : (run max evs).onProbation h = max := by omega
    rw [this] at a
    exact ⟨h1, a, fun ha => h2 ((hi.resp h).mpr ha)⟩
  · rintro ⟨h1, h2, h3⟩
    obtain ⟨_, b, c⟩ := hi.prob h h1
    refine ⟨h1, fun hr => h3 ((hi.resp h).mp hr), ?_⟩
    have hlt : ¬ (run max evs).onProbation h < max := by
      intro hlt
      apply b
      obtain ⟨k, hk⟩ : ∃ k, max = (run max evs).onProbation h + 1 + k := ⟨max - ((run max evs).onProbation h + 1), by omega⟩
      have mono : ∀ k n, SilentFor h (n + k) evs → SilentFor h n evs := by
        intro k
        induction k with
        | zero => intro n h; exact h
        | succ k ih => intro n h; exact ih n (silent_mono h)
      rw [hk] at h2
      exact mono k _ h2
    omega

/-- Between beats nothing is notified. -/
theorem pong_notes (max : Nat) (evs : List Ev) (h t : Nat) : (run max (evs ++ [.pong h t])).notes = (run max evs).notes := by
  rw [run_snoc]
  show (handlePong _ _ _).notes = _
  unfold handlePong
  split
  · rfl
  · split <;> rfl

/-- C26: a heart that answers in every interval is never declared dead. -/
theorem answering_never_stopped (max : Nat) (evs : List Ev) (dt : Nat) (h : Id) (ha : Answered h evs) :
    ∃ news, (run max (evs ++ [.beat dt])).notes = (run max evs).notes ++ news ∧ .stopped h ∉ news := by
  obtain ⟨news, h1, h2⟩ := stopped_iff max evs dt
  refine ⟨news, h1, fun hs => ?_⟩
  have := ((h2 h).mp hs).2
  rw [silent_beat] at this
  exact this.2 ha

/-- C26: whatever happened before, an answer (an echo of the current or the previous ping) restarts the count: for the next `max` silent
intervals the heart stays alive and then, after the next one, it is declared dead. -/
theorem silent_heart_dies (max : Nat) (evs : List Ev) (h : Id) (dt : Nat) (dts : List Nat) (ha : Answered h evs) (hlen : dts.length = max + 1) :
    Alive h (run max (evs ++ [.beat dt])).notes ∧
    Alive h (run max (evs ++ [.beat dt] ++ dts.dropLast.map .beat)).notes ∧
    ¬ Alive h (run max (evs ++ [.beat dt] ++ dts.map .beat)).notes := by
  have key : ∀ ds : List Nat, ds.length ≤ max →
      h ∈ (run max (evs ++ [.beat dt] ++ ds.map .beat)).hearts ∧ (run max (evs ++ [.beat dt] ++ ds.map .beat)).onProbation h = ds.length ∧
      ¬ Answered h (evs ++ [.beat dt] ++ ds.map .beat) := by
    intro ds
    induction ds using snoc_induction with
    | nil =>
      intro _
      have hi := inv_run max evs
      have hr := (hi.resp h).mpr ha
      refine ⟨?_, ?_, ?_⟩
      · simp only [List.map_nil, List.append_nil]
        rw [run_snoc]
        show h ∈ (beat max _ dt).hearts
        rw [beat_hearts]
        by_cases hh : h ∈ (run max evs).hearts
        · exact Or.inl ⟨hh, by simp [failAt, hr]⟩
        · exact Or.inr (by simp [newAt, hr, hh])
      · simp only [List.map_nil, List.append_nil]
        rw [run_snoc]
        show (beat max _ dt).onProbation h = 0
        rw [beat_prob, if_neg (by simp [hr])]
      · simp only [List.map_nil, List.append_nil]
        exact answered_beat _ _ _
    | snoc ds d ih =>
      intro hlen
      simp only [List.length_append, List.length_cons, List.length_nil, Nat.zero_add] at hlen
      obtain ⟨h1, h2, h3⟩ := ih (by omega)
      have hi := inv_run max (evs ++ [.beat dt] ++ ds.map .beat)
      have hnr : h ∉ (run max (evs ++ [.beat dt] ++ ds.map .beat)).responses := fun hr => h3 ((hi.resp h).mp hr)
      have happ : evs ++ [Ev.beat dt] ++ (ds ++ [d]).map .beat = (evs ++ [.beat dt] ++ ds.map .beat) ++ [.beat d] := by simp
      rw [happ, run_snoc]
      refine ⟨?_, ?_, answered_beat _ _ _⟩
      · show h ∈ (beat max _ d).hearts
        rw [beat_hearts]
        refine Or.inl ⟨h1, fun hf => ?_⟩
        simp only [failAt, List.mem_filter, decide_eq_true_eq] at hf
        omega
      · show (beat max _ d).onProbation h = _
        rw [beat_prob, if_pos ⟨h1, hnr, by omega⟩, h2]
        simp
  refine ⟨?_, ?_, ?_⟩
  · rw [alive_iff (inv_run max _)]
    simpa using (key [] (by simp)).1
  · rw [alive_iff (inv_run max _)]
    exact (key dts.dropLast (by simp; omega)).1
  · rw [alive_iff (inv_run max _)]
    rcases List.eq_nil_or_concat dts with rfl | ⟨ds, d, rfl⟩
    · simp at hlen
    · simp only [List.concat_eq_append, List.length_append, List.length_cons, List.length_nil] at hlen ⊢
      obtain ⟨h1, h2, h3⟩ := key ds (by omega)
      have hi := inv_run max (evs ++ [.beat dt] ++ ds.map .beat)
      have hnr : h ∉ (run max (evs ++ [.beat dt] ++ ds.map .beat)).responses := fun hr => h3 ((hi.resp h).mp hr)
      have happ : evs ++ [Ev.beat dt] ++ (ds ++ [d]).map .beat = (evs ++ [.beat dt] ++ ds.map .beat) ++ [.beat d] := by simp
      rw [happ, run_snoc]
      show h ∉ (beat max _ d).hearts
      rw [beat_hearts]
      rintro (⟨_, hf⟩ | hn)
      · exact hf (by simp only [failAt, List.mem_filter, decide_eq_true_eq]; exact ⟨h1, hnr, by omega⟩)
      · exact hnr (List.mem_filter.mp hn).1

/-- max = 1: heart 5 answers once (even late, with the previous token), then is silent; it dies after exactly two silent intervals. -/
example : (run 1 [.beat 3, .beat 3, .pong 5 3, .beat 3, .beat 3]).notes = [.new 5] ∧
    (run 1 [.beat 3, .beat 3, .pong 5 3, .beat 3, .beat 3, .beat 3]).notes = [.new 5, .stopped 5] := by decide
/-- An echo that is too old does not count. -/
example : (run 1 [.beat 3, .beat 3, .beat 3, .pong 5 3, .beat 3]).notes = [] := by decide

/-! ## C27 -/

/-- C27: a new heart is notified at the end of the interval in which it answered, iff it was not known to be alive. -/
theorem new_iff (max : Nat) (evs : List Ev) (dt : Nat) :
    ∃ news, (run max (evs ++ [.beat dt])).notes = (run max evs).notes ++ news ∧
      ∀ h, (.new h ∈ news ↔ ¬ Alive h (run max evs).notes ∧ Answered h evs) := by
  have hi := inv_run max evs
  rw [run_snoc]
  refine ⟨_, beat_notes max _ dt, fun h => ?_⟩
  rw [alive_iff hi, ← hi.resp]
  simp [newAt, and_comm]

/-- C27: the notifications about one heart are new, stopped, new, stopped, … -/
theorem notes_alternate (max : Nat) (evs : List Ev) (h : Id) (i : Nat) (hi : i < (about h (run max evs).notes).length) :
    (about h (run max evs).notes)[i]? = some (if i % 2 = 0 then .new h else .stopped h) :=
  (inv_run max evs).alt h i hi

/-- A heart that appears, dies, and appears again, next to one that keeps beating. -/
example : (run 0 [.beat 1, .pong 5 1, .pong 6 1, .beat 1, .pong 6 2, .beat 1, .pong 5 3, .pong 6 3, .beat 1]).notes =
    [.new 5, .new 6, .stopped 5, .new 5] := by decide

/-! ## C46: the engine's monitor -/

/-- Times of events never go back, and each check happens strictly later than the ping or check before it. -/
def Clock : Nat → List EngEv → Prop
  | _, [] => True
  | t, .ping t' :: evs => t ≤ t' ∧ Clock t' evs
  | t, .check t' :: evs => t < t' ∧ Clock t' evs

/-- One event: (current run of checks without a ping since the check before, has there been a ping since the last check?). -/
def missStep (acc : Nat × Bool) : EngEv → Nat × Bool
  | .ping _ => (acc.1, true)
  | .check _ => (if acc.2 then 0 else acc.1 + 1, false)

/-- Number of consecutive checks at the end of the history that had no ping between them and the check before; the very first check
does not count as missed. -/
def misses (evs : List EngEv) : Nat := (evs.foldl missStep (0, true)).1

theorem eng_stopped_stays (max : Nat) (evs : List EngEv) (s : Eng) (h : s.stopped = true) : evs.foldl (engStep max) s = s := by
  induction evs with
  | nil => rfl
  | cons e evs ih =>
    have : engStep max s e = s := by simp [engStep, h]
    rw [List.foldl_cons, this, ih]

theorem eng_gen (max : Nat) (hmax : 0 < max) (evs : List EngEv) (s : Eng) (acc : Nat × Bool) (t : Nat) (hs : s.stopped = false)
    (hm : s.missed = acc.1) (hlt : acc.1 < max) (hp : s.lastPinged ≤ t) (hmo : s.lastMonitored ≤ t)
    (hflag : acc.2 = true ↔ s.lastMonitored ≤ s.lastPinged) (hc : Clock t evs) :
    (evs.foldl (engStep max) s).stopped = true ↔ ∃ p q, evs = p ++ q ∧ max ≤ (p.foldl missStep acc).1 := by
  induction evs generalizing s acc t with
  | nil =>
    simp only [List.foldl_nil, hs]
    constructor
    · intro h; cases h
    · rintro ⟨p, q, hpq, hle⟩
      have : p = [] := by simpa using (List.append_eq_nil_iff.mp hpq.symm).1
      subst this
      simp at hle
      omega
  | cons e evs ih =>
    have shift : ∀ acc', missStep acc e = acc' → ((∃ p q, e :: evs = p ++ q ∧ max ≤ (p.foldl missStep acc).1) ↔
        ∃ p q, evs = p ++ q ∧ max ≤ (p.foldl missStep acc').1) := by
      rintro acc' rfl
      constructor
      · rintro ⟨p, q, hpq, hle⟩
        cases p with
        | nil => simp at hle; omega
        | cons x p =>
          simp only [List.cons_append, List.cons.injEq] at hpq
          obtain ⟨rfl, rfl⟩ := hpq
          exact ⟨p, q, rfl, hle⟩
      · rintro ⟨p, q, rfl, hle⟩
        exact ⟨e :: p, q, rfl, hle⟩
    rw [List.foldl_cons]
    cases e with
    | ping t' =>
      obtain ⟨ht, hc⟩ := hc
      rw [shift (acc.1, true) rfl]
      refine ih _ _ t' ?_ ?_ hlt ?_ ?_ ?_ hc
      · simp [engStep, hs]
      · simp [engStep, hs, hm]
      · simp [engStep, hs]
      · simp [engStep, hs]; omega
      · simp [engStep, hs]; omega
    | check t' =>
      obtain ⟨ht, hc⟩ := hc
      rw [shift (if acc.2 then 0 else acc.1 + 1, false) rfl]
      have hmiss : (if s.lastMonitored > s.lastPinged then s.missed + 1 else 0) = (if acc.2 then 0 else acc.1 + 1) := by
        cases hf : acc.2
        · have : ¬ s.lastMonitored ≤ s.lastPinged := fun h => by rw [hflag.mpr h] at hf; cases hf
          rw [if_pos (by omega), hm]; simp
        · have := hflag.mp hf
          rw [if_neg (by omega)]; simp
      have hstep : engStep max s (.check t') = { s with
          missed := (if acc.2 then 0 else acc.1 + 1)
          stopped := decide ((if acc.2 then 0 else acc.1 + 1) ≥ max)
          lastMonitored := t' } := by
        unfold engStep
        rw [if_neg (by simp [hs])]
        dsimp only
        rw [if_neg (by omega), hmiss]
      rw [hstep]
      by_cases hge : (if acc.2 then 0 else acc.1 + 1) ≥ max
      · rw [eng_stopped_stays _ _ _ (by simp [hge])]
        constructor
        · intro _; exact ⟨[], evs, rfl, hge⟩
        · intro _; simp [hge]
      · refine ih _ _ t' (by simp only [hge, decide_false]) rfl (by omega) (by dsimp only; omega) (Nat.le_refl _) ?_ hc
        dsimp only
        constructor
        · intro h; cases h
        · intro h; omega

/-- C46: the engine gives up exactly if, at some check, `max_heartbeat_misses` checks in a row (it counts them one by one) came without a ping
since the check before. -/
theorem eng_gives_up_iff (max : Nat) (hmax : 0 < max) (evs : List EngEv) (hc : Clock 0 evs) :
    (engRun max evs).stopped = true ↔ ∃ p q, evs = p ++ q ∧ max ≤ misses p :=
  eng_gen max hmax evs {} (0, true) 0 rfl rfl hmax (Nat.le_refl _) (Nat.le_refl _) (by simp) hc

/-- A ping resets the count; then `n` more checks without one count `n - 1` misses, because the first of them does follow a ping. -/
theorem misses_after_ping (evs : List EngEv) (t : Nat) (ts : List Nat) (hne : ts ≠ []) :
    misses (evs ++ [.ping t] ++ ts.map .check) = ts.length - 1 := by
  have gen : ∀ (us : List Nat) (n : Nat), (us.map EngEv.check).foldl missStep (n, false) = (n + us.length, false) := by
    intro us
    induction us with
    | nil => intro n; rfl
    | cons u us ih => intro n; simp [missStep, ih]; omega
  cases ts with
  | nil => exact absurd rfl hne
  | cons u us =>
    unfold misses
    rw [List.foldl_append, List.foldl_append]
    simp [missStep, gen]

/-- C46: an engine with `max_heartbeat_misses = 0` never gives up. -/
theorem eng_disabled (evs : List EngEv) : (engRun 0 evs).stopped = false := by
  unfold engRun
  have : ∀ s : Eng, s.stopped = false → (evs.foldl (engStep 0) s).stopped = false := by
    induction evs with
    | nil => intro s h; exact h
    | cons e evs ih =>
      intro s h
      refine ih _ ?_
      cases e <;> simp [engStep, h]
  exact this {} rfl

/-- max = 2: pings at 1 and 6; the checks at 2, 4 (miss), 7 (ping at 6), 9 (miss), 11 (miss): gives up at 11. -/
example : Clock 0 [.ping 1, .check 2, .check 4, .ping 6, .check 7, .check 9, .check 11] ∧
    (engRun 2 [.ping 1, .check 2, .check 4, .ping 6, .check 7, .check 9]).stopped = false ∧
    (engRun 2 [.ping 1, .check 2, .check 4, .ping 6, .check 7, .check 9, .check 11]).stopped = true := by
  refine ⟨?_, by decide, by decide⟩
  simp [Clock]

end IPP.Heart
