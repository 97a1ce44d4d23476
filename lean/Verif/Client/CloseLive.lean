import Verif.Client.CloseProps
/-!
# C87: `close()` returns
-/
namespace IPP.ClientClose

/-- the client after the first `n` events of an endless schedule -/
def St.at (σ : Nat → Ev) : Nat → St
  | 0 => {}
  | n + 1 => step (St.at σ n) (σ n)

/-- a fair schedule: a thread that is inside a call goes on at some time; and while the IO thread is alive its loop goes on at some time at which the IO thread is not inside a call -/
structure Fair (σ : Nat → Ev) : Prop where
  threads : ∀ t n, (St.at σ n).pc t ≠ .idle → ∃ k, n ≤ k ∧ σ k = .step t
  loop : ∀ n, ∃ k, n ≤ k ∧ ((St.at σ k).ended = true ∨ (σ k = .loop ∧ (St.at σ k).pc .io = .idle))

theorem pc_stays (s : St) (t : Thread) (e : Ev) (hp : s.pc t ≠ .idle) (he : e ≠ .step t) : (step s e).pc t = s.pc t := by
  cases e with
  | request u m =>
    simp only [step]
    split
    · rfl
    · rename_i hu
      split
      · rfl
      · have : t ≠ u := fun hx => hp (by rw [hx]; exact Classical.byContradiction fun h => hu (.inl h))
        simp [St.goto, this]
  | close u =>
    simp only [step]
    split
    · rfl
    · rename_i hu
      split
      · rfl
      · have : t ≠ u := fun hx => hp (by rw [hx]; exact Classical.byContradiction fun h => hu (.inl h))
        simp [St.goto, this]
  | step u =>
    have hu : t ≠ u := fun hx => he (by rw [hx])
    simp only [step, advance]
    split <;> first | rfl | simp [St.goto, hu]
    split <;> simp [hu]
  | loop =>
    simp only [step, loopStep]
    split
    · rfl
    · split
      · rename_i c l _; cases c with
        | send m => simp only [callback]; split <;> rfl
        | stop => rfl
      · split <;> rfl
  | reply m => simp only [step]; split <;> rfl

/-- a thread inside a call goes on -/
theorem next_step {σ : Nat → Ev} (hf : Fair σ) (t : Thread) (p : Pc) (hp : p ≠ .idle) (n : Nat) (hn : (St.at σ n).pc t = p) : ∃ k, n ≤ k ∧ (St.at σ k).pc t = p ∧ σ k = .step t := by
  have key : ∀ d n, (St.at σ n).pc t = p → σ (n + d) = .step t → ∃ k, n ≤ k ∧ (St.at σ k).pc t = p ∧ σ k = .step t := by
    intro d
    induction d with
    | zero => exact fun n hn he => ⟨n, Nat.le_refl _, hn, he⟩
    | succ d ih =>
      intro n hn he
      by_cases hs : σ n = .step t
      · exact ⟨n, Nat.le_refl _, hn, hs⟩
      · have h1 : (St.at σ (n + 1)).pc t = p := by
          show (step _ _).pc t = p
          rw [pc_stays _ t _ (by rw [hn]; exact hp) hs, hn]
        rcases ih (n + 1) h1 (by rw [← he]; congr 1; omega) with ⟨k, hk, h⟩
        exact ⟨k, by omega, h⟩
  rcases hf.threads t n (by rw [hn]; exact hp) with ⟨k, hk, he⟩
  exact key (k - n) n hn (by rw [← he]; congr 1; omega)

/-- an event that is not an effective step of the loop -/
theorem other_event (s : St) (e : Ev) (h : ¬ (e = .loop ∧ s.pc .io = .idle ∧ s.ended = false)) : (step s e).batch = s.batch ∧ (step s e).flag = s.flag ∧ (step s e).ended = s.ended ∧ ∀ c ∈ s.queue, c ∈ (step s e).queue := by
  cases e with
  | request u m => simp only [step]; split; · simp
                   · split <;> simp [St.goto]
  | close u => simp only [step]; split; · simp
               · split <;> simp [St.goto]
  | step u =>
    have hq : ∀ c, ∀ x ∈ s.queue, x ∈ (s.add c).queue := by
      intro c x hx; rw [add_queue]; split
      · exact hx
      · exact List.mem_append_left _ hx
    simp only [step, advance]
    split
    · simp
    · refine ⟨by simp [St.goto], by simp [St.goto], by simp [St.goto], hq _⟩
    · refine ⟨by simp [St.goto], by simp [St.goto], by simp [St.goto], hq _⟩
    · split <;> simp [St.goto]
    · simp [St.goto]
    · simp [St.goto]
  | loop =>
    simp only [step, loopStep]
    rw [if_pos]
    · simp
    · by_cases h1 : s.pc .io = .idle
      · right
        cases h2 : s.ended with
        | true => rfl
        | false => exact absurd ⟨rfl, h1, h2⟩ h
      · exact .inl h1
  | reply m => simp only [step]; split <;> simp

/-- the loop goes on -/
theorem next_loop {σ : Nat → Ev} (hf : Fair σ) (n : Nat) (hn : (St.at σ n).ended = false) :
    ∃ k, n ≤ k ∧ σ k = .loop ∧ (St.at σ k).pc .io = .idle ∧ (St.at σ k).ended = false ∧ (St.at σ k).batch = (St.at σ n).batch ∧ (St.at σ k).flag = (St.at σ n).flag ∧ ∀ c ∈ (St.at σ n).queue, c ∈ (St.at σ k).queue := by
  have key : ∀ d n, (St.at σ n).ended = false → ((St.at σ (n + d)).ended = true ∨ (σ (n + d) = .loop ∧ (St.at σ (n + d)).pc .io = .idle)) →
      ∃ k, n ≤ k ∧ σ k = .loop ∧ (St.at σ k).pc .io = .idle ∧ (St.at σ k).ended = false ∧ (St.at σ k).batch = (St.at σ n).batch ∧ (St.at σ k).flag = (St.at σ n).flag ∧ ∀ c ∈ (St.at σ n).queue, c ∈ (St.at σ k).queue := by
    intro d
    induction d with
    | zero =>
      intro n hn he
      rcases he with he | he
      · rw [Nat.add_zero, hn] at he; cases he
      · exact ⟨n, Nat.le_refl _, he.1, he.2, hn, rfl, rfl, fun _ h => h⟩
    | succ d ih =>
      intro n hn he
      by_cases hs : σ n = .loop ∧ (St.at σ n).pc .io = .idle ∧ (St.at σ n).ended = false
      · exact ⟨n, Nat.le_refl _, hs.1, hs.2.1, hn, rfl, rfl, fun _ h => h⟩
      · have ho := other_event _ _ hs
        have e1 : n + 1 + d = n + (d + 1) := by omega
        rcases ih (n + 1) (by show (step _ _).ended = false; rw [ho.2.2.1, hn]) (by rw [e1]; exact he) with ⟨k, hk, h1, h2, h3, h4, h5, h6⟩
        refine ⟨k, by omega, h1, h2, h3, ?_, ?_, ?_⟩
        · rw [h4]; exact ho.1
        · rw [h5]; exact ho.2.1
        · exact fun c hc => h6 c (ho.2.2.2 c hc)
  rcases hf.loop n with ⟨k, hk, he⟩
  have e1 : n + (k - n) = k := by omega
  exact key (k - n) n hn (by rw [e1]; exact he)

/-- `loop.stop()` has been called: the loop ends -/
theorem ends_flag {σ : Nat → Ev} (hf : Fair σ) : ∀ b n, (St.at σ n).flag = true → (St.at σ n).batch.length = b → ∃ k, n ≤ k ∧ (St.at σ k).ended = true := by
  intro b
  induction b with
  | zero =>
    intro n h1 h2
    cases hn : (St.at σ n).ended with
    | true => exact ⟨n, Nat.le_refl _, hn⟩
    | false =>
      rcases next_loop hf n hn with ⟨k, hk, e1, e2, e3, e4, e5, _⟩
      refine ⟨k + 1, by omega, ?_⟩
      have hb : (St.at σ k).batch = [] := by rw [e4]; exact List.eq_nil_of_length_eq_zero h2
      show (step _ _).ended = true
      rw [e1]
      simp [step, loopStep, e2, e3, hb, e5, h1]
  | succ b ih =>
    intro n h1 h2
    cases hn : (St.at σ n).ended with
    | true => exact ⟨n, Nat.le_refl _, hn⟩
    | false =>
      rcases next_loop hf n hn with ⟨k, hk, e1, e2, e3, e4, e5, _⟩
      have hb : ∃ c l, (St.at σ k).batch = c :: l ∧ l.length = b := by
        rw [e4]
        cases hx : (St.at σ n).batch with
        | nil => rw [hx] at h2; cases h2
        | cons c l => rw [hx] at h2; exact ⟨c, l, rfl, by simpa using h2⟩
      rcases hb with ⟨c, l, hb, hl⟩
      have e : (St.at σ (k + 1)).flag = true ∧ (St.at σ (k + 1)).batch.length = b := by
        show (step _ _).flag = true ∧ (step _ _).batch.length = b
        rw [e1]
        simp only [step, loopStep, e2, e3, hb]
        rw [h1] at e5
        cases c with
        | send m => simp only [callback]; simp only [ne_eq, not_true, false_or, Bool.false_eq_true, if_false]; split <;> exact ⟨e5, hl⟩
        | stop => simp [callback, hl]
      rcases ih (k + 1) e.1 e.2 with ⟨j, hj, h⟩
      exact ⟨j, by omega, h⟩

/-- `loop.stop` is in the batch: the loop ends -/
theorem ends_batch {σ : Nat → Ev} (hf : Fair σ) : ∀ b n, Cb.stop ∈ (St.at σ n).batch → (St.at σ n).batch.length = b → ∃ k, n ≤ k ∧ (St.at σ k).ended = true := by
  intro b
  induction b with
  | zero => intro n h1 h2; rw [List.eq_nil_of_length_eq_zero h2] at h1; cases h1
  | succ b ih =>
    intro n h1 h2
    cases hn : (St.at σ n).ended with
    | true => exact ⟨n, Nat.le_refl _, hn⟩
    | false =>
      rcases next_loop hf n hn with ⟨k, hk, e1, e2, e3, e4, e5, _⟩
      have hb : ∃ c l, (St.at σ k).batch = c :: l ∧ l.length = b := by
        rw [e4]
        cases hx : (St.at σ n).batch with
        | nil => rw [hx] at h2; cases h2
        | cons c l => rw [hx] at h2; exact ⟨c, l, rfl, by simpa using h2⟩
      rcases hb with ⟨c, l, hb, hl⟩
      rw [← e4, hb] at h1
      cases c with
      | stop =>
        have e : (St.at σ (k + 1)).flag = true := by
          show (step _ _).flag = true
          rw [e1]
          simp [step, loopStep, e2, e3, hb, callback]
        rcases ends_flag hf _ (k + 1) e rfl with ⟨j, hj, h⟩
        exact ⟨j, by omega, h⟩
      | send m =>
        have hs : Cb.stop ∈ l := by
          rcases List.mem_cons.1 h1 with h | h
          · cases h
          · exact h
        have e : (St.at σ (k + 1)).batch = l := by
          show (step _ _).batch = l
          rw [e1]
          simp only [step, loopStep, e2, e3, hb, callback]
          simp only [ne_eq, not_true, false_or, Bool.false_eq_true, if_false]
          split <;> rfl
        rcases ih (k + 1) (by rw [e]; exact hs) (by rw [e]; exact hl) with ⟨j, hj, h⟩
        exact ⟨j, by omega, h⟩

/-- `loop.stop` is in the queue: the loop ends -/
theorem ends_queue {σ : Nat → Ev} (hf : Fair σ) : ∀ b n, Cb.stop ∈ (St.at σ n).queue → (St.at σ n).batch.length = b → ∃ k, n ≤ k ∧ (St.at σ k).ended = true := by
  intro b
  induction b with
  | zero =>
    intro n h1 h2
    cases hn : (St.at σ n).ended with
    | true => exact ⟨n, Nat.le_refl _, hn⟩
    | false =>
      rcases next_loop hf n hn with ⟨k, hk, e1, e2, e3, e4, e5, e6⟩
      have hb : (St.at σ k).batch = [] := by rw [e4]; exact List.eq_nil_of_length_eq_zero h2
      cases hfl : (St.at σ k).flag with
      | true =>
        refine ⟨k + 1, by omega, ?_⟩
        show (step _ _).ended = true
        rw [e1]
        simp [step, loopStep, e2, e3, hb, hfl]
      | false =>
        have e : (St.at σ (k + 1)).batch = (St.at σ k).queue := by
          show (step _ _).batch = _
          rw [e1]
          simp [step, loopStep, e2, e3, hb, hfl]
        rcases ends_batch hf _ (k + 1) (by rw [e]; exact e6 _ h1) rfl with ⟨j, hj, h⟩
        exact ⟨j, by omega, h⟩
  | succ b ih =>
    intro n h1 h2
    cases hn : (St.at σ n).ended with
    | true => exact ⟨n, Nat.le_refl _, hn⟩
    | false =>
      rcases next_loop hf n hn with ⟨k, hk, e1, e2, e3, e4, e5, e6⟩
      have hb : ∃ c l, (St.at σ k).batch = c :: l ∧ l.length = b := by
        rw [e4]
        cases hx : (St.at σ n).batch with
        | nil => rw [hx] at h2; cases h2
        | cons c l => rw [hx] at h2; exact ⟨c, l, rfl, by simpa using h2⟩
      rcases hb with ⟨c, l, hb, hl⟩
      have e : (St.at σ (k + 1)).batch = l ∧ (St.at σ (k + 1)).queue = (St.at σ k).queue := by
        show (step _ _).batch = l ∧ (step _ _).queue = _
        rw [e1]
        simp only [step, loopStep, e2, e3, hb]
        simp only [ne_eq, not_true, false_or, Bool.false_eq_true, if_false]
        cases c with
        | send m => simp only [callback]; split <;> exact ⟨rfl, rfl⟩
        | stop => exact ⟨rfl, rfl⟩
      rcases ih (k + 1) (by rw [e.2]; exact e6 _ h1) (by rw [e.1]; exact hl) with ⟨j, hj, h⟩
      exact ⟨j, by omega, h⟩

theorem ended_mono (σ : Nat → Ev) (n : Nat) (h : (St.at σ n).ended = true) : ∀ d, (St.at σ (n + d)).ended = true
  | 0 => h
  | d + 1 => by
    have ih := ended_mono σ n h d
    show (step (St.at σ (n + d)) (σ (n + d))).ended = true
    rw [(other_event _ _ (fun hx => by rw [hx.2.2] at ih; cases ih)).2.2.1]
    exact ih

/-- after `_stop_io_thread` two more steps -/
theorem finish {σ : Nat → Ev} (hf : Fair σ) (t : Thread) (n : Nat) (hn : (St.at σ n).pc t = .joined) : ∃ k, n < k ∧ (St.at σ k).pc t = .idle ∧ (St.at σ k).closed = true ∧ t ∈ (St.at σ k).returned := by
  rcases next_step hf t .joined (by simp) n hn with ⟨k, hk, h1, h2⟩
  have e1 : (St.at σ (k + 1)).pc t = .socketsClosed := by
    show (step _ _).pc t = _
    rw [h2]; simp [step, advance, h1, St.goto]
  rcases next_step hf t .socketsClosed (by simp) (k + 1) e1 with ⟨j, hj, h3, h4⟩
  refine ⟨j + 1, by omega, ?_, ?_, ?_⟩
  · show (step _ _).pc t = _
    rw [h4]; simp [step, advance, h3, St.goto]
  · show (step _ _).closed = _
    rw [h4]; simp [step, advance, h3]
  · show t ∈ (step _ _).returned
    rw [h4]; simp [step, advance, h3]

/-- **C87 (close returns)** Every call of `close()`, in any thread, the IO thread included, returns, whatever the other threads do — requests and other calls of `close()` without end — in every fair schedule. -/
theorem close_returns {σ : Nat → Ev} (hf : Fair σ) (t : Thread) (n : Nat) (hn : (St.at σ n).pc t = .idle) (he : t = .io → (St.at σ n).ended = false) (hc : σ n = .close t) :
    ∃ k, n < k ∧ (St.at σ k).pc t = .idle ∧ (St.at σ k).closed = true ∧ t ∈ (St.at σ k).returned := by
  have hg : ¬ ((St.at σ n).pc t ≠ .idle ∨ (t = .io ∧ (St.at σ n).ended = true)) := by
    intro hx
    rcases hx with hx | ⟨h1, h2⟩
    · exact hx hn
    · rw [he h1] at h2; cases h2
  cases hcl : (St.at σ n).closed with
  | true =>
    refine ⟨n + 1, Nat.lt_succ_self _, ?_⟩
    show (step _ _).pc t = _ ∧ (step _ _).closed = _ ∧ t ∈ (step _ _).returned
    rw [hc]
    simp only [step]
    rw [if_neg hg]
    simp [hcl, hn]
  | false =>
    have e1 : (St.at σ (n + 1)).pc t = .closing := by
      show (step _ _).pc t = _
      rw [hc]
      simp only [step]
      rw [if_neg hg]
      simp [hcl, St.goto]
    rcases next_step hf t .closing (by simp) (n + 1) e1 with ⟨k, hk, h1, h2⟩
    by_cases hio : t = .io
    · subst hio
      have e2 : (St.at σ (k + 1)).pc .io = .joined := by
        show (step _ _).pc _ = _
        rw [h2]; simp [step, advance, h1, St.goto]
      rcases finish hf _ (k + 1) e2 with ⟨j, hj, h⟩
      exact ⟨j, by omega, h⟩
    · have e2 : (St.at σ (k + 1)).pc t = .joining := by
        show (step _ _).pc t = _
        rw [h2]; simp [step, advance, h1, St.goto, hio]
      have e3 : (St.at σ (k + 1)).ended = true ∨ Cb.stop ∈ (St.at σ (k + 1)).queue := by
        show (step _ _).ended = true ∨ Cb.stop ∈ (step _ _).queue
        rw [h2]
        simp only [step, advance, h1, St.goto, add_fields, add_queue]
        cases (St.at σ k).ended with
        | true => exact .inl rfl
        | false => right; simp
      have e4 : ∃ j, k + 1 ≤ j ∧ (St.at σ j).ended = true := by
        rcases e3 with h | h
        · exact ⟨k + 1, Nat.le_refl _, h⟩
        · exact ends_queue hf _ (k + 1) h rfl
      rcases e4 with ⟨j, hj, hend⟩
      -- the thread is still waiting, or has gone on already
      have stay : ∀ d i, (St.at σ i).pc t = .joining → ((St.at σ (i + d)).pc t = .joining ∨ ∃ q, i ≤ q ∧ (St.at σ q).pc t = .joined) := by
        intro d
        induction d with
        | zero => exact fun i hi => .inl hi
        | succ d ih =>
          intro i hi
          rcases ih i hi with h | h
          · by_cases hs : σ (i + d) = .step t
            · cases hx : (St.at σ (i + d)).ended with
              | true =>
                refine .inr ⟨i + d + 1, by omega, ?_⟩
                show (step (St.at σ (i + d)) (σ (i + d))).pc t = _
                rw [hs]; simp [step, advance, h, hx, St.goto]
              | false =>
                left
                show (step (St.at σ (i + d)) (σ (i + d))).pc t = _
                rw [hs]; simp [step, advance, h, hx]
            · left
              show (step (St.at σ (i + d)) (σ (i + d))).pc t = _
              rw [pc_stays _ t _ (by rw [h]; simp) hs, h]
          · exact .inr h
      rcases stay (j - (k + 1)) (k + 1) e2 with h | ⟨q, hq, h⟩
      · have ej : k + 1 + (j - (k + 1)) = j := by omega
        rw [ej] at h
        rcases next_step hf t .joining (by simp) j h with ⟨i, hi, h3, h4⟩
        have hendi : (St.at σ i).ended = true := by
          have := ended_mono σ j hend (i - j)
          have ei : j + (i - j) = i := by omega
          rwa [ei] at this
        have e5 : (St.at σ (i + 1)).pc t = .joined := by
          show (step _ _).pc t = _
          rw [h4]; simp [step, advance, h3, hendi, St.goto]
        rcases finish hf t (i + 1) e5 with ⟨r, hr, hh⟩
        exact ⟨r, by omega, hh⟩
      · rcases finish hf t q h with ⟨r, hr, hh⟩
        exact ⟨r, by omega, hh⟩

/-- a schedule: a call of `close()` in a thread, then the thread and the loop in turn -/
def exSched (n : Nat) : Ev := if n = 0 then .close (.app 0) else if n % 2 = 1 then .step (.app 0) else .loop

/-- a thread is not inside a call unless it has made one -/
theorem idle_stays (s : St) (u : Thread) (e : Ev) (hu : s.pc u = .idle) (h1 : ∀ m, e ≠ .request u m) (h2 : e ≠ .close u) : (step s e).pc u = .idle := by
  cases e with
  | request t m =>
    have ht : u ≠ t := fun hx => h1 m (by rw [hx])
    simp only [step]; split; · exact hu
    · split <;> simp [St.goto, ht, hu]
  | close t =>
    have ht : u ≠ t := fun hx => h2 (by rw [hx])
    simp only [step]; split; · exact hu
    · split <;> simp [St.goto, ht, hu]
  | step t =>
    simp only [step, advance]
    by_cases ht : u = t
    · subst ht; simp [hu]
    · split <;> first | exact hu | simp [St.goto, ht, hu]
      split <;> simp [ht, hu]
  | loop =>
    simp only [step, loopStep]
    split
    · exact hu
    · split
      · rename_i c l _
        cases c with
        | send m => simp only [callback]; split <;> exact hu
        | stop => exact hu
      · split <;> exact hu
  | reply m => simp only [step]; split <;> exact hu

theorem exSched_idle : ∀ n u, u ≠ .app 0 → (St.at exSched n).pc u = .idle
  | 0, _, _ => rfl
  | n + 1, u, hu => by
    refine idle_stays _ u _ (exSched_idle n u hu) ?_ ?_
    · intro m; unfold exSched; split <;> simp; split <;> simp
    · unfold exSched; split
      · simp [Ne.symm hu]
      · split <;> simp

/-- the schedule is fair -/
theorem exSched_fair : Fair exSched := by
  constructor
  · intro t n ht
    have : t = .app 0 := Classical.byContradiction fun h => ht (exSched_idle n t h)
    subst this
    exact ⟨2 * n + 1, by omega, by simp [exSched]⟩
  · intro n
    exact ⟨2 * n + 2, by omega, .inr ⟨by simp [exSched], exSched_idle _ _ (by simp)⟩⟩

example : ∃ k, 0 < k ∧ (St.at exSched k).closed = true :=
  let ⟨k, h, _, hc, _⟩ := close_returns exSched_fair (.app 0) 0 rfl (fun h => by cases h) rfl
  ⟨k, h, hc⟩

end IPP.ClientClose
