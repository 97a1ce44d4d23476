import Verif.Client.OutputMain
/-!
# Collected output: the caches, and what does not hold (property C60)
-/
namespace IPP.Output
variable {I : Type} [DecidableEq I]

/-! ### the caches -/

theorem keep_resolveOutput {s : St I} {m : I} {r : Nat} (h : s.metadata m = some r ∨ s.metadata m = none) : (resolveOutput s m).metadata m = some r ∨ (resolveOutput s m).metadata m = none := by
  unfold resolveOutput
  split
  · dsimp only
    split
    · exact .inr set_eq
    · exact h
  · exact h

theorem keep_resolveResult {s : St I} {m : I} {r : Nat} (b : Bool) (h : s.metadata m = some r ∨ s.metadata m = none) : (resolveResult s m b).metadata m = some r ∨ (resolveResult s m b).metadata m = none := by
  unfold resolveResult
  split
  · dsimp only
    split
    · exact .inr set_eq
    · exact h
  · exact h

theorem live_table {s : St I} {m : I} {r : Nat} {post : List (Ev I)} (hi : Inv m post s r) (hl : Live s m r) {e : Ev I} (he : ∀ m', e = .send m' → m' ≠ m) :
    (step s e).metadata m = some r ∨ (step s e).metadata m = none := by
  cases ha : about m e with
  | false => exact .inl ((same_step s e ha hi.lt hi.own).table.trans hl.table)
  | true =>
    cases e with
    | send m' => simp only [about, decide_eq_true_eq] at ha; exact absurd ha (he m' rfl)
    | iopub own m' p =>
      simp only [about, Bool.and_eq_true, decide_eq_true_eq] at ha
      rcases ha with ⟨rfl, rfl⟩
      simp only [step, iopub]
      rw [if_neg (by simp)]
      split
      · exact .inl hl.table
      · exact .inl hl.table
      · exact keep_resolveOutput (.inl hl.table)
      · left; simp [touch, hl.table]
    | reply ex m' k =>
      simp only [about, decide_eq_true_eq] at ha
      subst ha
      simp only [step, reply]
      split
      · exact .inl hl.table
      · apply keep_resolveResult
        have h1 : (touch { s with outstanding := set s.outstanding m' false } m').1.metadata m' = some r := by
          simp [touch, hl.table]
        split
        · exact keep_resolveOutput (.inl h1)
        · exact .inl h1
    | popResult m' => simp [about] at ha
    | purge ms =>
      simp only [about, decide_eq_true_eq] at ha
      simp only [step, purge]
      split
      · exact .inl hl.table
      · exact .inr (cleanup_foldl_not_mem ha s).1

/-- **The caches are emptied**: when a request becomes complete the client forgets it, and as long as nothing more arrives for it, it stays forgotten. -/
theorem caches_emptied {m : I} {pre post late : List (Ev I)} {e : Ev I} (h : Story m pre (post ++ [e] ++ late)) (hp : purged m post = false)
    (h0 : outputReady (run (pre ++ .send m :: post)) [m] = false) (h1 : outputReady (run (pre ++ .send m :: (post ++ [e]))) [m] = true)
    (hl : ∀ x ∈ late, about m x = false) :
    let s := run (pre ++ .send m :: (post ++ [e] ++ late))
    s.metadata m = none ∧ s.futures m = false ∧ s.outputFutures m = false := by
  have gen : ∀ late : List (Ev I), Story m pre (post ++ [e] ++ late) → (∀ x ∈ late, about m x = false) → ∃ r, Inv m (post ++ [e] ++ late) (run (pre ++ .send m :: (post ++ [e] ++ late))) r ∧
      Gone (run (pre ++ .send m :: (post ++ [e] ++ late))) m r ∧ (run (pre ++ .send m :: (post ++ [e] ++ late))).metadata m = none := by
    intro late
    induction late using snoc_induction with
    | nil =>
      intro h _
      rw [List.append_nil] at h ⊢
      rcases inv_run post h.prefix with ⟨r, hi, _⟩
      have hi2 := (inv_step hi h.not_send).1
      have hg : Gone (run (pre ++ .send m :: (post ++ [e]))) m r := by
        rw [run_snoc] at h1 ⊢
        exact gone_of_ready hi2 h1
      rw [run_snoc] at hg ⊢
      refine ⟨r, hi2, hg, ?_⟩
      rcases hi.state with ⟨hl, _⟩ | ⟨_, hres, ho⟩
      · rcases live_table hi hl h.not_send with hx | hx
        · exact absurd hx (hg.table m)
        · exact hx
      · rcases ho with ho | ho
        · simp [outputReady, hres, ho] at h0
        · rw [hp] at ho; cases ho
    | snoc late x ih =>
      intro h hl
      rw [← List.append_assoc] at h ⊢
      rcases ih h.prefix (fun y hy => hl y (by simp [hy])) with ⟨r, hi, hg, ht⟩
      have h4 := gone_step hi hg h.not_send
      rw [run_snoc]
      exact ⟨r, h4.1, h4.2.1, (same_step _ x (hl x (by simp)) hi.lt hi.own).table.trans ht⟩
  rcases gen late h hl with ⟨r, _, hg, ht⟩
  exact ⟨ht, hg.fut, hg.out⟩

/-- the event that completes a request also drops its result from the client's cache (the AsyncResult has it) -/
theorem completion_drops_result (s : St I) (e : Ev I) (m : I) (h0 : outputReady s [m] = false) (h1 : outputReady (step s e) [m] = true) : (step s e).results m = false := by
  have key : ∀ (s : St I) (m' : I) (b : Bool), (resolveResult s m' b).resDone m = true → (resolveResult s m' b).outDone m = true → ¬ (s.resDone m = true ∧ s.outDone m = true) → (resolveResult s m' b).results m = false := by
    intro s m' b
    unfold resolveResult
    by_cases hb : b = true ∧ ¬ s.resDone m' = true
    · rw [if_pos hb]
      by_cases ho : s.outDone m' = true
      · simp only [ho, if_true, cleanup, set]
        by_cases e : m = m'
        · simp [e]
        · simp only [e, if_false]; intro a c d; exact absurd ⟨a, c⟩ d
      · simp only [ho, Bool.false_eq_true, if_false, set]
        by_cases e : m = m'
        · subst e; intro _ c; exact absurd c ho
        · simp only [e, if_false]; intro a c d; exact absurd ⟨a, c⟩ d
    · rw [if_neg hb]; intro a c d; exact absurd ⟨a, c⟩ d
  have key2 : ∀ (s : St I) (m' : I), (resolveOutput s m').resDone m = true → (resolveOutput s m').outDone m = true → ¬ (s.resDone m = true ∧ s.outDone m = true) → (resolveOutput s m').results m = false := by
    intro s m'
    unfold resolveOutput
    by_cases hb : s.outputFutures m' = true ∧ ¬ s.outDone m' = true
    · rw [if_pos hb]
      by_cases ho : s.resDone m' = true
      · simp only [ho, if_true, cleanup, set]
        by_cases e : m = m'
        · simp [e]
        · simp only [e, if_false]; intro a c d; exact absurd ⟨a, c⟩ d
      · simp only [ho, Bool.false_eq_true, if_false, set]
        by_cases e : m = m'
        · subst e; intro a; exact absurd a ho
        · simp only [e, if_false]; intro a c d; exact absurd ⟨a, c⟩ d
    · rw [if_neg hb]; intro a c d; exact absurd ⟨a, c⟩ d
  have key3 : ∀ (s : St I) (m' : I) (b : Bool), s.results m = false → (resolveResult s m' b).results m = false := by
    intro s m' b h
    unfold resolveResult
    by_cases hb : b = true ∧ ¬ s.resDone m' = true
    · rw [if_pos hb]
      by_cases ho : s.outDone m' = true
      · simp only [ho, if_true, cleanup, set]
        by_cases e : m = m'
        · simp [e]
        · simp only [e, if_false]; exact h
      · simp only [ho, Bool.false_eq_true, if_false]; exact h
    · rw [if_neg hb]; exact h
  have ht : ∀ (s : St I) (m' : I), (touch s m').1.resDone = s.resDone ∧ (touch s m').1.outDone = s.outDone := by
    intro s m'
    unfold touch
    cases s.metadata m' <;> exact ⟨rfl, rfl⟩
  have n0 : ¬ (s.resDone m = true ∧ s.outDone m = true) := by
    simpa [outputReady] using h0
  have n1 : (step s e).resDone m = true ∧ (step s e).outDone m = true := by
    simpa [outputReady] using h1
  clear h0 h1
  cases e with
  | send m' =>
    exfalso
    have e2 : (step s (.send m')).resDone = s.resDone ∧ (step s (.send m')).outDone = s.outDone := ht _ m'
    rw [e2.1, e2.2] at n1
    exact n0 n1
  | popResult m' => exact absurd n1 n0
  | purge ms =>
    exfalso
    revert n1
    simp only [step, purge]
    by_cases hm : ms.any s.outstanding = true
    · rw [if_pos hm]; exact n0
    · rw [if_neg hm]
      obtain ⟨-, -, -, -, -, h6, h7, -⟩ := foldl_cleanup_fixed ms s
      rw [h6, h7]; exact n0
  | iopub own m' p =>
    revert n1
    simp only [step, iopub]
    by_cases ho : own = false
    · rw [if_pos ho]; intro h; exact absurd h n0
    · rw [if_neg ho]
      split
      · intro h; exact absurd h n0
      · intro h; exact absurd h n0
      · intro h; exact key2 _ _ h.1 h.2 n0
      · intro h
        have e2 := ht s m'
        exact absurd (by rw [← e2.1, ← e2.2]; exact h) n0
  | reply x m' k =>
    revert n1
    simp only [step, reply]
    by_cases hc : x = false ∧ s.outstanding m' = false ∧ s.history m' = true ∧ s.results m' = false
    · rw [if_pos hc]; intro h; exact absurd h n0
    · rw [if_neg hc]
      have e2 := ht { s with outstanding := set s.outstanding m' false } m'
      generalize (touch { s with outstanding := set s.outstanding m' false } m').1 = s1 at e2
      have n2 : ¬ (({ s1 with results := set s1.results m' true } : St I).resDone m = true ∧ ({ s1 with results := set s1.results m' true } : St I).outDone m = true) := by
        show ¬ (s1.resDone m = true ∧ s1.outDone m = true)
        rw [e2.1, e2.2]; exact n0
      generalize ({ s1 with results := set s1.results m' true } : St I) = s2 at n2
      intro h
      by_cases hk : k.noOutput = true
      · simp only [hk, if_true] at h ⊢
        by_cases hd : (resolveOutput s2 m').resDone m = true ∧ (resolveOutput s2 m').outDone m = true
        · exact key3 _ _ _ (key2 _ _ hd.1 hd.2 n2)
        · exact key _ _ _ h.1 h.2 hd
      · simp only [hk, Bool.false_eq_true, if_false] at h ⊢
        exact key _ _ _ h.1 h.2 n2

/-- `purge_local_results` of requests that are not outstanding forgets their results, and nothing of other requests -/
theorem purge_forgets (s : St I) (ms : List I) (h : ∀ m ∈ ms, s.outstanding m = false) :
    (∀ m ∈ ms, (step s (.purge ms)).results m = false ∧ (step s (.purge ms)).metadata m = none) ∧
    ∀ m, m ∉ ms → (step s (.purge ms)).results m = s.results m ∧ (step s (.purge ms)).metadata m = s.metadata m := by
  have hn : ¬ ms.any s.outstanding = true := by
    rw [List.any_eq_true]
    rintro ⟨m, hm, ho⟩
    rw [h m hm] at ho; cases ho
  have gen : ∀ (ms : List I) (s : St I) (m : I), ((ms.foldl cleanup s).results m = if m ∈ ms then false else s.results m) ∧ ((ms.foldl cleanup s).metadata m = if m ∈ ms then none else s.metadata m) := by
    intro ms
    induction ms with
    | nil => intro s m; simp
    | cons a ms ih =>
      intro s m
      rw [List.foldl_cons]
      obtain ⟨i1, i2⟩ := ih (cleanup s a) m
      rw [i1, i2]
      by_cases hm : m ∈ ms
      · simp [hm]
      · by_cases ha : m = a
        · subst ha; simp [hm, cleanup, set]
        · simp [hm, ha, cleanup, set]
  simp only [step, purge]
  rw [if_neg hn]
  refine ⟨fun m hm => ?_, fun m hm => ?_⟩
  · obtain ⟨g1, g2⟩ := gen ms s m
    rw [g1, g2]; simp [hm]
  · obtain ⟨g1, g2⟩ := gen ms s m
    rw [g1, g2]; simp [hm]

/-! ### the theorems are about something -/

/-- two requests whose messages are interleaved, a message of another session, and a request that is complete before its idle message -/
def exEvs : List (Ev Nat) :=
  [.send 1, .send 2, .iopub true 1 (.status false), .iopub true 1 (.stream false "a".toList), .iopub true 2 (.stream false "x\n".toList),
   .iopub false 1 (.stream false "foreign".toList), .iopub true 1 (.display 7), .iopub true 1 (.stream true "w".toList), .reply false 1 .ok,
   .iopub true 1 (.stream false "b\n".toList), .iopub true 1 (.status true), .reply true 2 .engineError, .iopub true 2 (.status true)]

example : arStdout (run exEvs) [2, 1] = ["x\n".toList, "ab\n".toList] ∧ outputReady (run exEvs) [2, 1] = true := by decide
example : (shown (run exEvs) 1).outputs = [7] ∧ (shown (run exEvs) 1).stderr = "w".toList := by decide

/-- the hypotheses of `output_shown_partial`, `wait_for_output_done_partial` are met by it -/
example : ∃ pre post, exEvs = pre ++ .send 2 :: post ∧ Story 2 pre post ∧ purged 2 post = false ∧ (replies 2 post).length ≤ 1 ∧ complete 2 post = true ∧
    (∀ a p b, post = a ++ .iopub true 2 p :: b → complete 2 a = false) := by
  refine ⟨[.send 1], exEvs.drop 2, rfl, ⟨by decide, by decide⟩, by decide, by decide, by decide, ?_⟩
  intro a p b h
  have hlen : a.length < (exEvs.drop 2).length := by rw [h]; simp
  have ha : a = (exEvs.drop 2).take a.length := by rw [h]; simp
  have key : ∀ n : Nat, n < 11 → (∃ q, (exEvs.drop 2)[n]? = some (Ev.iopub true 2 q)) → complete 2 ((exEvs.drop 2).take n) = false := by
    intro n hn
    rcases n with _ | _ | _ | _ | _ | _ | _ | _ | _ | _ | _ | n
    · intro _; decide
    · intro _; decide
    · intro _; decide
    · intro _; decide
    · intro _; decide
    · intro _; decide
    · intro _; decide
    · intro _; decide
    · intro _; decide
    · intro _; decide
    · intro _; decide
    · omega
  rw [ha]
  refine key a.length hlen ⟨p, ?_⟩
  rw [h]
  simp

/-- the caches: the last event completes request 2 -/
example : (run exEvs).metadata 1 = none ∧ (run exEvs).metadata 2 = none ∧ (run (exEvs.take 12)).metadata 2 ≠ none := by decide

/-! ### what does not hold -/

/-- **Violated: collapsing does not depend on how the text is cut.** A progress line that ends with a carriage return in one message and is overwritten in the next is kept, because only a message that itself contains a carriage return triggers the collapse. -/
theorem chunk_boundary_violated :
    let whole : List (Ev Nat) := [.send 1, .iopub true 1 (.stream false "50%\rdone\n".toList)]
    let cut : List (Ev Nat) := [.send 1, .iopub true 1 (.stream false "50%\r".toList), .iopub true 1 (.stream false "done\n".toList)]
    (shown (run whole) 1).stdout = "done\n".toList ∧ (shown (run cut) 1).stdout = "50%\rdone\n".toList := by
  constructor
  · have h : (shown (run [Ev.send 1, Ev.iopub true 1 (.stream false "50%\rdone\n".toList)]) 1).stdout = addText [] "50%\rdone\n".toList := rfl
    rw [h, addText, if_pos (by decide)]
    have h2 : ([] : Text) ++ "50%\rdone\n".toList = "50%".toList ++ '\r' :: 'd' :: "one\n".toList := by decide
    rw [h2, Cr.sub_cr _ _ _ (by decide) (by decide)]
    exact Cr.sub_plain _ (by decide)
  · have h : (shown (run [Ev.send 1, Ev.iopub true 1 (.stream false "50%\r".toList), Ev.iopub true 1 (.stream false "done\n".toList)]) 1).stdout = addText (addText [] "50%\r".toList) "done\n".toList := rfl
    rw [h, addText, if_neg (by decide), addText, if_pos (by decide)]
    have h2 : Cr.sub ([] ++ "50%\r".toList) = "50%\r".toList := Cr.sub_last _ (by decide) (by decide)
    rw [h2]
    decide

/-- **Violated: the output of a task that is retried.** Every attempt ends with an idle message under the same id (`TaskScheduler.handle_result` sends the same request again): the one of the failed attempt resolves the output future, so `wait_for_output` returns with the reply, before the output of the last attempt, and that output is lost. -/
theorem retry_output_violated :
    let seen : List (Ev Nat) := [.send 1, .iopub true 1 (.stream false "try 1\n".toList), .iopub true 1 (.status true), .reply false 1 .ok]
    let late : List (Ev Nat) := [.iopub true 1 (.stream false "try 2\n".toList), .iopub true 1 (.status true)]
    outputReady (run seen) [1] = true ∧ (shown (run (seen ++ late)) 1).stdout = "try 1\n".toList := by decide

/-- **Violated: late output is dropped without a trace.** It goes to a new entry of the client's table that nobody reads and nobody removes. -/
theorem late_output_leak_violated :
    let evs : List (Ev Nat) := [.send 1, .iopub true 1 (.status true), .reply false 1 .ok, .iopub true 1 (.stream false "late".toList)]
    (run (evs.take 3)).metadata 1 = none ∧ (run evs).metadata 1 ≠ none ∧ (shown (run evs) 1).stdout = [] := by decide

/-- **Violated: a result implies that waiting for output ends.** If an engine dies after its reply and before its idle message, or the message is lost (PUB sockets drop), no event but a message for this very request ever ends `wait_for_output()`: not the unregistration of the engine, because the result is there. -/
theorem lost_idle_violated {m : I} {pre post : List (Ev I)} (h : Story m pre post) (hi : idle m post = false) (hr : (replies m post).any silentReply = false) :
    outputReady (run (pre ++ .send m :: post)) [m] = false := by
  cases hx : outputReady (run (pre ++ .send m :: post)) [m] with
  | false => rfl
  | true =>
    have := wait_for_output_sound h hx
    simp [complete, hi, hr] at this

/-- the hypotheses are met by a request that has been answered -/
example : Story 1 [] [Ev.reply false 1 .ok] ∧ idle 1 [Ev.reply false 1 .ok] = false ∧ (run [Ev.send 1, .reply false 1 .ok]).resDone 1 = true :=
  ⟨⟨by simp, by decide⟩, by decide, by decide⟩

/-- **Violated: output of a coalescing broadcast.** The engines run the request under ids of their own (`{id}_{engine}`, broadcast_scheduler.py:30-58; the ids of the parent headers of their output), and the client of a coalescing broadcast only waits for the original id (view.py:958-962): for every history in which output comes from the engines, none of it is shown and waiting for it never ends. -/
theorem coalescing_output_violated {m : I} {pre post : List (Ev I)} (h : Story m pre post) (hp : purged m post = false)
    (hids : ∀ m' p, Ev.iopub true m' p ∈ post → m' ≠ m) (hr : (replies m post).any silentReply = false) :
    shown (run (pre ++ .send m :: post)) m = {} ∧ outputReady (run (pre ++ .send m :: post)) [m] = false := by
  have hpub : pubs m post = [] := by
    simp only [pubs, List.filterMap_eq_nil_iff]
    intro e he
    cases e with
    | iopub own m' p =>
      cases own with
      | false => rfl
      | true => simp [hids m' p he]
    | _ => rfl
  constructor
  · rw [output_shown_partial h hp, hpub]
    · rfl
    · intro a p b he
      exact absurd rfl (hids m p (by rw [he]; simp))
  · exact lost_idle_violated h (by simp [idle, hpub]) hr

/-- a coalescing broadcast to engines 1 and 2: ids are pairs of the request and the engine -/
example : let evs : List (Ev (Nat × Option Nat)) := [.send (5, none), .iopub true (5, some 1) (.stream false "hi".toList), .iopub true (5, some 1) (.status true),
      .iopub true (5, some 2) (.stream false "hi".toList), .iopub true (5, some 2) (.status true), .reply false (5, none) .ok]
    (run evs).resDone (5, none) = true ∧ outputReady (run evs) [(5, none)] = false ∧ (shown (run evs) (5, none)).stdout = [] ∧
    -- and an entry is left behind for each engine that wrote something
    (run evs).metadata (5, some 1) ≠ none ∧ (run evs).metadata (5, some 2) ≠ none := by decide

/-- **Violated: purging a result that has arrived does not disturb waiting for its output.** `purge_local_results` drops the output future of a request that has its reply and not yet its idle message: `wait_for_output` of the `AsyncResult` then waits for ever, and the rest of the output is lost. -/
theorem purge_output_violated :
    let evs : List (Ev Nat) := [.send 1, .reply false 1 .ok, .purge [1], .iopub true 1 (.stream false "out".toList), .iopub true 1 (.status true)]
    (run evs).resDone 1 = true ∧ outputReady (run evs) [1] = false ∧ (shown (run evs) 1).stdout = [] := by decide

end IPP.Output
