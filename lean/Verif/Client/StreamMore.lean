import Verif.Client.StreamProps
/-!
# C76: the terminal, notebooks, and what does not hold
-/
namespace IPP.Stream
open IPP.Output (Text Md Pub)
open IPP.Display

/-! ## The terminal -/

/-- the pieces of text in the calls of the callback -/
def pieces (eid : Nat → Nat) (log : List (Nat × Pub)) : List Piece :=
  log.filterMap fun | (k, .stream err t) => if t = [] then none else some ⟨err, eid k, t⟩ | _ => none

theorem strip_showPub (ipy : Bool) (eid : Nat → Nat) (s : Screen) (x : Nat × Pub) :
    strip (showPub ipy eid s x) = (pieces eid [x]).foldl showPiece (strip s) := by
  obtain ⟨k, p⟩ := x
  cases p with
  | stream err t =>
    by_cases h : t = []
    · subst h; simp [showPub, pieces, displayStream]
    · simp only [showPub, pieces, List.filterMap_cons, List.filterMap_nil, if_neg h, List.foldl_cons, List.foldl_nil]
      exact strip_showPiece s ⟨err, eid k, t⟩
  | error e => exact strip_show1 _ _ (by simp)
  | result r => exact strip_show1 _ _ (by simp)
  | display d =>
    simp only [showPub, pieces, List.filterMap_cons, List.filterMap_nil, List.foldl_nil]
    split
    · rw [strip_show1 _ _ (by simp), strip_show1 _ _ (by simp)]
    · rfl
  | _ => rfl

/-- **The terminal**: all text that is streamed appears in blocks, each below a header line that names the stream and the engine. -/
theorem terminal_page (ipython : Bool) (eid : Nat → Nat) (s : St) : text (terminal ipython eid s).items = page (blocks (pieces eid s.log)) := by
  have key : ∀ (l : List (Nat × Pub)) (sc : Screen), strip (l.foldl (showPub ipython eid) sc) = (pieces eid l).foldl showPiece (strip sc) := by
    intro l
    induction l with
    | nil => intro sc; rfl
    | cons x l ih =>
      intro sc
      rw [List.foldl_cons, ih, strip_showPub, ← List.foldl_append]
      congr 1
      simp only [pieces]
      rw [← List.filterMap_append]
      rfl
  have hne : ∀ p ∈ pieces eid s.log, p.text ≠ [] := by
    intro p hp
    obtain ⟨⟨k, m⟩, _, h⟩ := List.mem_filterMap.1 hp
    cases m with
    | stream err t =>
      simp only at h
      split at h
      · cases h
      · next h' => cases h; exact h'
    | _ => simp at h
  rw [← text_strip, terminal, key, ← showPieces_fresh _ hne]
  rfl

/-- … and below the headers of an engine is what was streamed of its request. -/
theorem terminal_body (eid : Nat → Nat) (he : ∀ a b, eid a = eid b → a = b) (s : St) (k : Nat) (err : Bool) :
    bodyOf err (eid k) (blocks (pieces eid s.log)) = streamText err (shown k s) := by
  rw [bodyOf_blocks]
  unfold shown
  generalize s.log = l
  induction l with
  | nil => rfl
  | cons x l ih =>
    obtain ⟨j, p⟩ := x
    have hcons : pieces eid ((j, p) :: l) = pieces eid [(j, p)] ++ pieces eid l := by simp only [pieces]; rw [← List.filterMap_append]; rfl
    have hb : ∀ a b, bodyOf err (eid k) (a ++ b) = bodyOf err (eid k) a ++ bodyOf err (eid k) b := by intro a b; simp [bodyOf]
    rw [hcons, hb, ih]
    by_cases hj : j = k
    · subst hj
      cases p with
      | stream e t =>
        by_cases ht : t = []
        · subst ht; by_cases h : e = err <;> simp [pieces, bodyOf, streamText, h]
        · by_cases h : e = err <;> simp [pieces, bodyOf, streamText, h, ht]
      | _ => simp [pieces, bodyOf, streamText]
    · have hne : eid j ≠ eid k := fun h => hj (he _ _ h)
      cases p with
      | stream e t =>
        by_cases ht : t = [] <;> simp [pieces, bodyOf, hj, ht, hne]
      | _ => simp [pieces, bodyOf, hj]

/-! ## In a notebook -/

theorem board_other (eid : Nat → Nat) (s : St) (j k : Nat) (b err : Bool) (p : Pub) (h : j ≠ k ∨ b = false) : (callback eid s j b p).board (some k, err) = s.board (some k, err) := by
  unfold callback
  cases p with
  | stream e t =>
    dsimp only
    rw [if_neg]
    intro hc
    rcases h with h | h
    · split at hc
      · simp only [Prod.mk.injEq, Option.some.injEq] at hc; exact h hc.1.symm
      · simp at hc
    · rw [h] at hc; simp at hc
  | _ => rfl

/-- main steps do not change the display of a request -/
theorem mainStep_board (eid : Nat → Nat) (s : St) (k : Nat) (err : Bool) : (mainStep eid s).board (some k, err) = s.board (some k, err) := by
  unfold mainStep
  split
  · rfl
  · rfl
  · dsimp only; split
    · rfl
    · exact board_other _ _ _ _ _ _ _ (.inr rfl)
  · split
    · rfl
    · exact board_other _ _ _ _ _ _ _ (.inr rfl)
  · dsimp only; split
    · rfl
    · exact board_other _ _ _ _ _ _ _ (.inr rfl)
  · rfl
  · rfl

def Shows (eid : Nat → Nat) (k : Nat) (err : Bool) (s : St) : Prop :=
  (∃ t, s.flight = some (k, .stream err t)) ∨ s.board (some k, err) = some (eid k, textOf (s.md k) err)

theorem Phase.mono {C : Pub → Prop} {v v' : View} (h : VStep C v v') (hr : v.ph ≠ .a) : v'.ph ≠ .a := by
  cases h <;> simp_all

theorem Phase.gone {C : Pub → Prop} {v v' : View} (h : VStep C v v') (hr : v.ph = .d) : v'.ph = .d := by
  cases h with
  | refl | store | call => exact hr
  | remove h => rfl
  | register h | stdout h | stderr h | result h => rw [hr] at h; cases h
  | output i d h _ | outputsEnd i h _ => rw [hr] at h; cases h

theorem shows_step (eid : Nat → Nat) (k : Nat) (err : Bool) (s : St) (ev : Ev) (hreg : s.reg k = true) (h : Shows eid k err s) : Shows eid k err (step eid s ev) := by
  cases ev with
  | main =>
    unfold Shows step
    rw [(mainStep_frame eid s).1, (mainStep_frame eid s).2, mainStep_board]
    exact h
  | store j p =>
    unfold step
    cases hf : s.flight with
    | some x => exact h
    | none =>
      rcases h with ⟨t, h⟩ | h
      · rw [hf] at h; cases h
      · by_cases hj : j = k
        · subst hj
          by_cases hp : ∃ t, p = .stream err t
          · obtain ⟨t, rfl⟩ := hp
            exact .inl ⟨t, rfl⟩
          · right
            dsimp only
            rw [if_pos rfl, h]
            congr 2
            cases p with
            | stream e t =>
              have : e ≠ err := fun he => hp ⟨t, by rw [he]⟩
              cases e <;> cases err <;> simp_all [Md.add, textOf]
            | _ => simp [Md.add, textOf]
        · right
          dsimp only
          rw [if_neg (Ne.symm hj)]
          exact h
  | call =>
    unfold step
    cases hf : s.flight with
    | none => exact h
    | some x =>
      obtain ⟨j, p⟩ := x
      right
      dsimp only
      rcases h with ⟨t, h⟩ | h
      · rw [hf] at h
        cases h
        rw [if_pos hreg]
        simp [callback]
      · by_cases hj : j = k
        · subst hj
          rw [if_pos hreg]
          cases p with
          | stream e t =>
            by_cases he : e = err
            · subst he; simp [callback]
            · have : ¬ err = e := fun h => he h.symm
              simp [callback, this]; exact h
          | _ => exact h
        · split
          · rw [board_other _ _ _ _ _ _ _ (.inl hj)]; exact h
          · exact h

/-- **In a notebook** the display of a stream of a request shows the whole text received so far (carriage returns applied), from the first message that arrives after the callback is registered until it is removed. -/
theorem notebook_display (eid : Nat → Nat) (ts : List Nat) (n : Nat) (prog : List Instr) (hp : program (some ts) n = some prog) (p q : List Ev) (k : Nat) (hk : k < ts.length) (hn : k < n)
    (err : Bool) (t : Text) (hreg : (run eid prog p).reg k = true) (hfree : (run eid prog p).flight = none)
    (hend : (run eid prog (p ++ .store k (.stream err t) :: q)).reg k = true) (hidle : (run eid prog (p ++ .store k (.stream err t) :: q)).flight = none) :
    (run eid prog (p ++ .store k (.stream err t) :: q)).board (some k, err) =
      some (eid k, textOf ((received k false (p ++ .store k (.stream err t) :: q)).foldl Md.add {}) err) := by
  obtain ⟨ts', hts, hpc⟩ := program_pc hp
  cases hts
  have hpc := hpc k hk hn
  -- once registered it is registered or removed for good
  have hview : ∀ evs, ∃ v q, VReach (fun _ => True) v q ∧ IsView k (run eid prog evs) v := fun evs => by
    obtain ⟨v, q, h1, h2, _⟩ := run_view eid prog k hpc (fun _ => True) evs (fun _ _ _ => trivial)
    exact ⟨v, q, h1, h2⟩
  have key : ∀ r : List Ev, (run eid prog (p ++ .store k (.stream err t) :: r.reverse)).reg k = true →
      Shows eid k err (run eid prog (p ++ .store k (.stream err t) :: r.reverse)) := by
    intro r
    induction r with
    | nil =>
      intro _
      rw [List.reverse_nil, run_snoc]
      left
      unfold step
      rw [hfree]
      exact ⟨t, rfl⟩
    | cons ev r ih =>
      intro hr
      have hsnoc : p ++ .store k (.stream err t) :: (ev :: r).reverse = (p ++ .store k (.stream err t) :: r.reverse) ++ [ev] := by simp
      rw [hsnoc, run_snoc] at hr ⊢
      have hprev : (run eid prog (p ++ .store k (.stream err t) :: r.reverse)).reg k = true := by
        -- phases go forward
        have hne : ∀ r' : List Ev, ∃ v, IsView k (run eid prog (p ++ r'.reverse)) v ∧ v.ph ≠ .a := by
          intro r'
          induction r' with
          | nil =>
            obtain ⟨v, _, _, hv⟩ := hview p
            rw [List.reverse_nil, List.append_nil]
            refine ⟨v, hv, fun h => ?_⟩
            have := hv.reg
            rw [hreg, h] at this
            cases this
          | cons ev' r' ih' =>
            obtain ⟨v, hv, hne⟩ := ih'
            obtain ⟨v', hs, _, hv'⟩ := step_view (C := fun _ => True) eid k _ v ev' (fun _ _ _ => trivial) hv
            rw [List.reverse_cons, ← List.append_assoc, run_snoc]
            exact ⟨v', hv', Phase.mono hs hne⟩
        obtain ⟨v, hv, hne⟩ := hne (r ++ [.store k (.stream err t)])
        rw [List.reverse_append, List.reverse_singleton, List.singleton_append] at hv
        obtain ⟨v', hs, _, hv'⟩ := step_view (C := fun _ => True) eid k _ v ev (fun _ _ _ => trivial) hv
        have h1 := hv'.reg
        rw [hr] at h1
        rw [hv.reg]
        cases hph : v.ph with
        | a => exact absurd hph hne
        | d =>
          rw [Phase.gone hs hph] at h1
          cases h1
        | _ => rfl
      exact shows_step eid k err _ ev hprev (ih hprev)
  have h1 := key q.reverse (by rw [List.reverse_reverse]; exact hend)
  rw [List.reverse_reverse] at h1
  rcases h1 with ⟨t', h⟩ | h
  · rw [hidle] at h; cases h
  · rw [h]
    have hmd := md_received eid k (p ++ .store k (.stream err t) :: q) { pc := prog }
    change (run eid prog _).md k = _ at hmd
    rw [hmd]
    rfl

/-! ## Examples, and what does not hold -/

def exProg : List Instr := [.register 0, .text 0 false, .text 0 true, .outputs 0 0, .result 0, .register 1, .text 1 false, .text 1 true, .outputs 1 0, .result 1, .body, .remove 0, .remove 1]
example : program (some [0, 1]) 2 = some exProg := by decide
/-- engine 0 has printed `a` before, prints `b` inside; engine 1 prints inside -/
def exEvs : List Ev := [.store 0 (.stream false ['a']), .call] ++ List.replicate 10 .main ++ [.store 1 (.stream true ['x', '\n']), .call, .store 0 (.stream false ['b']), .call]
example : shown 0 (run id exProg exEvs) = [.stream false ['a'], .stream false ['b']] := by decide
example : received 0 false exEvs = [.stream false ['a'], .stream false ['b']] := by decide
example : text (terminal false id (run id exProg exEvs)).items = "[stdout:0] \na\n[stderr:1] \nx\n[stdout:0] \nb".toList := by decide +kernel

/-- The hypotheses of the theorems are met. -/
example : Inside 0 (run id exProg exEvs) ∧ (run id exProg exEvs).flight = none ∧ Quiet id exProg 0 exEvs := by
  refine ⟨⟨by decide, ?_⟩, by decide, ?_⟩
  · rintro ⟨_, i, hi, h⟩
    have : (run id exProg exEvs).pc = [.body, .remove 0, .remove 1] := by decide
    rw [this] at hi
    simp at hi
    rcases hi with rfl | rfl | rfl <;> simp at h
  · intro p q hpq hent pub
    have h1 : ∀ n, n ≤ exEvs.length → (match (run id exProg (exEvs.take n)).flight with | some (0, _) => decide ((run id exProg (exEvs.take n)).reg 0 = true) && !(decide (n = 15)) | _ => false) = false := by decide
    have h2 := h1 p.length (by rw [hpq]; simp)
    have hp : exEvs.take p.length = p := by rw [hpq]; simp
    rw [hp] at h2
    intro hf
    rw [hf] at h2
    simp only [hent.1, decide_true, Bool.true_and, Bool.not_eq_false', decide_eq_true_eq] at h2
    obtain ⟨_, i, hi, h⟩ := hent
    have hpc : (run id exProg (exEvs.take 15)).pc = [.body, .remove 0, .remove 1] := by decide
    rw [h2] at hp
    rw [hp] at hpc
    rw [hpc] at hi
    simp at hi
    rcases hi with rfl | rfl | rfl <;> simp at h

/-- **Violated**: text that arrives while entering is shown twice (asyncresult.py:239-241 says so). -/
theorem streamed_twice_violated (t : Text) (ht : t ≠ []) (hcr : '\r' ∉ t) :
    ∃ evs, received 0 false evs = [.stream false t] ∧ shown 0 (run id exProg evs) = [.stream false t, .stream false t] := by
  refine ⟨[.main, .store 0 (.stream false t), .call, .main], by simp [received], ?_⟩
  simp [run, exProg, step, mainStep, callback, shown, textOf, Md.add, Output.addText, hcr, ht]

/-- **Violated**: an error that arrived before entering is not shown. -/
theorem captured_error_violated (e : Nat) : ∃ evs, received 0 false evs = [.error e] ∧ (run id exProg evs).pc = [.body, .remove 0, .remove 1] ∧ shown 0 (run id exProg evs) = [] := by
  refine ⟨[.store 0 (.error e), .call] ++ List.replicate 10 .main, by simp [received, List.replicate], ?_, ?_⟩ <;>
    simp [run, exProg, step, mainStep, shown, textOf, Md.add, List.replicate]

/-- **Violated**: in a notebook, when two engines have already printed something, only that of the second one is shown (the display id of captured text does not name the request). -/
theorem notebook_captured_violated (a b : Text) (ha : a ≠ []) (hb : b ≠ []) (hca : '\r' ∉ a) (hcb : '\r' ∉ b) :
    ∃ evs, received 0 false evs = [.stream false a] ∧ received 1 false evs = [.stream false b] ∧ (run id exProg evs).pc = [.body, .remove 0, .remove 1] ∧
      (run id exProg evs).board = fun i => if i = (none, false) then some (1, b) else none := by
  refine ⟨[.store 0 (.stream false a), .call, .store 1 (.stream false b), .call] ++ List.replicate 10 .main, by simp [received, List.replicate], by simp [received, List.replicate], ?_, ?_⟩
  · simp [run, exProg, step, mainStep, callback, textOf, Md.add, List.replicate, Output.addText, hca, hcb, ha, hb]
  · simp [run, exProg, step, mainStep, callback, textOf, Md.add, List.replicate, Output.addText, hca, hcb, ha, hb]
    funext i
    by_cases h : i = (none, false) <;> simp [h]

/-- **Violated**: the output of a load-balanced task cannot be streamed: its `_targets` is None (view.py:1437), so `zip` raises TypeError. -/
theorem load_balanced_violated (n : Nat) : program none n = none := rfl

end IPP.Stream
