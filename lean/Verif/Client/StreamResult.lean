import Verif.Client.StreamMore
/-!
# C76: results and errors that are streamed, and what arrives inside the `with` block
-/
namespace IPP.Stream
open IPP.Output (Text Md Pub)
open IPP.Display

/-! ## Specification -/

/-- the results (`execute_result`) among messages -/
def results : List Pub → List Nat
  | [] => []
  | .result r :: l => r :: results l
  | _ :: l => results l

/-- the errors among messages -/
def errors : List Pub → List Nat
  | [] => []
  | .error e :: l => e :: errors l
  | _ :: l => errors l

/-- the errors on a screen -/
def errorsShown : List Item → List Nat
  | [] => []
  | .error e :: l => e :: errorsShown l
  | _ :: l => errorsShown l

/-! ## What arrives inside -/

/-- several steps -/
theorem steps_view {C : Pub → Prop} (eid : Nat → Nat) (k : Nat) (P : View → Prop) (hP : ∀ v v', VStep C v v' → P v → P v') (evs : List Ev) (hc : ∀ j p, Ev.store j p ∈ evs → C p) :
    ∀ (s : St) (v : View), IsView k s v → P v → ∃ v', P v' ∧ IsView k (evs.foldl (step eid) s) v' ∧ v'.recv = v.recv ++ received k s.flight.isSome evs := by
  induction evs with
  | nil => intro s v h hp; exact ⟨v, hp, h, by simp [received]⟩
  | cons ev evs ih =>
    intro s v h hp
    obtain ⟨v1, hs, hr1, hv1⟩ := step_view (C := C) eid k s v ev (fun j p he => hc j p (by simp [he])) h
    obtain ⟨v2, hp2, hv2, hr2⟩ := ih (fun j p he => hc j p (List.mem_cons_of_mem _ he)) _ v1 hv1 (hP _ _ hs hp)
    refine ⟨v2, hp2, hv2, ?_⟩
    have h1 := received_snoc eid k [] ev s
    rw [hr2, hr1, List.append_assoc]
    congr 1
    cases ev with
    | main => rw [show (step eid s .main).flight = s.flight from (mainStep_frame eid s).2]; simp [newly, received]
    | call =>
      have h1 : (step eid s .call).flight = none := by
        simp only [step]
        cases hf : s.flight with
        | none => exact hf
        | some x => dsimp only; split <;> rfl
      rw [h1]; simp [newly, received]
    | store j p =>
      cases hf : s.flight with
      | some x => simp [newly, received, step, hf]
      | none => by_cases hj : j = k <;> simp [newly, received, step, hf, hj]

/-- **Live output**: while the user is inside the `with` block, exactly the messages that arrive for a request are shown, all of them and in the order of their arrival. -/
theorem streamed_live (eid : Nat → Nat) (ts : List Nat) (n : Nat) (prog : List Instr) (hp : program (some ts) n = some prog) (p q : List Ev)
    (k : Nat) (hk : k < ts.length) (hn : k < n) (hin : Inside k (run eid prog p)) (hidle : (run eid prog p).flight = none)
    (hin' : Inside k (run eid prog (p ++ q))) (hidle' : (run eid prog (p ++ q)).flight = none) :
    shown k (run eid prog (p ++ q)) = shown k (run eid prog p) ++ received k false q := by
  obtain ⟨ts', hts, hpc⟩ := program_pc hp
  cases hts
  obtain ⟨v, q0, hr, hv, _, _⟩ := run_view eid prog k (hpc k hk hn) (fun _ => True) p (fun _ _ _ => trivial)
  have hreg : v.ph.registered = true := by rw [← hv.reg]; exact hin.1
  have hent : v.ph.entering = false := Bool.eq_false_iff.2 fun h => hin.2 ((entering_iff hv).2 h)
  have hph : v.ph = .c := by
    cases h : v.ph <;> simp [h, Phase.entering, Phase.registered] at hent hreg ⊢
  have hfl : v.fl = none := by rw [← hv.fl]; unfold flightOf; rw [hidle]
  obtain ⟨v', hp', hv', hrec⟩ := steps_view (C := fun _ => True) eid k
    (fun w => w.ph = .d ∨ w.ph = .c ∧ ∃ R, w.recv = v.recv ++ R ∧ w.log ++ w.fl.toList = v.log ++ R) (by
      intro w w' hs hw
      rcases hw with hw | ⟨hw, R, h1, h2⟩
      · exact .inl (Phase.gone hs hw)
      · cases hs with
        | refl => exact .inr ⟨hw, R, h1, h2⟩
        | store p hf _ =>
          refine .inr ⟨hw, R ++ [p], by simp [h1], ?_⟩
          rw [hf] at h2
          simp only [Option.toList, List.append_nil] at h2 ⊢
          rw [h2]; simp
        | call p hf =>
          refine .inr ⟨hw, R, h1, ?_⟩
          rw [hf] at h2
          simp only [hw, Phase.registered, if_true, Option.toList, List.append_nil] at h2 ⊢
          exact h2
        | register h => rw [hw] at h; cases h
        | stdout h => rw [hw] at h; cases h
        | stderr h => rw [hw] at h; cases h
        | output i d h _ => rw [hw] at h; cases h
        | outputsEnd i h _ => rw [hw] at h; cases h
        | result h => rw [hw] at h; cases h
        | remove h => exact .inl rfl) q (fun _ _ _ => trivial) _ v hv (.inr ⟨hph, [], by simp, by simp [hfl]⟩)
  have he : q.foldl (step eid) (run eid prog p) = run eid prog (p ++ q) := by unfold run; rw [List.foldl_append]
  rw [he] at hv'
  rw [hidle] at hrec
  rcases hp' with hd | ⟨hc, R, h1, h2⟩
  · have := hv'.reg
    rw [hin'.1, hd] at this
    cases this
  · have hfl' : v'.fl = none := by rw [← hv'.fl]; unfold flightOf; rw [hidle']
    rw [hfl'] at h2
    simp only [Option.toList, List.append_nil] at h2
    rw [h1] at hrec
    rw [hv'.log, hv.log, h2, List.append_cancel_left hrec]
    rfl

/-! ## Results -/

theorem results_append (a b : List Pub) : results (a ++ b) = results a ++ results b := by
  induction a with
  | nil => rfl
  | cons p a ih => cases p <;> simp [results, ih]

def flRes : Option Pub → List Nat
  | some (.result r) => [r]
  | _ => []

theorem results_one (p : Pub) : results [p] = flRes (some p) := by cases p <;> rfl

theorem result_add (md : Md) (p : Pub) (l : List Pub) (h : md.result = (results l).getLast?) : (md.add p).result = (results (l ++ [p])).getLast? := by
  rw [results_append]
  cases p with
  | stream e t => cases e <;> simp [Md.add, results, h]
  | _ => simp [Md.add, results, h]

def RInv (v : View) (q : Bool) : Prop :=
  v.md.result = (results v.recv).getLast? ∧
  (v.ph = .a → results v.log = []) ∧
  (v.ph.entering = true → q = true → results v.log = [] ∧ v.fl = none) ∧
  (v.ph = .c → (∀ r, (results v.recv).getLast? = some r → r ∈ results v.log ∨ r ∈ flRes v.fl) ∧
    (q = true → ∃ A B, results v.recv = A ++ B ∧ results v.log ++ flRes v.fl = A.getLast?.toList ++ B))

theorem rinv {C : Pub → Prop} {v : View} {q : Bool} (h : VReach C v q) : RInv v q := by
  induction h with
  | init => exact ⟨rfl, fun _ => rfl, fun h => (by cases h), fun h => (by cases h)⟩
  | @step v v' q hv hs ih =>
    obtain ⟨i0, i1, i2, i3⟩ := ih
    cases hs with
    | refl =>
      refine ⟨i0, i1, fun h hq => ?_, fun h => ⟨(i3 h).1, fun hq => ?_⟩⟩
      · simp only [Bool.and_eq_true] at hq
        exact i2 h hq.1
      · simp only [Bool.and_eq_true] at hq
        exact (i3 h).2 hq.1
    | store p hf hc =>
      refine ⟨result_add _ _ _ i0, i1, fun h hq => ?_, fun h => ⟨fun r hr => ?_, fun hq => ?_⟩⟩
      · exfalso
        dsimp only at h
        simp [h] at hq
      · dsimp only at hr h ⊢
        rw [results_append, results_one] at hr
        rcases (i3 h) with ⟨h1, _⟩
        rw [hf] at h1
        cases p with
        | result r' => simp [flRes] at hr ⊢; exact .inr hr.symm
        | _ =>
          simp only [flRes, List.append_nil] at hr h1 ⊢
          exact h1 r hr
      · simp only [Bool.and_eq_true] at hq
        obtain ⟨A, B, h1, h2⟩ := (i3 h).2 hq.1
        rw [hf] at h2
        refine ⟨A, B ++ flRes (some p), ?_, ?_⟩
        · dsimp only; rw [results_append, results_one, h1, List.append_assoc]
        · dsimp only
          rw [← List.append_assoc, ← h2]
          simp [flRes]
    | call p hf =>
      refine ⟨i0, fun h => ?_, fun h hq => ?_, fun h => ?_⟩
      · dsimp only at h ⊢
        rw [h]
        exact i1 h
      · simp only [Bool.and_eq_true] at hq
        have := (i2 h hq.1).2
        rw [hf] at this
        cases this
      · dsimp only at h ⊢
        obtain ⟨h1, h2⟩ := i3 h
        rw [hf] at h1 h2
        rw [h]
        simp only [Phase.registered, if_true, results_append, results_one]
        refine ⟨fun r hr => ?_, fun hq => ?_⟩
        · rcases h1 r hr with h | h
          · exact .inl (List.mem_append_left _ h)
          · exact .inl (List.mem_append_right _ h)
        · simp only [Bool.and_eq_true] at hq
          obtain ⟨A, B, h3, h4⟩ := h2 hq.1
          exact ⟨A, B, h3, by rw [h4]; simp [flRes]⟩
    | register hp =>
      refine ⟨i0, fun h => (by cases h), fun _ hq => ?_, fun h => (by cases h)⟩
      simp [Phase.entering] at hq
      exact ⟨i1 hp, hq.2⟩
    | stdout hp =>
      refine ⟨i0, fun h => (by cases h), fun _ hq => ?_, fun h => (by cases h)⟩
      simp only [Bool.and_eq_true] at hq
      obtain ⟨h1, h2⟩ := i2 (by rw [hp]; rfl) hq.1
      refine ⟨?_, h2⟩
      dsimp only
      split
      · exact h1
      · rw [results_append, h1]; rfl
    | stderr hp =>
      refine ⟨i0, fun h => (by cases h), fun _ hq => ?_, fun h => (by cases h)⟩
      simp only [Bool.and_eq_true] at hq
      obtain ⟨h1, h2⟩ := i2 (by rw [hp]; rfl) hq.1
      refine ⟨?_, h2⟩
      dsimp only
      split
      · exact h1
      · rw [results_append, h1]; rfl
    | output i d hp hd =>
      refine ⟨i0, fun h => (by cases h), fun _ hq => ?_, fun h => (by cases h)⟩
      simp only [Bool.and_eq_true] at hq
      obtain ⟨h1, h2⟩ := i2 (by rw [hp]; rfl) hq.1
      exact ⟨by dsimp only; rw [results_append, h1]; rfl, h2⟩
    | outputsEnd i hp hd =>
      refine ⟨i0, fun h => (by cases h), fun _ hq => ?_, fun h => (by cases h)⟩
      simp only [Bool.and_eq_true] at hq
      exact i2 (by rw [hp]; rfl) hq.1
    | result hp =>
      refine ⟨i0, fun h => (by cases h), fun h => (by cases h), fun _ => ⟨fun r hr => .inl ?_, fun hq => ?_⟩⟩
      · dsimp only at hr ⊢
        rw [i0, hr]
        simp [results_append, results]
      · simp only [Bool.and_eq_true] at hq
        obtain ⟨h1, h2⟩ := i2 (by rw [hp]; rfl) hq.1
        refine ⟨results v.recv, [], by simp, ?_⟩
        dsimp only
        rw [i0, h2]
        cases (results v.recv).getLast? with
        | none => simp [h1, flRes]
        | some r => simp [h1, flRes, results_append, results]
    | remove hp => exact ⟨i0, fun h => (by cases h), fun h => (by cases h), fun h => (by cases h)⟩

/-- **Streamed results**: after entering and before leaving, when the IO thread is between two messages, the result of a request (the last one, if it published several) has been shown;
and if no message of the request is handled while entering, a request that has published at most one result has had it shown exactly once (none, if it published none). -/
theorem streamed_result (eid : Nat → Nat) (ts : List Nat) (n : Nat) (prog : List Instr) (hp : program (some ts) n = some prog) (evs : List Ev)
    (k : Nat) (hk : k < ts.length) (hn : k < n) (hin : Inside k (run eid prog evs)) (hidle : (run eid prog evs).flight = none) :
    (∀ r, (results (received k false evs)).getLast? = some r → r ∈ results (shown k (run eid prog evs))) ∧
    (Quiet eid prog k evs → (results (received k false evs)).length ≤ 1 → results (shown k (run eid prog evs)) = results (received k false evs)) := by
  obtain ⟨ts', hts, hpc⟩ := program_pc hp
  cases hts
  obtain ⟨v, q, hr, hv, hq, hrec⟩ := run_view eid prog k (hpc k hk hn) (fun _ => True) evs (fun _ _ _ => trivial)
  have hreg : v.ph.registered = true := by rw [← hv.reg]; exact hin.1
  have hent : v.ph.entering = false := Bool.eq_false_iff.2 fun h => hin.2 ((entering_iff hv).2 h)
  have hph : v.ph = .c := by
    cases h : v.ph <;> simp [h, Phase.entering, Phase.registered] at hent hreg ⊢
  obtain ⟨h1, h2⟩ := (rinv hr).2.2.2 hph
  have hfl : v.fl = none := by rw [← hv.fl]; unfold flightOf; rw [hidle]
  rw [hfl, hrec] at h1 h2
  rw [hv.log]
  refine ⟨fun r h => ?_, fun hquiet hlen => ?_⟩
  · rcases h1 r h with h | h
    · exact h
    · cases h
  · obtain ⟨A, B, h3, h4⟩ := h2 (hq hquiet)
    simp only [flRes, List.append_nil] at h4
    rw [h4, h3]
    rw [h3] at hlen
    match A, hlen with
    | [], _ => rfl
    | [a], _ => rfl
    | _ :: _ :: _, hlen => simp at hlen

/-! ## Nothing is invented -/

/-- Everything shown of a request, apart from text, was received for it. -/
theorem streamed_received (eid : Nat → Nat) (ts : List Nat) (n : Nat) (prog : List Instr) (hp : program (some ts) n = some prog) (evs : List Ev)
    (k : Nat) (hk : k < ts.length) (hn : k < n) (p : Pub) (h : p ∈ shown k (run eid prog evs)) (hns : ∀ e t, p ≠ .stream e t) : p ∈ received k false evs := by
  obtain ⟨ts', hts, hpc⟩ := program_pc hp
  cases hts
  obtain ⟨v, q, hr, hv, hx, hrec⟩ := run_view eid prog k (hpc k hk hn) (fun _ => True) evs (fun _ _ _ => trivial)
  clear hx
  rw [hv.log] at h
  rw [← hrec]
  have inv : (∀ d ∈ v.md.outputs, Pub.display d ∈ v.recv) ∧ (∀ r, v.md.result = some r → Pub.result r ∈ v.recv) ∧ (∀ p, v.fl = some p → p ∈ v.recv) ∧
      ∀ p ∈ v.log, (∀ e t, p ≠ Pub.stream e t) → p ∈ v.recv := by
    clear h hrec hv
    induction hr with
    | init => refine ⟨?_, ?_, ?_, ?_⟩ <;> intro _ h <;> cases h
    | @step v v' q hv hs ih =>
      obtain ⟨i1, i2, i3, i4⟩ := ih
      cases hs with
      | refl => exact ⟨i1, i2, i3, i4⟩
      | store p hf hc =>
        refine ⟨fun d hd => ?_, fun r hr => ?_, fun p' h => ?_, fun p' h h' => List.mem_append_left _ (i4 p' h h')⟩
        · dsimp only at hd ⊢
          rw [outputs_add] at hd
          rcases List.mem_append.1 hd with hd | hd
          · exact List.mem_append_left _ (i1 d hd)
          · cases p <;> simp [flDisp] at hd
            simp [hd]
        · dsimp only at hr ⊢
          cases p with
          | stream e t => cases e <;> exact List.mem_append_left _ (i2 r (by simpa [Md.add] using hr))
          | result r' => simp [Md.add] at hr; simp [hr]
          | _ => exact List.mem_append_left _ (i2 r (by simpa [Md.add] using hr))
        · cases h; simp
      | call p hf =>
        refine ⟨i1, i2, fun p' h => (by cases h), fun p' h h' => ?_⟩
        dsimp only at h
        split at h
        · rcases List.mem_append.1 h with h | h
          · exact i4 p' h h'
          · simp at h; subst h; exact i3 _ hf
        · exact i4 p' h h'
      | register => exact ⟨i1, i2, i3, i4⟩
      | stdout =>
        refine ⟨i1, i2, i3, fun p' h h' => ?_⟩
        dsimp only at h
        split at h
        · exact i4 p' h h'
        · rcases List.mem_append.1 h with h | h
          · exact i4 p' h h'
          · simp at h; exact absurd h (h' _ _)
      | stderr =>
        refine ⟨i1, i2, i3, fun p' h h' => ?_⟩
        dsimp only at h
        split at h
        · exact i4 p' h h'
        · rcases List.mem_append.1 h with h | h
          · exact i4 p' h h'
          · simp at h; exact absurd h (h' _ _)
      | output i d hp hd =>
        refine ⟨i1, i2, i3, fun p' h h' => ?_⟩
        rcases List.mem_append.1 h with h | h
        · exact i4 p' h h'
        · simp at h; subst h; exact i1 d (List.mem_of_getElem? hd)
      | outputsEnd => exact ⟨i1, i2, i3, i4⟩
      | result =>
        refine ⟨i1, i2, i3, fun p' h h' => ?_⟩
        dsimp only at h
        split at h
        · exact i4 p' h h'
        · next r hr =>
          rcases List.mem_append.1 h with h | h
          · exact i4 p' h h'
          · simp at h; subst h; exact i2 r hr
      | remove => exact ⟨i1, i2, i3, i4⟩
  exact inv.2.2.2 p h hns

/-! ## On the terminal -/

/-- On the terminal of an IPython session every rich output that is streamed appears below the label of its engine, every result and every error appears, all in the order in which they are streamed. -/
theorem terminal_rich (eid : Nat → Nat) (s : St) :
    labelled none (terminal true eid s).items = s.log.filterMap (fun | (k, .display d) => some (some (eid k), d) | _ => none) ∧
    values (terminal true eid s).items = results (s.log.map (·.2)) ∧ errorsShown (terminal true eid s).items = errors (s.log.map (·.2)) := by
  have la : ∀ (a b : List Item) (c : Option Nat), ∃ c', labelled c (a ++ b) = labelled c a ++ labelled c' b := by
    intro a b
    induction a with
    | nil => intro c; exact ⟨c, rfl⟩
    | cons i a ih =>
      intro c
      cases i with
      | label e => obtain ⟨c', h⟩ := ih (some e); exact ⟨c', by simpa [labelled] using h⟩
      | rich d => obtain ⟨c', h⟩ := ih c; exact ⟨c', by simp [labelled, h]⟩
      | _ => obtain ⟨c', h⟩ := ih c; exact ⟨c', by simpa [labelled] using h⟩
  have va : ∀ a b : List Item, values (a ++ b) = values a ++ values b := by
    intro a b
    induction a with
    | nil => rfl
    | cons i a ih => cases i <;> simp [values, ih]
  have ea : ∀ a b : List Item, errorsShown (a ++ b) = errorsShown a ++ errorsShown b := by
    intro a b
    induction a with
    | nil => rfl
    | cons i a ih => cases i <;> simp [errorsShown, ih]
  have ds : ∀ (sc : Screen) (t p : Text) (e : Bool), ∃ l, (displayStream sc t p e).items = sc.items ++ l ∧ (∀ c, labelled c l = []) ∧ values l = [] ∧ errorsShown l = [] := by
    intro sc t p e
    unfold displayStream
    split
    · exact ⟨[], by simp, fun _ => rfl, rfl, rfl⟩
    · exact ⟨_, rfl, fun _ => rfl, rfl, rfl⟩
  have key : ∀ (l : List (Nat × Pub)) (sc : Screen),
      labelled none (l.foldl (showPub true eid) sc).items = labelled none sc.items ++ l.filterMap (fun | (k, .display d) => some (some (eid k), d) | _ => none) ∧
      values (l.foldl (showPub true eid) sc).items = values sc.items ++ results (l.map (·.2)) ∧
      errorsShown (l.foldl (showPub true eid) sc).items = errorsShown sc.items ++ errors (l.map (·.2)) := by
    intro l
    induction l with
    | nil => intro sc; simp [results, errors]
    | cons x l ih =>
      intro sc
      obtain ⟨k, p⟩ := x
      rw [List.foldl_cons]
      obtain ⟨h1, h2, h3⟩ := ih (showPub true eid sc (k, p))
      rw [h1, h2, h3]
      cases p with
      | stream e t =>
        obtain ⟨l', h4, h5, h6, h7⟩ := ds sc t (pfx e (eid k)) e
        simp only [showPub]
        rw [h4]
        obtain ⟨c', h8⟩ := la sc.items l' none
        simp [h8, h5, va, h6, ea, h7, results, errors]
      | display d =>
        simp only [showPub, if_true, show1]
        rw [List.append_assoc]
        obtain ⟨c', h8⟩ := la sc.items [.label (eid k), .rich d] none
        simp [h8, va, ea, labelled, values, errorsShown, results, errors]
      | error e =>
        simp only [showPub, show1]
        obtain ⟨c', h8⟩ := la sc.items [.error e] none
        simp [h8, va, ea, labelled, values, errorsShown, results, errors]
      | result r =>
        simp only [showPub, show1]
        obtain ⟨c', h8⟩ := la sc.items [.value r] none
        simp [h8, va, ea, labelled, values, errorsShown, results, errors]
      | _ => simp [showPub, results, errors]
  exact key s.log {}

/-! ## An example -/

/-- A request prints and shows something before entering, and something, a result and an error while inside. -/
def exLive : List Ev := [.store 0 (.display 7), .call] ++ List.replicate 11 .main ++ [.store 0 (.result 3), .call, .store 1 (.error 9), .call]

example : Inside 0 (run id exProg exLive) ∧ (run id exProg exLive).flight = none ∧ shown 0 (run id exProg exLive) = [.display 7, .result 3] ∧ shown 1 (run id exProg exLive) = [.error 9] := by
  have hpc : (run id exProg exLive).pc = [.body, .remove 0, .remove 1] := by decide +kernel
  refine ⟨⟨by decide +kernel, ?_⟩, by decide +kernel, by decide +kernel, by decide +kernel⟩
  rintro ⟨_, i, hi, h⟩
  rw [hpc] at hi
  rcases h with ⟨e, rfl⟩ | ⟨j, rfl⟩ | rfl <;> simp at hi

end IPP.Stream
