import Verif.Client.Close
/-!
# C87: closing a client
-/
namespace IPP.ClientClose

/-! ### bookkeeping -/

@[simp] theorem add_fields (s : St) (c : Cb) : (s.add c).pc = s.pc ∧ (s.add c).batch = s.batch ∧ (s.add c).flag = s.flag ∧ (s.add c).ended = s.ended ∧ (s.add c).sockets = s.sockets ∧ (s.add c).closed = s.closed ∧
    (s.add c).accepted = s.accepted ∧ (s.add c).submitted = s.submitted ∧ (s.add c).refused = s.refused ∧ (s.add c).sent = s.sent ∧ (s.add c).resolved = s.resolved ∧ (s.add c).returned = s.returned := by
  unfold St.add; split <;> simp

theorem add_queue (s : St) (c : Cb) : (s.add c).queue = if s.ended then s.queue else s.queue ++ [c] := by
  unfold St.add; split <;> simp_all

theorem run_append (h h' : List Ev) : run (h ++ h') = h'.foldl step (run h) := by simp [run, List.foldl_append]

theorem run_snoc (h : List Ev) (e : Ev) : run (h ++ [e]) = step (run h) e := by simp [run_append]

/-- induction over histories -/
theorem run_induction {P : St → Prop} (h0 : P {}) (hs : ∀ s e, P s → P (step s e)) (h : List Ev) : P (run h) := by
  have gen : ∀ (h : List Ev) (s : St), P s → P (h.foldl step s) := by
    intro h
    induction h with
    | nil => exact fun _ h => h
    | cons e t ih => exact fun s hp => ih _ (hs s e hp)
  exact gen h {} h0

theorem fold_induction {P : St → Prop} (hs : ∀ s e, P s → P (step s e)) (h : List Ev) : ∀ s, P s → P (h.foldl step s) := by
  induction h with
  | nil => exact fun _ h => h
  | cons e t ih => exact fun s hp => ih _ (hs s e hp)

/-! ### the sockets -/

/-- `_closed` is set after the sockets have been closed; they stay closed -/
structure Inv (s : St) : Prop where
  ret : s.returned ≠ [] → s.closed = true
  cl : s.closed = true → s.sockets = false
  pcs : ∀ t, s.pc t = .socketsClosed → s.sockets = false

theorem inv_step (s : St) (e : Ev) (h : Inv s) : Inv (step s e) := by
  cases e with
  | request t m =>
    simp only [step]
    split
    · exact h
    · split
      · exact ⟨h.ret, h.cl, h.pcs⟩
      · refine ⟨h.ret, h.cl, ?_⟩
        intro u hu
        simp only [St.goto] at hu
        split at hu
        · cases hu
        · exact h.pcs u hu
  | close t =>
    simp only [step]
    split
    · exact h
    · split
      · rename_i hc; exact ⟨fun _ => hc, h.cl, h.pcs⟩
      · refine ⟨h.ret, h.cl, ?_⟩
        intro u hu
        simp only [St.goto] at hu
        split at hu
        · cases hu
        · exact h.pcs u hu
  | step t =>
    simp only [step, advance]
    split
    · exact h
    · refine ⟨by simpa [St.goto] using h.ret, by simpa [St.goto] using h.cl, ?_⟩
      intro u hu
      simp only [St.goto, add_fields] at hu ⊢
      split at hu
      · cases hu
      · exact h.pcs u hu
    · refine ⟨by simpa [St.goto] using h.ret, by simpa [St.goto] using h.cl, ?_⟩
      intro u hu
      simp only [St.goto, add_fields] at hu ⊢
      split at hu
      · split at hu <;> cases hu
      · exact h.pcs u hu
    · split
      · refine ⟨h.ret, h.cl, ?_⟩
        intro u hu
        simp only [St.goto] at hu ⊢
        split at hu
        · cases hu
        · exact h.pcs u hu
      · exact h
    · exact ⟨h.ret, fun _ => rfl, fun _ _ => rfl⟩
    · rename_i hp
      exact ⟨fun _ => rfl, fun _ => h.pcs t hp, fun _ _ => h.pcs t hp⟩
  | loop =>
    simp only [step, loopStep]
    split
    · exact h
    · split
      · rename_i c l _
        cases c with
        | send m => simp only [callback]; split <;> exact ⟨h.ret, h.cl, h.pcs⟩
        | stop => exact ⟨h.ret, h.cl, h.pcs⟩
      · split <;> exact ⟨h.ret, h.cl, h.pcs⟩
  | reply m => simp only [step]; split <;> exact ⟨h.ret, h.cl, h.pcs⟩

theorem inv (h : List Ev) : Inv (run h) := run_induction ⟨fun h => (h rfl).elim, fun h => (by cases h), fun _ h => (by cases h)⟩ inv_step h

/-- with the sockets closed nothing is sent and nothing is received -/
theorem sockets_step (s : St) (e : Ev) (hs : s.sockets = false) : (step s e).sockets = false ∧ (step s e).sent = s.sent ∧ (step s e).resolved = s.resolved := by
  cases e with
  | request t m => simp only [step]; split; · exact ⟨hs, rfl, rfl⟩
                   · split <;> exact ⟨hs, rfl, rfl⟩
  | close t => simp only [step]; split; · exact ⟨hs, rfl, rfl⟩
               · split <;> exact ⟨hs, rfl, rfl⟩
  | step t =>
    simp only [step, advance]
    split
    · exact ⟨hs, rfl, rfl⟩
    · simp [St.goto, hs]
    · simp [St.goto, hs]
    · split <;> exact ⟨hs, rfl, rfl⟩
    · exact ⟨rfl, rfl, rfl⟩
    · exact ⟨hs, rfl, rfl⟩
  | loop =>
    simp only [step, loopStep]
    split
    · exact ⟨hs, rfl, rfl⟩
    · split
      · rename_i c l _
        cases c with
        | send m => simp [callback, hs]
        | stop => exact ⟨hs, rfl, rfl⟩
      · split <;> exact ⟨hs, rfl, rfl⟩
  | reply m => simp [step, hs]

/-- a closed client accepts no request and stays closed -/
theorem closed_step (s : St) (e : Ev) (hs : s.closed = true) : (step s e).closed = true ∧ (step s e).accepted = s.accepted ∧ ((step s e).returned = s.returned ∨ ∃ t, (step s e).returned = s.returned ++ [t]) := by
  cases e with
  | request t m => simp only [step]; split; · exact ⟨hs, rfl, .inl rfl⟩
                   · simp [hs]
  | close t => simp only [step]; split; · exact ⟨hs, rfl, .inl rfl⟩
               · simp [hs]
  | step t =>
    simp only [step, advance]
    split
    · exact ⟨hs, rfl, .inl rfl⟩
    · simp [St.goto, hs]
    · simp [St.goto, hs]
    · split <;> exact ⟨hs, rfl, .inl rfl⟩
    · exact ⟨hs, rfl, .inl rfl⟩
    · exact ⟨rfl, rfl, .inr ⟨t, rfl⟩⟩
  | loop =>
    simp only [step, loopStep]
    split
    · exact ⟨hs, rfl, .inl rfl⟩
    · split
      · rename_i c l _
        cases c with
        | send m => simp only [callback]; split <;> exact ⟨hs, rfl, .inl rfl⟩
        | stop => exact ⟨hs, rfl, .inl rfl⟩
      · split <;> exact ⟨hs, rfl, .inl rfl⟩
  | reply m => simp only [step]; split <;> exact ⟨hs, rfl, .inl rfl⟩

/-- **C87 (refused)** Once some call of `close()` has returned, no request is accepted any more, whatever the threads do; a request made by a thread that is not inside another call raises (RuntimeError from apply and execute, OSError from the others) and has no other effect. -/
theorem refused_after_close (h h' : List Ev) (hr : (run h).returned ≠ []) :
    (run (h ++ h')).accepted = (run h).accepted ∧
    ∀ n m, (run (h ++ h')).pc (.app n) = .idle → run (h ++ h' ++ [.request (.app n) m]) = { run (h ++ h') with refused := (run (h ++ h')).refused ++ [m] } := by
  have hc := (inv h).ret hr
  have key := fold_induction (P := fun s => s.closed = true ∧ s.accepted = (run h).accepted) (fun s e hp => ⟨(closed_step s e hp.1).1, by rw [(closed_step s e hp.1).2.1, hp.2]⟩) h' (run h) ⟨hc, rfl⟩
  rw [← run_append] at key
  refine ⟨key.2, fun n m hi => ?_⟩
  rw [run_snoc]
  simp [step, hi, key.1]

/-- **C87 (nothing happens after close)** Once some call of `close()` has returned, no message is sent and no future completes, whatever happens: the futures that are not done at this time never will be. -/
theorem nothing_after_close (h h' : List Ev) (hr : (run h).returned ≠ []) : (run (h ++ h')).sent = (run h).sent ∧ (run (h ++ h')).resolved = (run h).resolved := by
  have hc := (inv h).cl ((inv h).ret hr)
  have key := fold_induction (P := fun s => s.sockets = false ∧ s.sent = (run h).sent ∧ s.resolved = (run h).resolved)
    (fun s e hp => have q := sockets_step s e hp.1; ⟨q.1, by rw [q.2.1, hp.2.1], by rw [q.2.2, hp.2.2]⟩) h' (run h) ⟨hc, rfl, rfl⟩
  rw [← run_append] at key
  exact key.2

/-! ### order -/

/-- the requests among the callbacks -/
def sends : List Cb → List Nat
  | [] => []
  | .send m :: l => m :: sends l
  | .stop :: l => sends l

theorem sends_append (a b : List Cb) : sends (a ++ b) = sends a ++ sends b := by
  induction a with
  | nil => rfl
  | cons c l ih => cases c <;> simp [sends, ih]

/-- what has been sent and what is queued are the submitted requests, in their order, with gaps; there is no gap while the loop runs and the sockets are open -/
structure Ord (s : St) : Prop where
  sub : (s.sent ++ sends s.batch ++ sends s.queue).Sublist s.submitted
  eq : s.ended = false → s.sockets = true → s.sent ++ sends s.batch ++ sends s.queue = s.submitted
  res : ∀ m ∈ s.resolved, m ∈ s.sent

theorem ord_step (s : St) (e : Ev) (h : Ord s) : Ord (step s e) := by
  cases e with
  | request t m => simp only [step]; split; · exact h
                   · split <;> exact ⟨h.sub, h.eq, h.res⟩
  | close t => simp only [step]; split; · exact h
               · split <;> exact ⟨h.sub, h.eq, h.res⟩
  | step t =>
    simp only [step, advance]
    split
    · exact h
    · rename_i m _
      cases he : s.ended with
      | true =>
        have e1 : s.add (.send m) = s := by simp [St.add, he]
        rw [e1]
        refine ⟨?_, ?_, h.res⟩
        · exact h.sub.trans (List.sublist_append_left _ _)
        · intro hx; simp [St.goto, he] at hx
      | false =>
        have e1 : s.add (.send m) = { s with queue := s.queue ++ [.send m] } := by simp [St.add, he]
        rw [e1]
        refine ⟨?_, ?_, h.res⟩
        · simp only [St.goto, sends_append, sends]
          rw [← List.append_assoc]
          exact List.Sublist.append h.sub (List.Sublist.refl _)
        · intro _ hs
          simp only [St.goto, sends_append, sends]
          rw [← List.append_assoc, h.eq he hs]
    · refine ⟨?_, ?_, by simpa [St.goto] using h.res⟩
      · simp only [St.goto, add_fields, add_queue]
        split
        · exact h.sub
        · simpa [sends_append, sends] using h.sub
      · intro he hs
        simp only [St.goto, add_fields, add_queue] at he hs ⊢
        rw [he]
        simpa [sends_append, sends] using h.eq he hs
    · split <;> exact ⟨h.sub, h.eq, h.res⟩
    · exact ⟨h.sub, fun _ hx => (by cases hx), h.res⟩
    · exact ⟨h.sub, h.eq, h.res⟩
  | loop =>
    simp only [step, loopStep]
    split
    · exact h
    · rename_i hn
      split
      · rename_i c l hb
        have hsub := h.sub
        have heq := h.eq
        rw [hb] at hsub heq
        cases c with
        | send m =>
          simp only [callback]
          split
          · refine ⟨?_, ?_, fun m hm => List.mem_append_left _ (h.res m hm)⟩
            · simpa [sends] using hsub
            · intro he hs; simpa [sends] using heq he hs
          · rename_i hs
            refine ⟨?_, fun _ hx => absurd hx hs, h.res⟩
            refine List.Sublist.trans ?_ hsub
            simp only [sends]
            exact List.Sublist.append (List.Sublist.append (List.Sublist.refl _) (List.sublist_cons_self ..)) (List.Sublist.refl _)
        | stop => exact ⟨hsub, heq, h.res⟩
      · rename_i hb
        have hsub := h.sub
        have heq := h.eq
        rw [hb] at hsub heq
        split
        · refine ⟨?_, fun hx => (by cases hx), h.res⟩
          rw [hb]; exact hsub
        · refine ⟨?_, ?_, h.res⟩
          · simpa [sends] using hsub
          · intro he hs; simpa [sends] using heq he hs
  | reply m =>
    simp only [step]
    split
    · rename_i hc
      refine ⟨h.sub, h.eq, ?_⟩
      intro x hx
      rcases List.mem_append.1 hx with hx | hx
      · exact h.res x hx
      · rw [List.mem_singleton.1 hx]; exact hc.2.2.2.1
    · exact h

theorem ord (h : List Ev) : Ord (run h) := run_induction ⟨List.Sublist.refl _, fun _ _ => rfl, fun _ h => (by cases h)⟩ ord_step h

/-- **C87 (order)** The messages that go out are those of the calls that returned, in the order of the calls, each at most once per call; only a request that went out is answered. -/
theorem sent_in_order (h : List Ev) : (run h).sent.Sublist (run h).submitted ∧ ∀ m ∈ (run h).resolved, m ∈ (run h).sent := by
  refine ⟨?_, (ord h).res⟩
  have := (ord h).sub
  rw [List.append_assoc] at this
  exact (List.sublist_append_left _ _).trans this

/-! ### requests made before close -/

/-- no `close` in the history -/
def NoClose (h : List Ev) : Prop := ∀ t, Ev.close t ∉ h

/-- `close` is not called in the IO thread (no shutdown notification, no callback that closes the client) -/
def NoIOClose (h : List Ev) : Prop := Ev.close .io ∉ h

/-- before any close -/
structure Open (s : St) : Prop where
  pcs : ∀ t, s.pc t = .idle ∨ ∃ m, s.pc t = .sending m
  nb : Cb.stop ∉ s.batch
  nq : Cb.stop ∉ s.queue
  nf : s.flag = false
  ne : s.ended = false
  so : s.sockets = true
  cl : s.closed = false

theorem open_step (s : St) (e : Ev) (he : ∀ t, e ≠ .close t) (h : Open s) : Open (step s e) := by
  cases e with
  | request t m =>
    simp only [step]
    split
    · exact h
    · simp only [h.cl, Bool.false_eq_true, if_false]
      refine ⟨?_, h.nb, h.nq, h.nf, h.ne, h.so, h.cl⟩
      intro u
      simp only [St.goto]
      split
      · exact .inr ⟨m, rfl⟩
      · exact h.pcs u
  | close t => exact absurd rfl (he t)
  | step t =>
    rcases h.pcs t with hp | ⟨m, hp⟩
    · simpa [step, advance, hp] using h
    · simp only [step, advance, hp]
      have e1 : s.add (.send m) = { s with queue := s.queue ++ [.send m] } := by simp [St.add, h.ne]
      rw [e1]
      refine ⟨?_, h.nb, ?_, h.nf, h.ne, h.so, h.cl⟩
      · intro u
        simp only [St.goto]
        split
        · exact .inl rfl
        · exact h.pcs u
      · simp only [St.goto, List.mem_append, not_or]
        exact ⟨h.nq, by simp⟩
  | loop =>
    simp only [step, loopStep]
    split
    · exact h
    · split
      · rename_i c l hb
        have hc : c ≠ .stop := by
          intro hx; apply h.nb; rw [hb, hx]; exact List.mem_cons_self ..
        have hl : Cb.stop ∉ l := fun hx => h.nb (by rw [hb]; exact List.mem_cons_of_mem _ hx)
        cases c with
        | send m => simp only [callback, h.so, if_true]; exact ⟨h.pcs, hl, h.nq, h.nf, h.ne, rfl, h.cl⟩
        | stop => exact absurd rfl hc
      · simp only [h.nf, Bool.false_eq_true, if_false]
        exact ⟨h.pcs, h.nq, by simp, rfl, h.ne, h.so, h.cl⟩
  | reply m => simp only [step]; split <;> exact ⟨h.pcs, h.nb, h.nq, h.nf, h.ne, h.so, h.cl⟩

theorem open_run (h : List Ev) (hn : NoClose h) : Open (run h) := by
  have gen : ∀ (h : List Ev) (s : St), NoClose h → Open s → Open (h.foldl step s) := by
    intro h
    induction h with
    | nil => exact fun _ _ h => h
    | cons e t ih =>
      intro s hn hs
      exact ih _ (fun u hu => hn u (List.mem_cons_of_mem _ hu)) (open_step s e (fun u hu => hn u (hu ▸ List.mem_cons_self ..)) hs)
  exact gen h {} hn ⟨fun _ => .inl rfl, by simp, by simp, rfl, rfl, rfl, rfl⟩

/-- a request that was queued before any `stop` -/
structure Ahead (m : Nat) (s : St) : Prop where
  io : s.pc .io = .idle ∨ ∃ m, s.pc .io = .sending m
  pcs : ∀ t, s.pc t = .joined ∨ s.pc t = .socketsClosed → s.ended = true
  so : s.sockets = false → s.ended = true
  cl : s.closed = true → s.ended = true
  m : m ∈ s.sent ∨ (s.ended = false ∧ (Cb.send m ∈ s.batch ∨ (Cb.send m ∈ s.queue ∧ s.flag = false ∧ Cb.stop ∉ s.batch)))

theorem ahead_step (m : Nat) (s : St) (e : Ev) (he : e ≠ .close .io) (h : Ahead m s) : Ahead m (step s e) := by
  cases e with
  | request t k =>
    simp only [step]
    split
    · exact h
    · split
      · exact ⟨h.io, h.pcs, h.so, h.cl, h.m⟩
      · refine ⟨?_, ?_, h.so, h.cl, h.m⟩
        · simp only [St.goto]
          split
          · exact .inr ⟨k, rfl⟩
          · exact h.io
        · intro u hu
          simp only [St.goto] at hu ⊢
          split at hu
          · rcases hu with hu | hu <;> cases hu
          · exact h.pcs u hu
  | close t =>
    simp only [step]
    split
    · exact h
    · split
      · exact ⟨h.io, h.pcs, h.so, h.cl, h.m⟩
      · refine ⟨?_, ?_, h.so, h.cl, h.m⟩
        · simp only [St.goto]
          split
          · rename_i ht; exact absurd (by rw [ht]) he
          · exact h.io
        · intro u hu
          simp only [St.goto] at hu ⊢
          split at hu
          · rcases hu with hu | hu <;> cases hu
          · exact h.pcs u hu
  | step t =>
    simp only [step, advance]
    split
    · exact h
    · rename_i k hp
      refine ⟨?_, ?_, by simpa [St.goto] using h.so, by simpa [St.goto] using h.cl, ?_⟩
      · simp only [St.goto, add_fields]
        split
        · exact .inl rfl
        · exact h.io
      · intro u hu
        simp only [St.goto, add_fields] at hu ⊢
        split at hu
        · rcases hu with hu | hu <;> cases hu
        · exact h.pcs u hu
      · simp only [St.goto, add_fields, add_queue]
        rcases h.m with hm | ⟨h1, h2⟩
        · exact .inl hm
        · refine .inr ⟨h1, ?_⟩
          rcases h2 with h2 | ⟨h2, h3⟩
          · exact .inl h2
          · exact .inr ⟨by rw [h1]; exact List.mem_append_left _ h2, h3⟩
    · rename_i hp
      have hio : t ≠ .io := by
        intro hx; subst hx
        rcases h.io with h | ⟨k, h⟩ <;> rw [hp] at h <;> cases h
      refine ⟨?_, ?_, by simpa [St.goto] using h.so, by simpa [St.goto] using h.cl, ?_⟩
      · simp only [St.goto, add_fields, Ne.symm hio, if_false]
        exact h.io
      · intro u hu
        simp only [St.goto, add_fields] at hu ⊢
        by_cases hut : u = t
        · simp [hut, hio] at hu
        · simp only [hut, if_false] at hu
          exact h.pcs u hu
      · simp only [St.goto, add_fields, add_queue]
        rcases h.m with hm | ⟨h1, h2⟩
        · exact .inl hm
        · refine .inr ⟨h1, ?_⟩
          rcases h2 with h2 | ⟨h2, h3⟩
          · exact .inl h2
          · exact .inr ⟨by rw [h1]; exact List.mem_append_left _ h2, h3⟩
    · rename_i hp
      have hio : t ≠ .io := by
        intro hx; subst hx
        rcases h.io with h | ⟨k, h⟩ <;> rw [hp] at h <;> cases h
      split
      · rename_i hend
        refine ⟨?_, ?_, h.so, h.cl, h.m⟩
        · simp only [St.goto, Ne.symm hio, if_false]; exact h.io
        · exact fun _ _ => hend
      · exact h
    · rename_i hp
      have hio : t ≠ .io := by
        intro hx; subst hx
        rcases h.io with h | ⟨k, h⟩ <;> rw [hp] at h <;> cases h
      have hend := h.pcs t (.inl hp)
      refine ⟨?_, fun _ _ => hend, fun _ => hend, h.cl, h.m⟩
      simp only [St.goto, Ne.symm hio, if_false]; exact h.io
    · rename_i hp
      have hio : t ≠ .io := by
        intro hx; subst hx
        rcases h.io with h | ⟨k, h⟩ <;> rw [hp] at h <;> cases h
      have hend := h.pcs t (.inr hp)
      refine ⟨?_, fun _ _ => hend, h.so, fun _ => hend, h.m⟩
      simp only [St.goto, Ne.symm hio, if_false]; exact h.io
  | loop =>
    simp only [step, loopStep]
    split
    · exact h
    · rename_i hn
      have hne : s.ended = false := by
        cases hx : s.ended with
        | false => rfl
        | true => exact absurd (.inr hx) hn
      have hso : s.sockets = true := by
        cases hx : s.sockets with
        | true => rfl
        | false => rw [h.so hx] at hne; cases hne
      split
      · rename_i c l hb
        cases c with
        | send k =>
          simp only [callback, hso, if_true]
          refine ⟨h.io, h.pcs, fun hx => (by cases hx), h.cl, ?_⟩
          rcases h.m with hm | ⟨h1, h2⟩
          · exact .inl (List.mem_append_left _ hm)
          · rw [hb] at h2
            rcases h2 with h2 | ⟨h2, h3, h4⟩
            · rcases List.mem_cons.1 h2 with h2 | h2
              · cases h2; exact .inl (List.mem_append_right _ (List.mem_singleton.2 rfl))
              · exact .inr ⟨h1, .inl h2⟩
            · exact .inr ⟨h1, .inr ⟨h2, h3, fun hx => h4 (List.mem_cons_of_mem _ hx)⟩⟩
        | stop =>
          refine ⟨h.io, h.pcs, h.so, h.cl, ?_⟩
          rcases h.m with hm | ⟨h1, h2⟩
          · exact .inl hm
          · rw [hb] at h2
            rcases h2 with h2 | ⟨h2, h3, h4⟩
            · rcases List.mem_cons.1 h2 with h2 | h2
              · cases h2
              · exact .inr ⟨h1, .inl h2⟩
            · exact absurd (List.mem_cons_self ..) h4
      · rename_i hb
        split
        · rename_i hf
          refine ⟨h.io, fun _ _ => rfl, fun _ => rfl, fun _ => rfl, ?_⟩
          rcases h.m with hm | ⟨h1, h2⟩
          · exact .inl hm
          · rw [hb] at h2
            rcases h2 with h2 | ⟨h2, h3, h4⟩
            · cases h2
            · rw [hf] at h3; cases h3
        · refine ⟨h.io, h.pcs, h.so, h.cl, ?_⟩
          rcases h.m with hm | ⟨h1, h2⟩
          · exact .inl hm
          · rw [hb] at h2
            rcases h2 with h2 | ⟨h2, h3, h4⟩
            · cases h2
            · exact .inr ⟨h1, .inl h2⟩
  | reply k => simp only [step]; split <;> exact ⟨h.io, h.pcs, h.so, h.cl, h.m⟩

theorem mem_sends {m : Nat} : ∀ {l : List Cb}, m ∈ sends l ↔ Cb.send m ∈ l
  | [] => by simp [sends]
  | .send k :: l => by simp [sends, mem_sends (l := l)]
  | .stop :: l => by simp [sends, mem_sends (l := l)]

/-- **C87 (requests before close are sent)** Every request whose call returned before any call of `close()` began has been given to its socket when a `close()` returns, whatever the threads do in between — provided that the client is not closed by its
own IO thread (a shutdown notification; see `lost_at_shutdown_violated`). -/
theorem sent_before_close_partial (h h' : List Ev) (hn : NoClose h) (hio : NoIOClose h') (m : Nat) (hm : m ∈ (run h).submitted) (hr : (run (h ++ h')).returned ≠ []) : m ∈ (run (h ++ h')).sent := by
  have ho := open_run h hn
  have hord := (ord h).eq ho.ne ho.so
  have h0 : Ahead m (run h) := by
    refine ⟨ho.pcs .io, ?_, ?_, ?_, ?_⟩
    · intro t ht
      rcases ho.pcs t with hp | ⟨k, hp⟩ <;> rw [hp] at ht <;> rcases ht with ht | ht <;> cases ht
    · intro hx; rw [ho.so] at hx; cases hx
    · intro hx; rw [ho.cl] at hx; cases hx
    · rw [← hord] at hm
      rcases List.mem_append.1 hm with hm | hm
      · rcases List.mem_append.1 hm with hm | hm
        · exact .inl hm
        · exact .inr ⟨ho.ne, .inl (mem_sends.1 hm)⟩
      · exact .inr ⟨ho.ne, .inr ⟨mem_sends.1 hm, ho.nf, ho.nb⟩⟩
  have key : ∀ (h' : List Ev) (s : St), NoIOClose h' → Ahead m s → Ahead m (h'.foldl step s) := by
    intro h'
    induction h' with
    | nil => exact fun _ _ h => h
    | cons e t ih =>
      intro s hn hs
      exact ih _ (fun hu => hn (List.mem_cons_of_mem _ hu)) (ahead_step m s e (fun hu => hn (hu ▸ List.mem_cons_self ..)) hs)
  have h1 := key h' (run h) hio h0
  rw [← run_append] at h1
  have hend := h1.cl ((inv (h ++ h')).ret hr)
  rcases h1.m with h | ⟨h, _⟩
  · exact h
  · rw [hend] at h; cases h

/-! ### witnesses -/

/-- two requests of one thread, then `close` -/
def exClose : List Ev := [.request (.app 0) 1, .step (.app 0), .request (.app 0) 2, .step (.app 0), .close (.app 0), .step (.app 0), .loop, .loop, .reply 1, .loop, .loop, .loop, .step (.app 0), .step (.app 0), .step (.app 0)]

example : (run exClose).sent = [1, 2] ∧ (run exClose).resolved = [1] ∧ (run exClose).returned = [.app 0] ∧ (run (exClose ++ [.request (.app 0) 3])).refused = [3] := by decide

/-- **C87 VIOLATED**: "after close(), waiting for a result ends". A request that was sent and not answered before `close()`: its future is never done, whatever happens after. -/
theorem pending_forever_violated : (run exClose).returned = [.app 0] ∧ 2 ∈ (run exClose).sent ∧ ∀ h, 2 ∉ (run (exClose ++ h)).resolved := by
  refine ⟨by decide, by decide, fun h => ?_⟩
  rw [(nothing_after_close exClose h (by decide)).2]
  decide

/-- another thread makes a request while a thread is in `close` -/
def exRace : List Ev := [.close (.app 0), .step (.app 0), .loop, .loop, .loop, .request (.app 1) 7, .step (.app 1), .step (.app 0), .step (.app 0), .step (.app 0)]

/-- **C87 VIOLATED**: "a request either raises or is sent". A request of another thread during `close()`: it is accepted, a future is returned, and it is neither sent nor ever answered. -/
theorem lost_in_race_violated : 7 ∈ (run exRace).submitted ∧ (run exRace).refused = [] ∧ ∀ h, 7 ∉ (run (exRace ++ h)).sent ∧ 7 ∉ (run (exRace ++ h)).resolved := by
  refine ⟨by decide, by decide, fun h => ?_⟩
  have := nothing_after_close exRace h (by decide)
  rw [this.1, this.2]
  decide

/-- the hub's shutdown notification arrives before the loop has sent a request -/
def exShutdown : List Ev := [.request (.app 0) 7, .step (.app 0), .close .io, .step .io, .step .io, .step .io]

/-- **C87 VIOLATED**: "a request whose call returned before close() began is sent". The shutdown notification closes the client in the IO thread, before the queued requests are sent. -/
theorem lost_at_shutdown_violated : NoClose (exShutdown.take 2) ∧ 7 ∈ (run (exShutdown.take 2)).submitted ∧ (run exShutdown).returned = [.io] ∧ ∀ h, 7 ∉ (run (exShutdown ++ h)).sent ∧ 7 ∉ (run (exShutdown ++ h)).resolved := by
  refine ⟨?_, by decide, by decide, fun h => ?_⟩
  · intro t ht; simp [exShutdown] at ht
  have := nothing_after_close exShutdown h (by decide)
  rw [this.1, this.2]
  decide

end IPP.ClientClose
