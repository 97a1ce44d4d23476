/-!
# Waiting for engines (property C72) — client.py:1452-1610 (`wait_for_engines`), 845-872 (notifications)

Any number of calls of `wait_for_engines` (from several threads, or with `block=False`), and the input thread that handles the hub's notifications. The calling thread
takes two steps: the check of the number of engines (1495), and the registration of its callback (1577), with the input thread working in between. The input thread
handles one notification after another; it calls the callbacks in a `for` loop over a list from which callbacks remove themselves (1578), as Python does: by index.

Not modelled: the progress bar; the number of engines taken from the cluster (1484-1493); that the timer is started in the input thread a little after the call.
-/
namespace IPP.WaitEngines

/-- a notification of the hub — client/client.py:1102-1110 -/
inductive Note where
  | register (e : Nat)
  | unregister (e : Nat)
  deriving DecidableEq, Repr

/-- `wait_for_engines` — client/client.py:1449-1613 -/
inductive Outcome where
  | ok
  | timeout
  /-- EngineError: an engine unregistered, or an engine set of the cluster stopped -/
  | engineError
  /-- the user cancelled the future -/
  | cancelled
  deriving DecidableEq, Repr

/-- `wait_for_engines` — client/client.py:1449-1613 -/
inductive Pc where
  /-- the number of engines was not sufficient; the callback is not registered yet -/
  | checked
  | waiting
  | over (o : Outcome)
  deriving DecidableEq, Repr

/-- a call — `wait_for_engines` — client/client.py:1449-1613 -/
structure Wait where
  n : Nat
  /-- a timeout was given -/
  timed : Bool
  pc : Pc
  deriving DecidableEq, Repr

/-- client/client.py:1102-1110, 1449-1613 -/
structure S where
  /-- `client.ids` -/
  ids : List Nat
  /-- notifications that have arrived and are not yet handled -/
  inbox : List Note
  /-- the calls, by number -/
  ws : Nat → Option Wait
  /-- `_registration_callbacks` -/
  cbs : List Nat
  /-- the input thread is calling the callbacks for this notification; the index of the `for` loop -/
  io : Option (Note × Nat)

/-- client/client.py:1449-1613 -/
def init : S := { ids := [], inbox := [], ws := fun _ => none, cbs := [], io := none }

/-- client/client.py:1102-1110, 1449-1613 -/
inductive Ev where
  /-- call number `w` for `n` engines, up to the check -/
  | call (w n : Nat) (timed : Bool)
  /-- it registers its callback, and waits -/
  | enter (w : Nat)
  /-- a notification arrives -/
  | note (k : Note)
  /-- the input thread takes the next notification -/
  | take
  /-- the input thread goes on in its loop over the callbacks -/
  | cb
  /-- the timeout of a call is reached -/
  | timer (w : Nat)
  /-- the cluster tells that a set of engines stopped -/
  | stopped (w : Nat)
  /-- the user cancels the future of a call that does not block -/
  | cancel (w : Nat)
  deriving DecidableEq, Repr

/-- `_update_engines`, `_unregister_engine` on the ids — client.py:845-872 -/
def upd (ids : List Nat) : Note → List Nat
  | .register e => if e ∈ ids then ids else ids ++ [e]
  | .unregister e => ids.filter (fun x => x ≠ e)

/-- the call is over: its future gets an outcome, whose callback removes `notify` — client.py:1578 -/
def resolve (s : S) (w : Nat) (o : Outcome) : S := match s.ws w with
  | none => s
  | some x => { s with ws := fun v => if v = w then some { x with pc := .over o } else s.ws v, cbs := s.cbs.erase w }

/-- `notify` — client.py:1557-1575 -/
def notify (s : S) (w : Nat) (k : Note) : S := match s.ws w with
  | none => s
  | some x => if x.pc = .waiting then match k with
      | .unregister _ => resolve s w .engineError
      | .register _ => if x.n ≤ s.ids.length then resolve s w .ok else s
    else s

/-- one step of `for callback in self._registration_callbacks` — client.py:853-854, 871-872 -/
def loop (s : S) : S := match s.io with
  | none => s
  | some (k, i) => match s.cbs[i]? with
    | none => { s with io := none }
    | some w => { notify s w k with io := some (k, i + 1) }

def step (s : S) : Ev → S
  | .call w n timed => match s.ws w with
    | some _ => s -- numbers are used once
    | none => { s with ws := fun v => if v = w then some { n := n, timed := timed, pc := if n ≤ s.ids.length then .over .ok else .checked } else s.ws v }
  | .enter w => match s.ws w with
    | none => s
    | some x => if x.pc = .checked then { s with ws := fun v => if v = w then some { x with pc := .waiting } else s.ws v, cbs := s.cbs ++ [w] } else s
  | .note k => { s with inbox := s.inbox ++ [k] }
  | .take => match s.io, s.inbox with
    | none, k :: l => { s with inbox := l, ids := upd s.ids k, io := some (k, 0) }
    | _, _ => s
  | .cb => loop s
  | .timer w => match s.io, s.ws w with -- `on_timeout` runs in the input thread — client.py:1580-1595
    | none, some x => if x.pc = .waiting ∧ x.timed = true then resolve s w (if x.n ≤ s.ids.length then .ok else .timeout) else s
    | _, _ => s
  | .stopped w => match s.ws w with -- 1524-1555
    | none => s
    | some x => if x.pc = .waiting ∨ x.pc = .checked then resolve s w .engineError else s
  | .cancel w => match s.ws w with
    | none => s
    | some x => if x.pc = .waiting then resolve s w .cancelled else s

/-- any interleaving of the threads of client/client.py:1080-1110, 1449-1613 -/
def run (h : List Ev) : S := h.foldl step init

/-! ## Specification vocabulary -/

/-- the notifications of a history -/
def notes (h : List Ev) : List Note := h.filterMap (fun e => match e with
  | .note k => some k
  | _ => none)

/-- the call `w` is over with outcome `o` -/
def Over (h : List Ev) (w : Nat) (o : Outcome) : Prop := ∃ x, (run h).ws w = some x ∧ x.pc = .over o

/-- the call `w` is waiting, for `n` engines -/
def Waiting (h : List Ev) (w n : Nat) : Prop := ∃ x, (run h).ws w = some x ∧ x.pc = .waiting ∧ x.n = n

/-! ## Lemmas -/

theorem run_snoc (h : List Ev) (e : Ev) : run (h ++ [e]) = step (run h) e := by simp [run]

theorem snoc_ind {α : Type} {P : List α → Prop} (h0 : P []) (h1 : ∀ l a, P l → P (l ++ [a])) : ∀ l, P l := by
  intro l
  have : ∀ l : List α, P l.reverse := by
    intro l
    induction l with
    | nil => simpa using h0
    | cons a l ih => simpa using h1 _ a ih
  simpa using this l.reverse

/-- Every step acts on one call at most, in one of these ways. -/
inductive Change (s : S) (e : Ev) (w : Nat) : Option Wait → Prop
  | same : Change s e w (s.ws w)
  | called (n : Nat) (t : Bool) : s.ws w = none → e = .call w n t → Change s e w (some { n := n, timed := t, pc := if n ≤ s.ids.length then .over .ok else .checked })
  | entered (x : Wait) : s.ws w = some x → x.pc = .checked → e = .enter w → Change s e w (some { x with pc := .waiting })
  | success (x : Wait) : s.ws w = some x → x.pc = .waiting → x.n ≤ s.ids.length → Change s e w (some { x with pc := .over .ok })
  | timeout (x : Wait) : s.ws w = some x → x.pc = .waiting → x.timed = true → e = .timer w → s.ids.length < x.n → Change s e w (some { x with pc := .over .timeout })
  | stopped (x : Wait) : s.ws w = some x → (x.pc = .waiting ∨ x.pc = .checked) → e = .stopped w → Change s e w (some { x with pc := .over .engineError })
  | gone (x : Wait) (i k : Nat) : s.ws w = some x → x.pc = .waiting → s.io = some (.unregister i, k) → s.cbs[k]? = some w → e = .cb → Change s e w (some { x with pc := .over .engineError })
  | cancelled (x : Wait) : s.ws w = some x → x.pc = .waiting → e = .cancel w → Change s e w (some { x with pc := .over .cancelled })

theorem resolve_ws (s : S) (w : Nat) (o : Outcome) (x : Wait) (hx : s.ws w = some x) (v : Nat) : (resolve s w o).ws v = if v = w then some { x with pc := .over o } else s.ws v := by
  simp [resolve, hx]

theorem change (s : S) (e : Ev) (w : Nat) : Change s e w ((step s e).ws w) := by
  cases e with
  | call v n t =>
    simp only [step]
    split
    · exact .same
    · rename_i hn
      by_cases hv : w = v
      · subst hv; simp; exact .called n t hn rfl
      · simp [hv]; exact .same
  | enter v =>
    simp only [step]
    split
    · exact .same
    · rename_i x hx
      split
      · rename_i hp
        by_cases hv : w = v
        · subst hv; simp; exact .entered x hx hp rfl
        · simp [hv]; exact .same
      · exact .same
  | note k => exact .same
  | take =>
    simp only [step]
    split <;> exact .same
  | cb =>
    simp only [step, loop]
    split
    · exact .same
    · rename_i k i hio
      split
      · exact .same
      · rename_i v hv
        simp only [notify]
        split
        · exact .same
        · rename_i x hx
          split
          · rename_i hp
            cases k with
            | unregister j =>
              simp only [resolve_ws s v _ x hx]
              by_cases hw : w = v
              · subst hw; simp; exact .gone x j i hx hp hio hv rfl
              · simp [hw]; exact .same
            | register j =>
              simp only
              split
              · rename_i hn
                simp only [resolve_ws s v _ x hx]
                by_cases hw : w = v
                · subst hw; simp; exact .success x hx hp hn
                · simp [hw]; exact .same
              · exact .same
          · exact .same
  | timer v =>
    simp only [step]
    split
    · rename_i x hio hx
      split
      · rename_i hp
        simp only [resolve_ws s v _ x hx]
        by_cases hw : w = v
        · subst hw
          simp only [if_true]
          split
          · rename_i hn; exact .success x hx hp.1 hn
          · rename_i hn; exact .timeout x hx hp.1 hp.2 rfl (by omega)
        · simp [hw]; exact .same
      · exact .same
    · exact .same
  | stopped v =>
    simp only [step]
    split
    · exact .same
    · rename_i x hx
      split
      · rename_i hp
        simp only [resolve_ws s v _ x hx]
        by_cases hw : w = v
        · subst hw; simp; exact .stopped x hx hp rfl
        · simp [hw]; exact .same
      · exact .same
  | cancel v =>
    simp only [step]
    split
    · exact .same
    · rename_i x hx
      split
      · rename_i hp
        simp only [resolve_ws s v _ x hx]
        by_cases hw : w = v
        · subst hw; simp; exact .cancelled x hx hp rfl
        · simp [hw]; exact .same
      · exact .same

theorem resolve_rest (s : S) (w : Nat) (o : Outcome) : (resolve s w o).ids = s.ids ∧ (resolve s w o).inbox = s.inbox ∧ (resolve s w o).io = s.io := by
  unfold resolve; split <;> simp

theorem notify_rest (s : S) (w : Nat) (k : Note) : (notify s w k).ids = s.ids ∧ (notify s w k).inbox = s.inbox ∧ (notify s w k).io = s.io := by
  unfold notify
  repeat' split
  all_goals first
    | exact resolve_rest _ _ _
    | simp

/-- the ids, as the notifications handled left them -/
theorem ids_fold (h : List Ev) : ∃ p, p ++ (run h).inbox = notes h ∧ (run h).ids = p.foldl upd [] := by
  induction h using snoc_ind with
  | h0 => exact ⟨[], rfl, rfl⟩
  | h1 l a ih =>
    obtain ⟨p, h1, h2⟩ := ih
    rw [run_snoc]
    have same : ∀ s' : S, s'.ids = (run l).ids → s'.inbox = (run l).inbox → notes (l ++ [a]) = notes l → ∃ p, p ++ s'.inbox = notes (l ++ [a]) ∧ s'.ids = p.foldl upd [] := by
      intro s' e1 e2 e3
      exact ⟨p, by rw [e2, e3, h1], by rw [e1, h2]⟩
    cases a with
    | call w n t => apply same <;> (first | (simp only [step]; split <;> rfl) | simp [notes])
    | enter w =>
      apply same
      · simp only [step]
        repeat' split
        all_goals rfl
      · simp only [step]
        repeat' split
        all_goals rfl
      · simp [notes]
    | note k => exact ⟨p, by simp [step, notes, ← List.append_assoc, h1], h2⟩
    | take =>
      simp only [step]
      split
      · rename_i k r hio hin
        exact ⟨p ++ [k], by rw [hin] at h1; rw [show notes (l ++ [.take]) = notes l by simp [notes], ← h1]; simp, by simp [h2]⟩
      · exact same _ rfl rfl (by simp [notes])
    | cb =>
      apply same
      · simp only [step, loop]
        repeat' split
        all_goals first | rfl | exact (notify_rest _ _ _).1
      · simp only [step, loop]
        repeat' split
        all_goals first | rfl | exact (notify_rest _ _ _).2.1
      · simp [notes]
    | timer w =>
      apply same
      · simp only [step]
        repeat' split
        all_goals first | rfl | exact (resolve_rest _ _ _).1
      · simp only [step]
        repeat' split
        all_goals first | rfl | exact (resolve_rest _ _ _).2.1
      · simp [notes]
    | stopped w =>
      apply same
      · simp only [step]
        repeat' split
        all_goals first | rfl | exact (resolve_rest _ _ _).1
      · simp only [step]
        repeat' split
        all_goals first | rfl | exact (resolve_rest _ _ _).2.1
      · simp [notes]
    | cancel w =>
      apply same
      · simp only [step]
        repeat' split
        all_goals first | rfl | exact (resolve_rest _ _ _).1
      · simp only [step]
        repeat' split
        all_goals first | rfl | exact (resolve_rest _ _ _).2.1
      · simp [notes]


theorem upd_known (p : List Note) : (p.foldl upd []).Nodup ∧ ∀ e, e ∈ p.foldl upd [] ↔ ∃ a b, p = a ++ .register e :: b ∧ Note.unregister e ∉ b := by
  induction p using snoc_ind with
  | h0 => simp
  | h1 p k ih =>
    obtain ⟨hn, hm⟩ := ih
    rw [List.foldl_append, List.foldl_cons, List.foldl_nil]
    have keep : ∀ e, k ≠ .register e → k ≠ .unregister e →
        ((∃ a b, p ++ [k] = a ++ .register e :: b ∧ Note.unregister e ∉ b) ↔ ∃ a b, p = a ++ .register e :: b ∧ Note.unregister e ∉ b) := by
      intro e h1 h2
      constructor
      · rintro ⟨a, b, h, hb⟩
        rcases List.eq_nil_or_concat b with rfl | ⟨b', x, rfl⟩
        · have := congrArg List.getLast? h
          simp at this; exact absurd this h1
        · have hx : x = k := by
            have := congrArg List.getLast? (show p ++ [k] = (a ++ .register e :: b') ++ [x] by simpa using h)
            simp only [List.getLast?_concat, Option.some.injEq] at this; exact this.symm
          subst hx
          refine ⟨a, b', ?_, fun hc => hb (by simp [hc])⟩
          have : p ++ [x] = (a ++ .register e :: b') ++ [x] := by simpa using h
          exact List.append_cancel_right this
      · rintro ⟨a, b, h, hb⟩
        exact ⟨a, b ++ [k], by simp [h], by simp [hb, Ne.symm h2]⟩
    cases k with
    | register i =>
      simp only [upd]
      refine ⟨?_, ?_⟩
      · split
        · exact hn
        · rename_i hi
          exact List.nodup_append.2 ⟨hn, by simp, fun x hx y hy => by simp at hy; subst hy; exact fun hc => hi (hc ▸ hx)⟩
      · intro e
        by_cases he : e = i
        · subst he
          refine iff_of_true ?_ ⟨p, [], rfl, by simp⟩
          split
          · assumption
          · simp
        · rw [keep e (by simp [Ne.symm he]) (by simp), ← hm e]
          split
          · rfl
          · simp [he]
    | unregister i =>
      simp only [upd]
      refine ⟨hn.filter _, ?_⟩
      intro e
      by_cases he : e = i
      · subst he
        refine iff_of_false (by simp) ?_
        rintro ⟨a, b, h, hb⟩
        rcases List.eq_nil_or_concat b with rfl | ⟨b', x, rfl⟩
        · have := congrArg List.getLast? h
          simp at this
        · have hx : x = .unregister e := by
            have := congrArg List.getLast? (show p ++ [.unregister e] = (a ++ .register e :: b') ++ [x] by simpa using h)
            simp only [List.getLast?_concat, Option.some.injEq] at this; exact this.symm
          exact hb (by simp [hx])
      · rw [keep e (by simp) (by simp [Ne.symm he]), ← hm e]
        simp [he]

/-- **C72 (0)** The engines known to the client are those that registered and did not unregister since, according to the notifications it has handled: a prefix of those that arrived. -/
theorem ids_known (h : List Ev) : ∃ p, p ++ (run h).inbox = notes h ∧ (run h).ids.Nodup ∧
    ∀ e, e ∈ (run h).ids ↔ ∃ a b, p = a ++ .register e :: b ∧ Note.unregister e ∉ b := by
  obtain ⟨p, h1, h2⟩ := ids_fold h
  exact ⟨p, h1, by rw [h2]; exact (upd_known p).1, by rw [h2]; exact (upd_known p).2⟩

end IPP.WaitEngines
