import Verif.View.Flags

/-!
# C51 with threads: `save_ids` — view.py:34-46

Calls of a view's methods from several threads (the input thread of an `imap` is one), and requests of other views of the same client, in any interleaving. A call reads the length of the client's
history, sends its messages, reads the length again, and copies the end of the client's history. Each of these is one step. The sending of a message and its appending to the client's history are one
step (client.py:1310-1330).
-/
namespace IPP.SaveIds
open IPP.View (lastN)

/-- a call, by what it has done — client/view.py:35-46 -/
inductive Ph where
  /-- in `f`; `n_previous` -/
  | inside (prev : Nat)
  /-- `nmsgs` is computed -/
  | counted (n : Nat)
  | over
  deriving DecidableEq, Repr

/-- client/view.py:35-46 -/
structure S where
  /-- `client.history` -/
  client : List Nat
  /-- `view.history` -/
  view : List Nat
  /-- the calls, by number -/
  ph : Nat → Option Ph

/-- client/view.py:35-46 -/
inductive Ev where
  /-- call number `c` begins: `n_previous = len(self.client.history)` -/
  | enter (c : Nat)
  /-- it sends a message -/
  | send (c m : Nat)
  /-- another view sends a message -/
  | other (m : Nat)
  /-- `nmsgs = len(self.client.history) - n_previous` -/
  | count (c : Nat)
  /-- `self.history.extend(self.client.history[-nmsgs:])` -/
  | copy (c : Nat)
  deriving DecidableEq, Repr

/-- client/view.py:35-46 -/
def S.set (s : S) (c : Nat) (p : Ph) : S := { s with ph := fun x => if x = c then some p else s.ph x }

/-- client/view.py:35-46 -/
def step (s : S) : Ev → S
  | .enter c => match s.ph c with
    | none => s.set c (.inside s.client.length)
    | some _ => s -- numbers are used once
  | .send c m => match s.ph c with
    | some (.inside _) => { s with client := s.client ++ [m] }
    | _ => s
  | .other m => { s with client := s.client ++ [m] }
  | .count c => match s.ph c with
    | some (.inside prev) => s.set c (.counted (s.client.length - prev))
    | _ => s
  | .copy c => match s.ph c with
    | some (.counted n) => { s with view := s.view ++ lastN s.client n }.set c .over
    | _ => s

/-- any interleaving of the threads — client/view.py:35-46 -/
def run (h : List Ev) : S := h.foldl step { client := [], view := [], ph := fun _ => none }

/-! ## Specification vocabulary -/

/-- call `c` sent message `m` in the history `h` -/
def Sent (h : List Ev) (c m : Nat) : Prop := ∃ a b prev, h = a ++ .send c m :: b ∧ (run a).ph c = some (.inside prev)

/-- an event that puts something into the client's history -/
def Ev.sends : Ev → Bool
  | .send _ _ => true
  | .other _ => true
  | _ => false

/-! ## proofs -/

theorem run_snoc (h : List Ev) (e : Ev) : run (h ++ [e]) = step (run h) e := by simp [run]

theorem snoc_ind {α : Type} {P : List α → Prop} (h0 : P []) (h1 : ∀ l a, P l → P (l ++ [a])) : ∀ l, P l := by
  intro l
  have : ∀ l : List α, P l.reverse := by
    intro l
    induction l with
    | nil => simpa using h0
    | cons a l ih => simpa using h1 _ a ih
  simpa using this l.reverse

theorem mem_lastN {l : List Nat} {n m : Nat} (h : m ∈ lastN l n) : m ∈ l := by
  unfold lastN at h
  split at h
  · exact h
  · exact List.mem_of_mem_drop h

/-- **C51 (2)** Whatever the threads do, a view's history holds only ids that were sent through its client. -/
theorem recorded_was_sent (h : List Ev) : ∀ m ∈ (run h).view, m ∈ (run h).client := by
  induction h using snoc_ind with
  | h0 => simp [run]
  | h1 l e ih =>
    rw [run_snoc]
    cases e with
    | enter c => simp only [step]; split <;> exact ih
    | send c m =>
      simp only [step]; split
      · intro x hx; exact List.mem_append_left _ (ih x hx)
      · exact ih
    | other m => intro x hx; exact List.mem_append_left _ (ih x hx)
    | count c => simp only [step]; split <;> exact ih
    | copy c =>
      simp only [step]; split
      · intro x hx
        simp only [S.set, List.mem_append] at hx ⊢
        rcases hx with hx | hx
        · exact ih x hx
        · exact mem_lastN hx
      · exact ih

/-- **C51 (2')** … and an id recorded stays recorded: the history only grows at its end. -/
theorem history_grows (h rest : List Ev) : (run h).view <+: (run (h ++ rest)).view := by
  induction rest using snoc_ind with
  | h0 => simp
  | h1 l e ih =>
    rw [← List.append_assoc, run_snoc]
    refine ih.trans ?_
    generalize run (h ++ l) = s
    cases e with
    | enter c => simp only [step]; split <;> exact List.prefix_refl _
    | send c m => simp only [step]; split <;> exact List.prefix_refl _
    | other m => exact List.prefix_refl _
    | count c => simp only [step]; split <;> exact List.prefix_refl _
    | copy c =>
      simp only [step]; split
      · exact List.prefix_append _ _
      · exact List.prefix_refl _

theorem sent_snoc {h : List Ev} {e : Ev} {c m : Nat} (hs : Sent (h ++ [e]) c m) : Sent h c m ∨ (e = .send c m ∧ ∃ prev, (run h).ph c = some (.inside prev)) := by
  obtain ⟨a, b, prev, he, hp⟩ := hs
  rcases List.eq_nil_or_concat b with rfl | ⟨b', x, rfl⟩
  · have he' : h ++ [e] = a ++ [.send c m] := he
    have := List.append_inj' he' rfl
    right
    refine ⟨by simpa using this.2, prev, ?_⟩
    rw [this.1]; exact hp
  · have he' : h ++ [e] = (a ++ .send c m :: b') ++ [x] := by simpa using he
    have := List.append_inj' he' rfl
    exact .inl ⟨a, b', prev, this.1, hp⟩

theorem no_sent_nil (c m : Nat) : ¬ Sent [] c m := by
  rintro ⟨a, b, prev, he, -⟩
  simp at he

/-- while a call is in `f`, what it sent is at the end of the client's history; before it began it sent nothing -/
theorem inside_inv (h : List Ev) (c : Nat) : ((run h).ph c = none → ∀ m, ¬ Sent h c m) ∧
    ∀ prev, (run h).ph c = some (.inside prev) → prev ≤ (run h).client.length ∧ ∀ m, Sent h c m → m ∈ (run h).client.drop prev := by
  induction h using snoc_ind with
  | h0 => exact ⟨fun _ m => no_sent_nil c m, fun prev hp => by simp [run] at hp⟩
  | h1 l e ih =>
    obtain ⟨ih0, ih1⟩ := ih
    rw [run_snoc]
    have grow : ∀ (x prev : Nat), prev ≤ (run l).client.length → ∀ m, m ∈ (run l).client.drop prev → m ∈ ((run l).client ++ [x]).drop prev := by
      intro x prev hp m hm
      rw [List.drop_append_of_le_length hp]
      exact List.mem_append_left _ hm
    have notsend : (∀ m, e ≠ .send c m) → ∀ m, Sent (l ++ [e]) c m → Sent l c m := by
      intro hn m hs
      rcases sent_snoc hs with hs | ⟨he, -⟩
      · exact hs
      · exact absurd he (hn m)
    cases e with
    | enter c' =>
      have hn := notsend (by intro m hc; cases hc)
      simp only [step]
      split
      · rename_i hc'
        by_cases hcc : c = c'
        · subst hcc
          refine ⟨fun hp => by simp [S.set] at hp, fun prev hp => ?_⟩
          simp only [S.set, if_true, Option.some.injEq, Ph.inside.injEq] at hp ⊢
          subst hp
          exact ⟨Nat.le_refl _, fun m hs => absurd (hn m hs) (ih0 hc' m)⟩
        · simp only [S.set, hcc, if_false]
          exact ⟨fun hp m hs => ih0 hp m (hn m hs), fun prev hp => ⟨(ih1 prev hp).1, fun m hs => (ih1 prev hp).2 m (hn m hs)⟩⟩
      · exact ⟨fun hp m hs => ih0 hp m (hn m hs), fun prev hp => ⟨(ih1 prev hp).1, fun m hs => (ih1 prev hp).2 m (hn m hs)⟩⟩
    | send c' x =>
      have key : ∀ s' : S, s'.ph = (run l).ph → (s'.client = (run l).client ∧ (∀ p, (run l).ph c' ≠ some (.inside p)) ∨ s'.client = (run l).client ++ [x]) →
          (s'.ph c = none → ∀ m, ¬ Sent (l ++ [.send c' x]) c m) ∧
          ∀ prev, s'.ph c = some (.inside prev) → prev ≤ s'.client.length ∧ ∀ m, Sent (l ++ [.send c' x]) c m → m ∈ s'.client.drop prev := by
        intro s' h1 h2
        rw [h1]
        refine ⟨fun hp m hs => ?_, fun prev hp => ?_⟩
        · rcases sent_snoc hs with hs | ⟨-, p, hp'⟩
          · exact ih0 hp m hs
          · rw [hp] at hp'; cases hp'
        · obtain ⟨i1, i2⟩ := ih1 prev hp
          rcases h2 with ⟨h2, h3⟩ | h2
          · rw [h2]
            refine ⟨i1, fun m hs => ?_⟩
            rcases sent_snoc hs with hs | ⟨he, p, hp'⟩
            · exact i2 m hs
            · cases he; exact absurd hp' (h3 p)
          · rw [h2]
            refine ⟨by simp only [List.length_append, List.length_singleton]; omega, fun m hs => ?_⟩
            rcases sent_snoc hs with hs | ⟨he, p, hp'⟩
            · exact grow x prev i1 m (i2 m hs)
            · cases he
              rw [List.drop_append_of_le_length i1]; simp
      simp only [step]
      split
      · exact key _ rfl (.inr rfl)
      · rename_i hno
        exact key _ rfl (.inl ⟨rfl, fun p hp => hno p hp⟩)
    | other x =>
      have hn := notsend (by intro m hc; cases hc)
      simp only [step]
      refine ⟨fun hp m hs => ih0 hp m (hn m hs), fun prev hp => ?_⟩
      obtain ⟨i1, i2⟩ := ih1 prev hp
      exact ⟨by simp only [List.length_append, List.length_singleton]; omega, fun m hs => grow x prev i1 m (i2 m (hn m hs))⟩
    | count c' =>
      have hn := notsend (by intro m hc; cases hc)
      simp only [step]
      split
      · by_cases hcc : c = c'
        · subst hcc
          exact ⟨fun hp => by simp [S.set] at hp, fun prev hp => by simp [S.set] at hp⟩
        · simp only [S.set, hcc, if_false]
          exact ⟨fun hp m hs => ih0 hp m (hn m hs), fun prev hp => ⟨(ih1 prev hp).1, fun m hs => (ih1 prev hp).2 m (hn m hs)⟩⟩
      · exact ⟨fun hp m hs => ih0 hp m (hn m hs), fun prev hp => ⟨(ih1 prev hp).1, fun m hs => (ih1 prev hp).2 m (hn m hs)⟩⟩
    | copy c' =>
      have hn := notsend (by intro m hc; cases hc)
      simp only [step]
      split
      · by_cases hcc : c = c'
        · subst hcc
          exact ⟨fun hp => by simp [S.set] at hp, fun prev hp => by simp [S.set] at hp⟩
        · simp only [S.set, hcc, if_false]
          exact ⟨fun hp m hs => ih0 hp m (hn m hs), fun prev hp => ⟨(ih1 prev hp).1, fun m hs => (ih1 prev hp).2 m (hn m hs)⟩⟩
      · exact ⟨fun hp m hs => ih0 hp m (hn m hs), fun prev hp => ⟨(ih1 prev hp).1, fun m hs => (ih1 prev hp).2 m (hn m hs)⟩⟩

/-- events without sending, of other calls, leave the client's history and this call as they are -/
theorem quiet (mid : List Ev) (c : Nat) (h1 : ∀ e ∈ mid, e.sends = false) (h2 : Ev.enter c ∉ mid ∧ Ev.count c ∉ mid ∧ Ev.copy c ∉ mid) (s : S) :
    (mid.foldl step s).client = s.client ∧ (mid.foldl step s).ph c = s.ph c := by
  induction mid generalizing s with
  | nil => exact ⟨rfl, rfl⟩
  | cons e mid ih =>
    simp only [List.foldl_cons]
    simp only [List.mem_cons, not_or] at h2
    obtain ⟨i1, i2⟩ := ih (fun x hx => h1 x (by simp [hx])) ⟨h2.1.2, h2.2.1.2, h2.2.2.2⟩ (step s e)
    rw [i1, i2]
    have he := h1 e (by simp)
    cases e with
    | enter c' =>
      have : c ≠ c' := fun hc => h2.1.1 (by rw [hc])
      simp only [step]; split <;> simp [S.set, this]
    | send c' m => simp [Ev.sends] at he
    | other m => simp [Ev.sends] at he
    | count c' =>
      have : c ≠ c' := fun hc => h2.2.1.1 (by rw [hc])
      simp only [step]; split <;> simp [S.set, this]
    | copy c' =>
      have : c ≠ c' := fun hc => h2.2.2.1 (by rw [hc])
      simp only [step]; split <;> simp [S.set, this]

/-- **C51 (3)** A call records everything that it sent, whatever other threads send meanwhile, provided that nobody sends between its last two steps. -/
theorem own_recorded_partial (h mid : List Ev) (c prev : Nat) (hin : (run h).ph c = some (.inside prev)) (h1 : ∀ e ∈ mid, e.sends = false)
    (h2 : Ev.enter c ∉ mid ∧ Ev.count c ∉ mid ∧ Ev.copy c ∉ mid) :
    ∀ m, Sent h c m → m ∈ (run (h ++ .count c :: mid ++ [.copy c])).view := by
  intro m hs
  obtain ⟨hle, hall⟩ := (inside_inv h c).2 prev hin
  have hm := hall m hs
  have e1 : run (h ++ .count c :: mid ++ [.copy c]) = step (mid.foldl step ((run h).set c (.counted ((run h).client.length - prev)))) (.copy c) := by
    rw [run_snoc]
    congr 1
    simp only [run, List.foldl_append, List.foldl_cons]
    congr 1
    show step (run h) (.count c) = _
    simp [step, hin]
    rfl
  obtain ⟨q1, q2⟩ := quiet mid c h1 h2 ((run h).set c (.counted ((run h).client.length - prev)))
  rw [e1]
  simp only [step]
  rw [q2]
  rw [show ((run h).set c (.counted ((run h).client.length - prev))).ph c = some (.counted ((run h).client.length - prev)) by simp [S.set]]
  show m ∈ _ ++ lastN (mid.foldl step ((run h).set c (.counted ((run h).client.length - prev)))).client _
  rw [q1]
  apply List.mem_append_right
  have hne : (run h).client.length - prev ≠ 0 := by
    intro hz
    rw [List.drop_eq_nil_of_le (by omega)] at hm; cases hm
  simp only [lastN, S.set, hne, if_false]
  rw [show (run h).client.length - ((run h).client.length - prev) = prev by omega]
  exact hm

/-- the hypotheses are met: two calls at the same moment -/
example : (run [.enter 1, .enter 2, .send 1 10, .send 2 20]).ph 1 = some (.inside 0) ∧ (run [.enter 1, .enter 2, .send 1 10, .send 2 20, .count 1, .count 2, .copy 1]).view = [10, 20] := by decide

/-- **C51 is violated** when another thread sends between the last two steps of a call: the call's own id is not recorded (its place is taken by the other's), so `view.wait()`, and the
executor's `shutdown()`, do not wait for it. -/
theorem lost_id_violated (a b : Nat) (h : a ≠ b) : let s := run [.enter 1, .send 1 a, .count 1, .enter 2, .send 2 b, .copy 1, .count 2, .copy 2]
    s.client = [a, b] ∧ s.ph 1 = some .over ∧ s.ph 2 = some .over ∧ s.view = [b, b] ∧ a ∉ s.view := by
  refine ⟨rfl, rfl, rfl, rfl, ?_⟩
  show a ∉ [b, b]
  simp [h]

/-- … and the ids of other views are recorded when they send during a call. -/
theorem foreign_id_violated (a b : Nat) : (run [.enter 1, .send 1 a, .other b, .count 1, .copy 1]).view = [a, b] := rfl

end IPP.SaveIds
