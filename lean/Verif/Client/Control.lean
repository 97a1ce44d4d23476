import Verif.Client.Targets

/-!
# Control calls of the client (property C71) — client.py:1681-1826 and 1094-1100

`send_signal`, `clear`, `abort` (all through `_send_control_request`) and `shutdown`. The thread that calls them waits for replies that the input thread
stores as they arrive: in any order, at any time, or never. The history is a list of events: replies arriving and steps of the calling thread.
Sending (which does not wait for anything) is one step. The content of the requests is abstract; what an engine does with them is the subject of C45 and C66.
-/
namespace IPP.Control
open IPP.Client (Target buildTargets Uuid)

/-- status of a reply; an error with its exception — client/client.py:1681-1823, 1918-1923 -/
inductive Reply where
  | ok
  | error (e : Nat)
  deriving DecidableEq, Repr

/-- the calls: `request` stands for `send_signal`, `clear` and `abort` — client/client.py:1681-1823, 1918-1923 -/
inductive Call where
  | request (block : Bool)
  | shutdown (restart block hub : Bool)
  deriving DecidableEq, Repr

/-- client/client.py:1681-1823, 1918-1923 -/
inductive Exc where
  /-- the targets are not valid -/
  | target (e : IPP.Client.Err)
  | notImplemented
  /-- the exception of a reply -/
  | remote (e : Nat)
  deriving DecidableEq, Repr

/-- client/client.py:1681-1823, 1918-1923 -/
inductive Result where
  /-- returned None -/
  | done
  /-- returned a future of all replies -/
  | future
  | raised (x : Exc)
  deriving DecidableEq, Repr

/-- where the calling thread is — client/client.py:1681-1823, 1918-1923 -/
inductive Pc where
  /-- in the loop over the futures, at the given position; `err`: the variable `error` of `shutdown` -/
  | engines (i : Nat) (err : Option Nat)
  /-- waiting for the hub's reply -/
  | hub (err : Option Nat)
  | over (r : Result)
  deriving DecidableEq, Repr

/-- client/client.py:1681-1823, 1918-1923 -/
structure S where
  call : Call
  /-- the engines that a request was sent to, in the order of sending -/
  sent : List Uuid
  /-- the future of the i-th request: its reply, if one has arrived -/
  got : Nat → Option Reply
  /-- a shutdown request was sent to the hub -/
  hubAsked : Bool
  hubGot : Option Reply
  /-- the client is closed -/
  closed : Bool
  pc : Pc

/-- client/client.py:1681-1823, 1918-1923 -/
inductive Ev where
  /-- a reply to the i-th request arrives -/
  | reply (i : Nat) (r : Reply)
  /-- the reply of the hub arrives -/
  | hubReply (r : Reply)
  /-- the calling thread goes on, if it can -/
  | main
  deriving DecidableEq, Repr

/-- `if error: raise error`, or return None — client.py:1825-1826 -/
def finish : Option Nat → Result
  | none => .done
  | some e => .raised (.remote e)

/-- after the loop over the engines — client.py:1814-1826: `hub`: ask the hub; otherwise done -/
def afterLoop (s : S) (hub : Bool) (err : Option Nat) : S :=
  if hub then { s with hubAsked := true, pc := .hub err } else { s with pc := .over (finish err) }

/-- `except NoEnginesRegistered: targets = []` — client.py:1789-1792 -/
def orNone : Except IPP.Client.Err (List Uuid × List Int) → Except IPP.Client.Err (List Uuid)
  | .error .noEngines => .ok []
  | .error e => .error e
  | .ok (us, _) => .ok us

/-- The call up to the first waiting — client.py:1683-1690 (`request`), 1783-1807 (`shutdown`: no engines at all counts as no targets, `hub` means all).
`c`: what the client knows when it is called, `t` the targets. -/
def start (c : IPP.Client.Client) (call : Call) (t : Target) : S :=
  let s : S := { call := call, sent := [], got := fun _ => none, hubAsked := false, hubGot := none, closed := false, pc := .engines 0 none }
  match call with
  | .request block => match buildTargets c t with
    | .error e => { s with pc := .over (.raised (.target e)) }
    | .ok (us, _) => { s with sent := us, pc := if block then .engines 0 none else .over .future }
  | .shutdown restart block hub =>
    if restart then { s with pc := .over (.raised .notImplemented) }
    else
      match orNone (buildTargets c (if hub then .all else t)) with
      | .error e => { s with pc := .over (.raised (.target e)) }
      | .ok us => { s with sent := us, pc := if block || hub then .engines 0 none else .over .done }

/-- the calling thread — client.py:1691-1695 (`request`: the first error is raised at once), 1806-1826 (`shutdown`: waits for all, keeps the last error) -/
def main (s : S) : S := match s.pc with
  | .over _ => s
  | .hub err => match s.hubGot with
    | none => s
    | some .ok => { s with closed := err.isNone, pc := .over (finish err) }
    | some (.error e) => { s with pc := .over (finish (some e)) }
  | .engines i err =>
    if i < s.sent.length then match s.got i with
      | none => s
      | some .ok => { s with pc := .engines (i + 1) err }
      | some (.error e) => match s.call with
        | .request _ => { s with pc := .over (.raised (.remote e)) }
        | .shutdown _ _ _ => { s with pc := .engines (i + 1) (some e) }
    else match s.call with
      | .request _ => { s with pc := .over .done }
      | .shutdown _ _ hub => afterLoop s hub err

/-- `_dispatch_single_reply` — client.py:1094-1100: only a request that was sent has a future, and only its first reply counts (its future is forgotten, 1301-1308) -/
def step (s : S) : Ev → S
  | .reply i r => if i < s.sent.length ∧ s.got i = none then { s with got := fun j => if j = i then some r else s.got j } else s
  | .hubReply r => if s.hubAsked = true ∧ s.hubGot = none then { s with hubGot := some r } else s
  | .main => main s

/-- any interleaving of client/client.py:1681-1823, 1918-1923 and of replies -/
def run (c : IPP.Client.Client) (call : Call) (t : Target) (h : List Ev) : S := h.foldl step (start c call t)

/-- the value of the future of a call that does not wait — futures.py:84-119: the replies in the order of the targets, when all have arrived. The
replies are values, so that it never holds an exception. -/
def futureValue (s : S) : Option (List Reply) := (List.range s.sent.length).mapM s.got

/-! ## Specification vocabulary -/

/-- all engines that were asked have answered ok -/
def AllOk (s : S) : Prop := ∀ i, i < s.sent.length → s.got i = some .ok

/-- all engines that were asked have answered -/
def AllAnswered (s : S) : Prop := ∀ i, i < s.sent.length → s.got i ≠ none

/-- the replies that arrived first for each request, as the history tells -/
def firstReply (i : Nat) : List Ev → Option Reply
  | [] => none
  | .reply j r :: h => if j = i then some r else firstReply i h
  | _ :: h => firstReply i h

/-! ## Lemmas -/

theorem run_snoc (c : IPP.Client.Client) (call : Call) (t : Target) (h : List Ev) (e : Ev) : run c call t (h ++ [e]) = step (run c call t h) e := by
  simp [run]

theorem snoc_ind {α : Type} {P : List α → Prop} (h0 : P []) (h1 : ∀ l a, P l → P (l ++ [a])) : ∀ l, P l := by
  intro l
  have : ∀ l : List α, P l.reverse := by
    intro l
    induction l with
    | nil => simpa using h0
    | cons a l ih => simpa using h1 _ a ih
  simpa using this l.reverse

theorem main_frame (s : S) : (main s).sent = s.sent ∧ (main s).call = s.call ∧ (main s).got = s.got ∧ (main s).hubGot = s.hubGot := by
  unfold main afterLoop
  repeat' split
  all_goals simp

theorem step_frame (s : S) (e : Ev) : (step s e).sent = s.sent ∧ (step s e).call = s.call := by
  cases e with
  | reply i r => simp only [step]; split <;> simp
  | hubReply r => simp only [step]; split <;> simp
  | main => exact ⟨(main_frame s).1, (main_frame s).2.1⟩

theorem start_cases (c : IPP.Client.Client) (call : Call) (t : Target) : ∃ us p, start c call t = { call := call, sent := us, got := fun _ => none, hubAsked := false, hubGot := none, closed := false, pc := p } := by
  unfold start
  cases call with
  | request b =>
    simp only
    split
    · exact ⟨_, _, rfl⟩
    · exact ⟨_, _, rfl⟩
  | shutdown rs b u =>
    simp only
    split
    · exact ⟨_, _, rfl⟩
    · split
      · exact ⟨_, _, rfl⟩
      · exact ⟨_, _, rfl⟩

theorem start_call (c : IPP.Client.Client) (call : Call) (t : Target) : (start c call t).call = call := by
  obtain ⟨us, p, h⟩ := start_cases c call t
  rw [h]

theorem run_call (c : IPP.Client.Client) (call : Call) (t : Target) (h : List Ev) : (run c call t h).call = call := by
  induction h using snoc_ind with
  | h0 => exact start_call c call t
  | h1 l a ih => rw [run_snoc, (step_frame _ a).2, ih]

theorem run_sent (c : IPP.Client.Client) (call : Call) (t : Target) (h : List Ev) : (run c call t h).sent = (start c call t).sent := by
  induction h using snoc_ind with
  | h0 => rfl
  | h1 l a ih => rw [run_snoc, (step_frame _ a).1, ih]

theorem start_got (c : IPP.Client.Client) (call : Call) (t : Target) : (start c call t).got = fun _ => none := by
  obtain ⟨us, p, h⟩ := start_cases c call t
  rw [h]

theorem firstReply_snoc (i : Nat) (h : List Ev) (e : Ev) : firstReply i (h ++ [e]) = (firstReply i h).orElse (fun _ => match e with
    | .reply j r => if j = i then some r else none
    | _ => none) := by
  induction h with
  | nil => cases e <;> simp [firstReply]
  | cons a h ih =>
    cases a with
    | reply j r => by_cases hj : j = i <;> simp [firstReply, hj, ih]
    | hubReply r => simpa [firstReply] using ih
    | main => simpa [firstReply] using ih

/-- what is stored is the first reply of each engine -/
theorem got_eq (c : IPP.Client.Client) (call : Call) (t : Target) (h : List Ev) (i : Nat) :
    (run c call t h).got i = if i < (run c call t h).sent.length then firstReply i h else none := by
  induction h using snoc_ind with
  | h0 => simp only [run, List.foldl_nil, start_got, firstReply]; exact (ite_self _).symm
  | h1 l a ih =>
    rw [run_snoc, (step_frame _ a).1, firstReply_snoc]
    cases a with
    | reply j r =>
      simp only [step]
      split
      · rename_i hc
        by_cases hj : i = j
        · subst hj
          have : firstReply i l = none := by rw [hc.2] at ih; simpa [hc.1] using ih.symm
          simp [hc.1, this]
        · have hj' : j ≠ i := fun x => hj x.symm
          simp [hj, ih, hj']
      · rename_i hc
        by_cases hj : j = i
        · subst hj
          by_cases hl : j < (run c call t l).sent.length
          · have hne : (run c call t l).got j ≠ none := fun x => hc ⟨hl, x⟩
            rw [ih] at hne ⊢
            simp [hl] at hne ⊢
            cases hf : firstReply j l with
            | none => exact absurd hf hne
            | some x => simp
          · simp [ih, hl]
        · simp [ih, hj]
    | hubReply r => simp only [step]; split <;> simp [ih]
    | main => rw [show step (run c call t l) .main = main (run c call t l) from rfl, (main_frame _).2.2.1]; simp [ih]

/-- the engines before position `i` have answered; the last error among them is `err` -/
def Passed (s : S) (i : Nat) (err : Option Nat) : Prop := (∀ j, j < i → s.got j ≠ none) ∧ (err = none → ∀ j, j < i → s.got j = some .ok) ∧
  (∀ e, err = some e → ∃ k, k < i ∧ s.got k = some (.error e) ∧ ∀ j, k < j → j < i → s.got j = some .ok)

theorem passed_zero (s : S) : Passed s 0 none := ⟨by simp, by simp, by simp⟩

theorem passed_ok {s : S} {i : Nat} {err : Option Nat} (h : Passed s i err) (hg : s.got i = some .ok) : Passed s (i + 1) err := by
  refine ⟨?_, ?_, ?_⟩
  · intro j hj
    by_cases hji : j = i
    · rw [hji]; simp [hg]
    · exact h.1 j (by omega)
  · intro he j hj
    by_cases hji : j = i
    · rw [hji]; exact hg
    · exact h.2.1 he j (by omega)
  · intro e he
    obtain ⟨k, hk, hk2, hk3⟩ := h.2.2 e he
    refine ⟨k, by omega, hk2, ?_⟩
    intro j hj1 hj2
    by_cases hji : j = i
    · rw [hji]; exact hg
    · exact hk3 j hj1 (by omega)

theorem passed_error {s : S} {i : Nat} {err : Option Nat} {e : Nat} (h : Passed s i err) (hg : s.got i = some (.error e)) : Passed s (i + 1) (some e) := by
  refine ⟨?_, by simp, ?_⟩
  · intro j hj
    by_cases hji : j = i
    · rw [hji]; simp [hg]
    · exact h.1 j (by omega)
  · intro e' he
    cases he
    exact ⟨i, by omega, hg, fun j a b => by omega⟩

theorem Passed.congr {s s' : S} {i : Nat} {err : Option Nat} (h : Passed s i err) (hg : ∀ j, s.got j ≠ none → s'.got j = s.got j) : Passed s' i err := by
  obtain ⟨h1, h2, h3⟩ := h
  refine ⟨?_, ?_, ?_⟩
  · intro j hj; rw [hg j (h1 j hj)]; exact h1 j hj
  · intro he j hj; rw [hg j (h1 j hj)]; exact h2 he j hj
  · intro e he
    obtain ⟨k, hk, hk2, hk3⟩ := h3 e he
    exact ⟨k, hk, by rw [hg k (h1 k hk)]; exact hk2, fun j a b => by rw [hg j (h1 j b)]; exact hk3 j a b⟩

/-- invariant of `request` -/
def PcR (c : IPP.Client.Client) (b : Bool) (t : Target) (s : S) : Prop := match s.pc with
  | .engines i err => i ≤ s.sent.length ∧ err = none ∧ b = true ∧ ∀ j, j < i → s.got j = some .ok
  | .hub _ => False
  | .over .done => b = true ∧ AllOk s
  | .over .future => b = false
  | .over (.raised .notImplemented) => False
  | .over (.raised (.target e)) => buildTargets c t = .error e ∧ s.sent = []
  | .over (.raised (.remote e)) => b = true ∧ ∃ k, k < s.sent.length ∧ s.got k = some (.error e) ∧ ∀ j, j < k → s.got j = some .ok

/-- invariant of `shutdown` -/
def PcS (c : IPP.Client.Client) (rs b u : Bool) (t : Target) (s : S) : Prop := match s.pc with
  | .engines i err => rs = false ∧ (b = true ∨ u = true) ∧ i ≤ s.sent.length ∧ s.hubAsked = false ∧ s.hubGot = none ∧ s.closed = false ∧ Passed s i err
  | .hub err => rs = false ∧ u = true ∧ s.hubAsked = true ∧ s.closed = false ∧ Passed s s.sent.length err
  | .over .done => rs = false ∧ (u = false → s.hubAsked = false ∧ s.closed = false ∧ s.hubGot = none) ∧ (u = true → s.hubAsked = true ∧ s.hubGot = some .ok ∧ s.closed = true) ∧
      (b = true ∨ u = true → Passed s s.sent.length none)
  | .over .future => False
  | .over (.raised .notImplemented) => rs = true ∧ s.sent = [] ∧ s.hubAsked = false ∧ s.hubGot = none ∧ s.closed = false
  | .over (.raised (.target e)) => rs = false ∧ buildTargets c (if u then .all else t) = .error e ∧ e ≠ .noEngines ∧ s.sent = [] ∧ s.hubAsked = false ∧ s.hubGot = none ∧ s.closed = false
  | .over (.raised (.remote e)) => rs = false ∧ (b = true ∨ u = true) ∧ s.closed = false ∧ (s.hubAsked = true ↔ u = true) ∧ (u = true → s.hubGot ≠ none) ∧
      (u = false → s.hubGot = none) ∧ (s.hubGot = some (.error e) ∧ (∃ err, Passed s s.sent.length err) ∨ (∀ x, s.hubGot ≠ some (.error x)) ∧ Passed s s.sent.length (some e))

theorem pcR (c : IPP.Client.Client) (b : Bool) (t : Target) (h : List Ev) : PcR c b t (run c (.request b) t h) ∧ (run c (.request b) t h).hubAsked = false ∧
    (run c (.request b) t h).closed = false := by
  induction h using snoc_ind with
  | h0 =>
    simp only [run, List.foldl_nil, start]
    split
    · rename_i e he; exact ⟨⟨he, rfl⟩, rfl, rfl⟩
    · cases b
      · exact ⟨rfl, rfl, rfl⟩
      · exact ⟨⟨by simp, rfl, rfl, by simp⟩, rfl, rfl⟩
  | h1 l a ih =>
    have hc := run_call c (.request b) t l
    rw [run_snoc]
    generalize run c (.request b) t l = s at ih hc ⊢
    obtain ⟨I, h2, h3⟩ := ih
    cases a with
    | reply i r =>
      simp only [step]
      split
      · rename_i hg
        refine ⟨?_, h2, h3⟩
        have key : ∀ j x, s.got j = some x → (if j = i then some r else s.got j) = some x := by
          intro j x hx
          have : j ≠ i := by intro hj; rw [hj, hg.2] at hx; simp at hx
          simp [this, hx]
        unfold PcR at I ⊢
        simp only at I ⊢
        split at I
        · exact ⟨I.1, I.2.1, I.2.2.1, fun j hj => key j _ (I.2.2.2 j hj)⟩
        · exact I
        · exact ⟨I.1, fun j hj => key j _ (I.2 j hj)⟩
        · exact I
        · exact I
        · exact I
        · obtain ⟨k, hk, hk2, hk3⟩ := I.2
          exact ⟨I.1, k, hk, key k _ hk2, fun j hj => key j _ (hk3 j hj)⟩
      · exact ⟨I, h2, h3⟩
    | hubReply r =>
      simp only [step]
      rw [if_neg (by simp [h2])]
      exact ⟨I, h2, h3⟩
    | main =>
      simp only [step]
      unfold main
      cases hpc : s.pc with
      | over r => exact ⟨I, h2, h3⟩
      | hub err => simp [PcR, hpc] at I
      | engines i err =>
        simp only [PcR, hpc] at I
        obtain ⟨a1, a2, a3, a4⟩ := I
        simp only
        split
        · rename_i hi
          cases hg : s.got i with
          | none => exact ⟨by simp only [PcR, hpc]; exact ⟨a1, a2, a3, a4⟩, h2, h3⟩
          | some x =>
            cases x with
            | ok =>
              refine ⟨⟨hi, a2, a3, ?_⟩, h2, h3⟩
              intro j hj
              by_cases hji : j = i
              · rw [hji]; exact hg
              · exact a4 j (by omega)
            | error e =>
              simp only [hc]
              exact ⟨⟨a3, i, hi, hg, a4⟩, h2, h3⟩
        · simp only [hc]
          exact ⟨⟨a3, fun j hj => a4 j (by simp only at hj; omega)⟩, h2, h3⟩

theorem pcS (c : IPP.Client.Client) (rs b u : Bool) (t : Target) (h : List Ev) : PcS c rs b u t (run c (.shutdown rs b u) t h) := by
  induction h using snoc_ind with
  | h0 =>
    simp only [run, List.foldl_nil, start]
    split
    · rename_i hr; exact ⟨hr, rfl, rfl, rfl, rfl⟩
    · rename_i hr
      have hr : rs = false := by simpa using hr
      split
      · rename_i e he
        have : buildTargets c (if u then .all else t) = .error e ∧ e ≠ .noEngines := by
          generalize buildTargets c (if u then .all else t) = x at he
          cases x with
          | error y => cases y <;> simp_all [orNone] <;> (subst he; simp)
          | ok y => simp [orNone] at he
        exact ⟨hr, this.1, this.2, rfl, rfl, rfl, rfl⟩
      · rename_i us he
        cases hb : (b || u) with
        | true => exact ⟨hr, by simpa using hb, by simp, rfl, rfl, rfl, passed_zero _⟩
        | false =>
          have : b = false ∧ u = false := by simpa using hb
          exact ⟨hr, fun _ => ⟨rfl, rfl, rfl⟩, by simp [this.2], by simp [this.1, this.2]⟩
  | h1 l a I =>
    have hc := run_call c (.shutdown rs b u) t l
    rw [run_snoc]
    generalize run c (.shutdown rs b u) t l = s at I hc ⊢
    cases a with
    | reply i r =>
      simp only [step]
      split
      · rename_i hg
        have key : ∀ n err, Passed s n err → Passed { s with got := fun j => if j = i then some r else s.got j } n err := by
          intro n err hp
          apply hp.congr
          intro j hj
          have : j ≠ i := by intro hx; exact hj (hx ▸ hg.2)
          simp [this]
        unfold PcS at I ⊢
        simp only at I ⊢
        split at I
        · exact ⟨I.1, I.2.1, I.2.2.1, I.2.2.2.1, I.2.2.2.2.1, I.2.2.2.2.2.1, key _ _ I.2.2.2.2.2.2⟩
        · exact ⟨I.1, I.2.1, I.2.2.1, I.2.2.2.1, key _ _ I.2.2.2.2⟩
        · exact ⟨I.1, I.2.1, I.2.2.1, fun x => key _ _ (I.2.2.2 x)⟩
        · exact I
        · exact I
        · exact I
        · obtain ⟨i1, i2, i3, i4, i5, i6, i7⟩ := I
          refine ⟨i1, i2, i3, i4, i5, i6, ?_⟩
          rcases i7 with ⟨p, err, q⟩ | ⟨p, q⟩
          · exact .inl ⟨p, err, key _ _ q⟩
          · exact .inr ⟨p, key _ _ q⟩
      · exact I
    | hubReply r =>
      simp only [step]
      split
      · rename_i hg
        have key : ∀ n err, Passed s n err → Passed { s with hubGot := some r } n err := fun n err hp => hp.congr (fun _ _ => rfl)
        unfold PcS at I ⊢
        simp only at I ⊢
        split at I
        · simp [hg.1] at I
        · exact ⟨I.1, I.2.1, I.2.2.1, I.2.2.2.1, key _ _ I.2.2.2.2⟩
        · have i2 := I.2.1
          have i3 := I.2.2.1
          cases u with
          | false => simp [hg.1] at i2
          | true => simp [hg.2] at i3
        · exact I
        · simp [hg.1] at I
        · simp [hg.1] at I
        · obtain ⟨i1, i2, i3, i4, i5, i6, i7⟩ := I
          exact absurd hg.2 (i5 (i4.1 hg.1))
      · exact I
    | main =>
      simp only [step]
      unfold main
      cases hpc : s.pc with
      | over r => exact I
      | hub err =>
        have I' := I
        simp only [PcS, hpc] at I
        obtain ⟨a1, a2, a3, a4, a5⟩ := I
        simp only
        cases hg : s.hubGot with
        | none => exact I'
        | some x =>
          cases x with
          | ok =>
            cases err with
            | none => exact ⟨a1, by simp [a2], fun _ => ⟨a3, rfl, rfl⟩, fun _ => a5.congr (fun _ _ => rfl)⟩
            | some e => exact ⟨a1, .inr a2, rfl, by simp [a2, a3], by simp [hg], by simp [a2], .inr ⟨by simp [hg], a5.congr (fun _ _ => rfl)⟩⟩
          | error e => exact ⟨a1, .inr a2, a4, by simp [a2, a3], by simp [hg], by simp [a2], .inl ⟨rfl, err, a5.congr (fun _ _ => rfl)⟩⟩
      | engines i err =>
        have I' := I
        simp only [PcS, hpc] at I
        obtain ⟨a1, a2, a3, a4, a5, a6, a7⟩ := I
        simp only
        split
        · rename_i hi
          cases hg : s.got i with
          | none => exact I'
          | some x =>
            cases x with
            | ok => exact ⟨a1, a2, hi, a4, a5, a6, passed_ok (a7.congr (fun _ _ => rfl)) hg⟩
            | error e =>
              simp only [hc]
              exact ⟨a1, a2, hi, a4, a5, a6, passed_error (s := { s with pc := .engines (i + 1) (some e) }) (a7.congr (fun _ _ => rfl)) hg⟩
        · simp only [hc]
          have hl : i = s.sent.length := by omega
          subst hl
          unfold afterLoop
          cases u with
          | true => exact ⟨a1, rfl, rfl, a6, a7.congr (fun _ _ => rfl)⟩
          | false =>
            cases err with
            | none => exact ⟨a1, fun _ => ⟨a4, a6, a5⟩, by simp, fun _ => a7.congr (fun _ _ => rfl)⟩
            | some e => exact ⟨a1, a2, a6, by simp [a4], by simp, fun _ => a5, .inr ⟨by simp [a5], a7.congr (fun _ _ => rfl)⟩⟩

end IPP.Control
