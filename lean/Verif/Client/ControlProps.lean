import Verif.Client.Control

/-!
# Control calls tell what happened (property C71)

For every client `c`, every kind of targets and every history of replies and steps of the calling thread.
-/
namespace IPP.Control
open IPP.Client (Target buildTargets Uuid)

/-- the call has ended with this result -/
def Ended (s : S) (r : Result) : Prop := s.pc = .over r

/-- the call has ended -/
def IsOver (s : S) : Prop := ∃ r, s.pc = .over r

theorem firstReply_of_got {c : IPP.Client.Client} {call : Call} {t : Target} {h : List Ev} {i : Nat} {r : Reply} (hg : (run c call t h).got i = some r) : firstReply i h = some r := by
  rw [got_eq] at hg
  split at hg
  · exact hg
  · cases hg

theorem firstReply_of_got_ne {c : IPP.Client.Client} {call : Call} {t : Target} {h : List Ev} {i : Nat} (hg : (run c call t h).got i ≠ none) : firstReply i h ≠ none := by
  intro hx
  apply hg
  rw [got_eq, hx]
  split <;> rfl

/-! ## whom is asked -/

/-- C71: `send_signal`, `clear` and `abort` ask exactly the targets, each once, in their order; targets that are not valid are an error and nobody is asked. -/
theorem request_asks (c : IPP.Client.Client) (b : Bool) (t : Target) (h : List Ev) : match buildTargets c t with
    | .ok (us, _) => (run c (.request b) t h).sent = us
    | .error e => (run c (.request b) t h).sent = [] ∧ Ended (run c (.request b) t h) (.raised (.target e)) := by
  have hs := run_sent c (.request b) t h
  split
  · rename_i us es he
    rw [hs]; simp only [start, he]
  · rename_i e he
    have h0 : start c (.request b) t = { call := .request b, sent := [], got := fun _ => none, hubAsked := false, hubGot := none, closed := false, pc := .over (.raised (.target e)) } := by
      simp only [start, he]
    refine ⟨by rw [hs, h0], ?_⟩
    induction h using snoc_ind with
    | h0 => simp [Ended, run, h0]
    | h1 l a ih =>
      have ih := ih (run_sent _ _ _ _)
      have hs' := run_sent c (.request b) t l
      rw [h0] at hs'
      have hq := (pcR c b t l).2.1
      rw [run_snoc]
      simp only [Ended] at ih ⊢
      cases a with
      | reply i r => simp only [step]; split <;> simp [ih]
      | hubReply r => simp only [step]; split <;> simp [ih]
      | main => simp only [step, main, ih]

/-- C71: with 'all', every engine that the client knows of is asked, once: the ids in ascending order are matched with their engines. -/
theorem request_all_engines (evs : List IPP.Client.Ev) (hp : IPP.Client.Proper evs) (hne : IPP.Client.Reg evs ≠ []) (b : Bool) (h : List Ev) :
    (run (IPP.Client.run evs) (.request b) .all h).sent.length = (IPP.Client.intIds evs).length ∧
    (∀ p ∈ (run (IPP.Client.run evs) (.request b) .all h).sent.zip (IPP.Client.intIds evs), ∃ e : IPP.Client.Eid, (e : Int) = p.2 ∧ (e, p.1) ∈ IPP.Client.Reg evs) ∧
    (∀ e u, (e, u) ∈ IPP.Client.Reg evs → (e : Int) ∈ IPP.Client.intIds evs) := by
  obtain ⟨us, hus⟩ := (IPP.Client.targets_all evs hp hne).1
  have h1 := request_asks (IPP.Client.run evs) b .all h
  rw [hus] at h1
  have h1' : (run (IPP.Client.run evs) (.request b) .all h).sent = us := h1
  rw [h1']
  obtain ⟨h2, h3⟩ := IPP.Client.targets_registered evs hp .all us _ hus
  exact ⟨h2, h3, fun e u hu => (IPP.Client.mem_intIds evs hp _).2 ⟨e, u, rfl, hu⟩⟩

/-! ## blocking requests -/

/-- C71: a blocking request returns only if every engine that was asked has answered ok. -/
theorem request_returns (c : IPP.Client.Client) (b : Bool) (t : Target) (h : List Ev) (hr : Ended (run c (.request b) t h) .done) :
    ∀ i, i < (run c (.request b) t h).sent.length → firstReply i h = some .ok := by
  have I := (pcR c b t h).1
  simp only [PcR, Ended] at I hr
  rw [hr] at I
  exact fun i hi => firstReply_of_got (I.2 i hi)

/-- C71: it raises exactly the error of the first of the engines, in the order of the targets, that answered with one. -/
theorem request_raises (c : IPP.Client.Client) (b : Bool) (t : Target) (h : List Ev) (e : Nat) (hr : Ended (run c (.request b) t h) (.raised (.remote e))) :
    ∃ k, k < (run c (.request b) t h).sent.length ∧ firstReply k h = some (.error e) ∧ ∀ j, j < k → firstReply j h = some .ok := by
  have I := (pcR c b t h).1
  simp only [PcR, Ended] at I hr
  rw [hr] at I
  obtain ⟨-, k, hk, h1, h2⟩ := I
  exact ⟨k, hk, firstReply_of_got h1, fun j hj => firstReply_of_got (h2 j hj)⟩

/-- steps of the calling thread alone -/
def mains (n : Nat) : List Ev := List.replicate n .main

theorem run_append (c : IPP.Client.Client) (call : Call) (t : Target) (h k : List Ev) : run c call t (h ++ k) = k.foldl step (run c call t h) := by simp [run]

theorem mains_over (s : S) (r : Result) (h : s.pc = .over r) (n : Nat) : (mains n).foldl step s = s := by
  induction n with
  | zero => rfl
  | succ n ih => simp only [mains, List.replicate_succ, List.foldl_cons, step, main, h]; exact ih

/-- with all replies there, the thread gets through the loop -/
theorem through (s : S) (ha : AllAnswered s) (i : Nat) (err : Option Nat) (hp : s.pc = .engines i err) :
    ∃ n, (∃ r, ((mains n).foldl step s).pc = .over r) ∨ (∃ er, ((mains n).foldl step s).pc = .hub er) := by
  generalize hk : s.sent.length - i = k
  induction k generalizing s i err with
  | zero =>
    refine ⟨1, ?_⟩
    have hi : ¬ i < s.sent.length := by omega
    simp only [mains, List.replicate_succ, List.replicate_zero, List.foldl_cons, List.foldl_nil, step, main, hp, hi, if_false]
    split
    · exact .inl ⟨_, rfl⟩
    · unfold afterLoop
      split
      · exact .inr ⟨_, rfl⟩
      · exact .inl ⟨_, rfl⟩
  | succ k ih =>
    have hi : i < s.sent.length := by omega
    have hf := main_frame s
    have ha' : AllAnswered (main s) := by
      intro j hj
      rw [hf.2.2.1]
      exact ha j (by rw [← hf.1]; exact hj)
    have key : ∀ er, (main s).pc = .engines (i + 1) er → _ := fun er hx => ih (main s) ha' (i + 1) er hx (by rw [hf.1]; omega)
    have next : (∃ n, (∃ r, ((mains n).foldl step (main s)).pc = .over r) ∨ (∃ er, ((mains n).foldl step (main s)).pc = .hub er)) →
        ∃ n, (∃ r, ((mains n).foldl step s).pc = .over r) ∨ (∃ er, ((mains n).foldl step s).pc = .hub er) := by
      rintro ⟨n, hn⟩
      exact ⟨n + 1, by simpa [mains, List.replicate_succ, step] using hn⟩
    cases hg : s.got i with
    | none => exact absurd hg (ha i hi)
    | some x =>
      cases x with
      | ok =>
        apply next
        apply key err
        simp only [main, hp, hi, if_true, hg]
      | error e =>
        cases hc : s.call with
        | request b =>
          refine ⟨1, .inl ⟨.raised (.remote e), ?_⟩⟩
          simp only [mains, List.replicate_succ, List.replicate_zero, List.foldl_cons, List.foldl_nil, step, main, hp, hi, if_true, hg, hc]
        | shutdown a b u =>
          apply next
          apply key (some e)
          simp only [main, hp, hi, if_true, hg, hc]

/-- C71: when every engine has answered the call comes to an end. -/
theorem request_ends (c : IPP.Client.Client) (b : Bool) (t : Target) (h : List Ev)
    (ha : ∀ i, i < (run c (.request b) t h).sent.length → firstReply i h ≠ none) : ∃ n, IsOver (run c (.request b) t (h ++ mains n)) := by
  have ha' : AllAnswered (run c (.request b) t h) := by
    intro i hi
    rw [got_eq]; simpa [hi] using ha i hi
  cases hp : (run c (.request b) t h).pc with
  | over r => exact ⟨0, r, by simpa [mains] using hp⟩
  | hub err => exact absurd (pcR c b t h).1 (by simp [PcR, hp])
  | engines i err =>
    obtain ⟨n, hn⟩ := through _ ha' i err hp
    refine ⟨n, ?_⟩
    rw [← run_append] at hn
    rcases hn with hn | ⟨er, hn⟩
    · exact hn
    · exact absurd (pcR c b t (h ++ mains n)).1 (by simp [PcR, hn])

/-- C71: a request that is not blocking returns a future at once, whatever happens … -/
theorem request_async (c : IPP.Client.Client) (t : Target) (us : List Uuid) (es : List Int) (ht : buildTargets c t = .ok (us, es)) (h : List Ev) :
    Ended (run c (.request false) t h) .future := by
  have h0 : (start c (.request false) t).pc = .over .future := by simp [start, ht]
  induction h using snoc_ind with
  | h0 => exact h0
  | h1 l a ih =>
    rw [run_snoc]
    simp only [Ended] at ih ⊢
    cases a with
    | reply i r => simp only [step]; split <;> simp [ih]
    | hubReply r => simp only [step]; split <;> simp [ih]
    | main => simp only [step, main, ih]

theorem mapM_range {α : Type} (f : Nat → Option α) : ∀ (n : Nat) (l : List α), (List.range n).mapM f = some l ↔ l.length = n ∧ ∀ i (hi : i < l.length), f i = some l[i] := by
  intro n
  induction n with
  | zero => intro l; cases l <;> simp
  | succ n ih =>
    intro l
    rw [List.range_succ, List.mapM_append]
    constructor
    · intro h
      cases h1 : (List.range n).mapM f with
      | none => simp [h1] at h
      | some l1 =>
        cases h2 : f n with
        | none => simp [h1, h2] at h
        | some x =>
          simp [h1, h2] at h
          obtain ⟨h3, h4⟩ := (ih l1).1 h1
          subst h
          refine ⟨by simp [h3], ?_⟩
          intro i hi
          by_cases hin : i < l1.length
          · rw [List.getElem_append_left hin]; exact h4 i hin
          · have : i = n := by simp at hi; omega
            subst this
            simp [h2, h3]
    · rintro ⟨h1, h2⟩
      obtain ⟨l1, x, rfl⟩ : ∃ l1 x, l = l1 ++ [x] := by
        refine ⟨l.dropLast, l.getLast (by intro hx; simp [hx] at h1), ?_⟩
        exact (List.dropLast_concat_getLast _).symm
      have hl1 : l1.length = n := by simpa using h1
      have h3 : (List.range n).mapM f = some l1 := by
        rw [ih]
        refine ⟨hl1, fun i hi => ?_⟩
        have := h2 i (by simp; omega)
        rwa [List.getElem_append_left hi] at this
      have h4 : f n = some x := by
        have := h2 n (by simp; omega)
        simpa [hl1] using this
      simp [h3, h4]

/-- C71: … whose value, once every engine has answered, is the list of the replies in the order of the targets; until then it has none. -/
theorem request_future (c : IPP.Client.Client) (b : Bool) (t : Target) (h : List Ev) (rs : List Reply) : futureValue (run c (.request b) t h) = some rs ↔
    rs.length = (run c (.request b) t h).sent.length ∧ ∀ i (hi : i < rs.length), firstReply i h = some rs[i] := by
  unfold futureValue
  rw [mapM_range]
  constructor
  · rintro ⟨h1, h2⟩
    exact ⟨h1, fun i hi => firstReply_of_got (h2 i hi)⟩
  · rintro ⟨h1, h2⟩
    refine ⟨h1, fun i hi => ?_⟩
    rw [got_eq, if_pos (by omega)]
    exact h2 i hi

/-- `request_raises` is all that can be said: a blocking request that raises does not wait for the engines after the failed one. For every client and targets with
at least two engines there is a run in which the call has raised while the second engine has not answered (it may execute the request later). -/
theorem request_raises_early_violated (c : IPP.Client.Client) (t : Target) (u v : Uuid) (us : List Uuid) (es : List Int) (ht : buildTargets c t = .ok (u :: v :: us, es)) (e : Nat) :
    Ended (run c (.request true) t [.reply 0 (.error e), .main]) (.raised (.remote e)) ∧ (run c (.request true) t [.reply 0 (.error e), .main]).got 1 = none := by
  simp [run, start, ht, step, main, Ended]

/-- A request that is not blocking hides errors: its future has a value although every engine answered with an error. -/
theorem request_future_hides_errors_violated (c : IPP.Client.Client) (t : Target) (us : List Uuid) (es : List Int) (ht : buildTargets c t = .ok (us, es)) (e : Nat) :
    futureValue (run c (.request false) t ((List.range us.length).map (fun i => .reply i (.error e)))) = some (List.replicate us.length (.error e)) := by
  rw [request_future]
  have hs : ∀ h, (run c (.request false) t h).sent = us := by
    intro h
    have := request_asks c false t h
    rw [ht] at this
    exact this
  refine ⟨by simp [hs], ?_⟩
  intro i hi
  have hi : i < us.length := by simpa using hi
  have gen : ∀ n, i < n → firstReply i ((List.range n).map (fun i => Ev.reply i (.error e))) = some (.error e) := by
    intro n
    induction n with
    | zero => simp
    | succ n ih =>
      intro hn
      rw [List.range_succ, List.map_append, List.map_singleton, firstReply_snoc]
      by_cases hin : i < n
      · rw [ih hin]; rfl
      · have : i = n := by omega
        subst this
        have hno : ∀ m, m ≤ i → firstReply i ((List.range m).map (fun i => Ev.reply i (.error e))) = none := by
          intro m
          induction m with
          | zero => intro _; rfl
          | succ m ihm =>
            intro hm
            rw [List.range_succ, List.map_append, List.map_singleton, firstReply_snoc, ihm (by omega)]
            simp; omega
        rw [hno i (Nat.le_refl i)]
        simp
  rw [gen us.length hi]
  simp

/-- A blocking request to an engine that does not answer (because it died, see C66) does not end, unless an engine before it in the order of the targets fails. -/
theorem request_silent_engine_violated (c : IPP.Client.Client) (t : Target) (h : List Ev) (k : Nat) (hk : k < (run c (.request true) t h).sent.length) (hn : firstReply k h = none)
    (ho : ∀ j e, j < k → firstReply j h ≠ some (.error e)) (hx : ∃ us es, buildTargets c t = .ok (us, es)) : ¬ IsOver (run c (.request true) t h) := by
  rintro ⟨r, hr⟩
  cases r with
  | done => rw [request_returns c true t h hr k hk] at hn; cases hn
  | future =>
    have I := (pcR c true t h).1
    simp only [PcR, hr] at I
    cases I
  | raised x =>
    cases x with
    | target e =>
      have I := (pcR c true t h).1
      simp only [PcR, hr] at I
      obtain ⟨us, es, he⟩ := hx
      rw [he] at I
      cases I.1
    | notImplemented => have I := (pcR c true t h).1; simp only [PcR, hr] at I
    | remote e =>
      obtain ⟨k', h1, h2, h3⟩ := request_raises c true t h e hr
      rcases Nat.lt_trichotomy k' k with h4 | h4 | h4
      · exact ho k' e h4 h2
      · rw [h4, hn] at h2; cases h2
      · rw [h3 k h4] at hn; cases hn

/-! ## shutdown -/

/-- C71: whom `shutdown` asks. With `hub=True` all engines whatever the targets; no engines at all is not an error; `restart=True` asks nobody. -/
theorem shutdown_asks (c : IPP.Client.Client) (rs b u : Bool) (t : Target) (h : List Ev) :
    (run c (.shutdown rs b u) t h).sent = if rs then [] else match buildTargets c (if u then .all else t) with
      | .ok (us, _) => us
      | .error _ => [] := by
  rw [run_sent]
  unfold start
  simp only
  cases rs with
  | true => simp
  | false =>
    simp only [Bool.false_eq_true, if_false]
    generalize buildTargets c (if u = true then Target.all else t) = x
    cases x with
    | error e => cases e <;> simp [orNone]
    | ok y => simp [orNone]

/-- C71: `shutdown` that waits returns only if all engines (and the hub, if asked for) have answered ok; then, with `hub=True`, the client is closed. -/
theorem shutdown_returns (c : IPP.Client.Client) (rs b u : Bool) (t : Target) (h : List Ev) (hr : Ended (run c (.shutdown rs b u) t h) .done) :
    (b = true ∨ u = true → ∀ i, i < (run c (.shutdown rs b u) t h).sent.length → firstReply i h = some .ok) ∧
    ((run c (.shutdown rs b u) t h).closed = u) ∧ (u = true → (run c (.shutdown rs b u) t h).hubGot = some .ok) ∧ ((run c (.shutdown rs b u) t h).hubAsked = u) := by
  have I := pcS c rs b u t h
  simp only [PcS, Ended] at I hr
  rw [hr] at I
  simp only at I
  obtain ⟨-, h1, h2, h3⟩ := I
  refine ⟨fun hb i hi => firstReply_of_got ((h3 hb).2.1 rfl i hi), ?_, fun hu => (h2 hu).2.1, ?_⟩
  · cases u
    · exact (h1 rfl).2.1
    · exact (h2 rfl).2.2
  · cases u
    · exact (h1 rfl).1
    · exact (h2 rfl).1

/-- C71: it raises an error only after all engines (and the hub) have answered; the error is the hub's, or else the last one in the order of the targets. The client stays open. -/
theorem shutdown_raises (c : IPP.Client.Client) (rs b u : Bool) (t : Target) (h : List Ev) (e : Nat) (hr : Ended (run c (.shutdown rs b u) t h) (.raised (.remote e))) :
    (∀ i, i < (run c (.shutdown rs b u) t h).sent.length → firstReply i h ≠ none) ∧ (u = true → (run c (.shutdown rs b u) t h).hubGot ≠ none) ∧
    (run c (.shutdown rs b u) t h).closed = false ∧
    ((run c (.shutdown rs b u) t h).hubGot = some (.error e) ∨
      (∀ x, (run c (.shutdown rs b u) t h).hubGot ≠ some (.error x)) ∧
      ∃ k, k < (run c (.shutdown rs b u) t h).sent.length ∧ firstReply k h = some (.error e) ∧ ∀ j, k < j → j < (run c (.shutdown rs b u) t h).sent.length → firstReply j h = some .ok) := by
  have I := pcS c rs b u t h
  simp only [PcS, Ended] at I hr
  rw [hr] at I
  simp only at I
  obtain ⟨-, -, h3, -, h5, -, h7⟩ := I
  refine ⟨?_, h5, h3, ?_⟩
  · intro i hi
    rcases h7 with ⟨-, err, hp⟩ | ⟨-, hp⟩
    · exact firstReply_of_got_ne (hp.1 i hi)
    · exact firstReply_of_got_ne (hp.1 i hi)
  · rcases h7 with ⟨hh, -⟩ | ⟨hh, hp⟩
    · exact .inl hh
    · obtain ⟨k, hk, h8, h9⟩ := hp.2.2 e rfl
      exact .inr ⟨hh, k, hk, firstReply_of_got h8, fun j a b => firstReply_of_got (h9 j a b)⟩

/-- C71: the hub is asked to shut down only if that was requested, and only after every engine has answered. -/
theorem hub_last (c : IPP.Client.Client) (rs b u : Bool) (t : Target) (h : List Ev) (hq : (run c (.shutdown rs b u) t h).hubAsked = true) :
    rs = false ∧ u = true ∧ ∀ i, i < (run c (.shutdown rs b u) t h).sent.length → firstReply i h ≠ none := by
  have I := pcS c rs b u t h
  simp only [PcS] at I
  split at I
  · simp [hq] at I
  · exact ⟨I.1, I.2.1, fun i hi => firstReply_of_got_ne (I.2.2.2.2.1 i hi)⟩
  · have hu : u = true := by
      cases u
      · have := (I.2.1 rfl).1; simp [hq] at this
      · rfl
    exact ⟨I.1, hu, fun i hi => firstReply_of_got_ne ((I.2.2.2 (.inr hu)).1 i hi)⟩
  · exact absurd I id
  · simp [hq] at I
  · simp [hq] at I
  · obtain ⟨i1, i2, i3, i4, i5, i6, i7⟩ := I
    refine ⟨i1, i4.1 hq, fun i hi => ?_⟩
    rcases i7 with ⟨-, err, hp⟩ | ⟨-, hp⟩
    · exact firstReply_of_got_ne (hp.1 i hi)
    · exact firstReply_of_got_ne (hp.1 i hi)

/-- C71: the client is closed only by a successful shutdown of everything. -/
theorem closed_only_after_success (c : IPP.Client.Client) (rs b u : Bool) (t : Target) (h : List Ev) (hq : (run c (.shutdown rs b u) t h).closed = true) :
    u = true ∧ Ended (run c (.shutdown rs b u) t h) .done ∧ (∀ i, i < (run c (.shutdown rs b u) t h).sent.length → firstReply i h = some .ok) ∧
    (run c (.shutdown rs b u) t h).hubGot = some .ok := by
  have hd : Ended (run c (.shutdown rs b u) t h) .done := by
    have I := pcS c rs b u t h
    simp only [PcS] at I
    split at I
    · simp [hq] at I
    · simp [hq] at I
    · assumption
    · exact absurd I id
    · simp [hq] at I
    · simp [hq] at I
    · simp [hq] at I
  obtain ⟨h1, h2, h3, -⟩ := shutdown_returns c rs b u t h hd
  rw [hq] at h2
  exact ⟨h2.symm, hd, h1 (.inr h2.symm), h3 h2.symm⟩

/-- C71: when all engines have answered, the call ends, with `hub=True` after the hub's reply. -/
theorem shutdown_ends (c : IPP.Client.Client) (rs b u : Bool) (t : Target) (h : List Ev) (ha : ∀ i, i < (run c (.shutdown rs b u) t h).sent.length → firstReply i h ≠ none) :
    ∃ n, (u = false → IsOver (run c (.shutdown rs b u) t (h ++ mains n))) ∧ ∀ r, IsOver (run c (.shutdown rs b u) t (h ++ mains n ++ [.hubReply r, .main])) := by
  have ha' : AllAnswered (run c (.shutdown rs b u) t h) := by
    intro i hi
    rw [got_eq]; simpa [hi] using ha i hi
  have over : ∀ (k : List Ev) (r : Reply), IsOver (run c (.shutdown rs b u) t k) → IsOver (run c (.shutdown rs b u) t (k ++ [.hubReply r, .main])) := by
    rintro k r ⟨x, hx⟩
    rw [run_append]
    simp only [List.foldl_cons, List.foldl_nil, step]
    split <;> exact ⟨x, by simp [main, hx]⟩
  have hub : ∀ (k : List Ev) (r : Reply) er, (run c (.shutdown rs b u) t k).pc = .hub er → IsOver (run c (.shutdown rs b u) t (k ++ [.hubReply r, .main])) := by
    intro k r er hx
    have I := pcS c rs b u t k
    simp only [PcS, hx] at I
    rw [run_append]
    simp only [List.foldl_cons, List.foldl_nil, step]
    cases hg : (run c (.shutdown rs b u) t k).hubGot with
    | none =>
      simp only [I.2.2.1, and_self, if_true, main, hx]
      cases r with
      | ok => exact ⟨_, rfl⟩
      | error e => exact ⟨_, rfl⟩
    | some x =>
      rw [if_neg (by simp)]
      simp only [main, hx, hg]
      cases x with
      | ok => exact ⟨_, rfl⟩
      | error e => exact ⟨_, rfl⟩
  have fin : ∀ k : List Ev, (IsOver (run c (.shutdown rs b u) t k) ∨ ∃ er, (run c (.shutdown rs b u) t k).pc = .hub er) →
      (u = false → IsOver (run c (.shutdown rs b u) t k)) ∧ ∀ r, IsOver (run c (.shutdown rs b u) t (k ++ [.hubReply r, .main])) := by
    intro k hk
    rcases hk with hk | ⟨er, hk⟩
    · exact ⟨fun _ => hk, fun r => over k r hk⟩
    · refine ⟨fun hu => ?_, fun r => hub k r er hk⟩
      have I := pcS c rs b u t k
      simp only [PcS, hk] at I
      rw [hu] at I
      cases I.2.1
  cases hp : (run c (.shutdown rs b u) t h).pc with
  | over r => exact ⟨0, by simpa [mains] using fin h (.inl ⟨r, hp⟩)⟩
  | hub err => exact ⟨0, by simpa [mains] using fin h (.inr ⟨err, hp⟩)⟩
  | engines i err =>
    obtain ⟨n, hn⟩ := through _ ha' i err hp
    rw [← run_append] at hn
    exact ⟨n, fin _ hn⟩

/-- C71: `restart=True` is an error at once and asks nobody. -/
theorem shutdown_restart (c : IPP.Client.Client) (b u : Bool) (t : Target) : Ended (start c (.shutdown true b u) t) (.raised .notImplemented) ∧ (start c (.shutdown true b u) t).sent = [] := by
  simp [start, Ended]

/-- C71: without any engine, `shutdown` is not an error: it returns normally, after asking the hub if that was wanted. -/
theorem shutdown_no_engines (c : IPP.Client.Client) (b u : Bool) (t : Target) (hn : buildTargets c (if u then .all else t) = .error .noEngines) :
    Ended (run c (.shutdown false b u) t (if u then [.main, .hubReply .ok, .main] else [.main])) .done := by
  cases u <;> cases b <;> simp_all [run, start, orNone, step, main, afterLoop, finish, Ended]

/-- An engine that does not answer (C66: because it died after the request was sent): a shutdown that waits for it never ends, and the hub is never asked to stop. -/
theorem shutdown_silent_engine_violated (c : IPP.Client.Client) (b u : Bool) (t : Target) (h : List Ev) (hb : b = true ∨ u = true) (k : Nat)
    (hk : k < (run c (.shutdown false b u) t h).sent.length) (hn : firstReply k h = none) :
    ¬ IsOver (run c (.shutdown false b u) t h) ∧ (run c (.shutdown false b u) t h).hubAsked = false := by
  have hq : (run c (.shutdown false b u) t h).hubAsked = false := by
    cases hx : (run c (.shutdown false b u) t h).hubAsked with
    | false => rfl
    | true => exact absurd hn ((hub_last c false b u t h hx).2.2 k hk)
  refine ⟨?_, hq⟩
  rintro ⟨r, hr⟩
  have I := pcS c false b u t h
  simp only [PcS, hr] at I
  cases r with
  | done => rw [(shutdown_returns c false b u t h hr).1 hb k hk] at hn; cases hn
  | future => exact I
  | raised x =>
    cases x with
    | target e => simp only at I; rw [I.2.2.2.1] at hk; simp at hk
    | notImplemented => simp only at I; cases I.1
    | remote e => exact (shutdown_raises c false b u t h e hr).1 k hk hn

/-- A shutdown that does not wait (`block=False`, no hub) returns None at once and never tells about errors. -/
theorem shutdown_async_silent_violated (c : IPP.Client.Client) (t : Target) (h : List Ev) (hx : ∃ us es, buildTargets c t = .ok (us, es)) :
    Ended (run c (.shutdown false false false) t h) .done := by
  obtain ⟨us, es, he⟩ := hx
  have h0 : (start c (.shutdown false false false) t).pc = .over .done := by simp [start, he, orNone]
  induction h using snoc_ind with
  | h0 => exact h0
  | h1 l a ih =>
    rw [run_snoc]
    simp only [Ended] at ih ⊢
    cases a with
    | reply i r => simp only [step]; split <;> simp [ih]
    | hubReply r => simp only [step]; split <;> simp [ih]
    | main => simp only [step, main, ih]

/-! ## a concrete case -/

/-- three engines with ids 0, 1, 3 -/
def exEvs : List IPP.Client.Ev := [.register 0 10, .register 1 11, .register 3 13]
def exC : IPP.Client.Client := IPP.Client.run exEvs

example : buildTargets exC (.coll [3, 0]) = .ok ([13, 10], [3, 0]) := by decide +kernel
example : (run exC (.request true) (.coll [3, 0]) []).sent = [13, 10] := by decide +kernel
example : (run exC (.request true) (.coll [3, 0]) [.reply 1 .ok, .main, .reply 0 .ok, .main, .main, .main]).pc = .over .done := by decide +kernel
example : (run exC (.request true) .all [.main, .reply 2 (.error 7), .reply 0 .ok, .reply 1 (.error 5), .main, .main, .main]).pc = .over (.raised (.remote 5)) := by decide +kernel
example : (run exC (.shutdown false false true) (.int 0) [.reply 2 (.error 7), .reply 0 .ok, .reply 1 (.error 5), .main, .main, .main, .main, .hubReply .ok, .main]).pc =
  .over (.raised (.remote 7)) := by decide +kernel
example : (run exC (.shutdown false false true) (.int 0) [.reply 2 .ok, .reply 0 .ok, .reply 1 .ok, .main, .main, .main, .main, .hubReply .ok, .main]).closed = true := by decide +kernel
example : (run exC (.request false) (.int 1) [.reply 0 (.error 1)]).pc = .over .future ∧ futureValue (run exC (.request false) (.int 1) [.reply 0 (.error 1)]) = some [.error 1] := by
  constructor <;> decide +kernel
example : (run exC (.request true) (.int 7) []).pc = .over (.raised (.target .index)) := by decide +kernel

end IPP.Control
