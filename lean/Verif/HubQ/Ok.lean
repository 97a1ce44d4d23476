import Verif.HubQ.Props
/-!
# C81: the answer is `ok` exactly if the request succeeded
-/
namespace IPP.HubQ

namespace Spec

/-- what must go well for a request of this kind to succeed -/
def Succeeds (env : Env) : Kind → Prop
  | .connection | .shutdown => env.ok .pack
  | .history => env.ok .find ∧ env.ok .pack
  | .queue | .load => env.ok .content ∧ env.ok .validate ∧ (∀ i < env.n, env.ok (.look i)) ∧ env.ok .pack
  | .db => env.ok (.data 0) ∧ env.ok .find ∧ (∀ i < env.n, env.ok (.look i)) ∧ env.ok .pack
  | .purge => env.ok .pack ∧ env.ok (.drop 0) ∧ (env.all = false → env.ok (.data 0) ∧ env.pending = false ∧ ∀ i < env.n, env.engine i ∧ env.ok (.drop (i + 1)))
  | .resubmit => env.ok .content ∧ env.ok .find ∧ env.ok (.data 0) ∧ env.found = .eq ∧ (∀ i < env.n, env.ok (.data (i + 1)) ∧ env.ok (.forward i) ∧ env.ok (.addRecord i)) ∧ env.ok .pack
  | .result => env.ok .content ∧ env.ok (.data 0) ∧ (env.statusOnly = true ∨ env.ok .find) ∧
      (∀ i < env.n, env.known i ≠ .missing ∧ ((env.known i = .completed ∧ env.statusOnly = false) ∨ env.known i = .recordDone → env.ok (.look i))) ∧ env.ok .pack
  | .becomeDask => (env.dask = true ∨ env.ok (.data 0) ∧ env.ok .importDask ∧ env.ok .awaitDask) ∧ env.ok .pack
  | .stopDistributed => (env.dask = true → env.ok .closeDask) ∧ env.ok .pack
  | .registration | .unregistration | .unknown _ => False

end Spec

/-- an `ok` message is sent to the client -/
def Oks {α : Type} (x : H α) (env : Env) : Prop := ∃ m ∈ Spec.toClient (x env).2, m.ok = true

theorem oks_bind {α β : Type} {x : H α} {f : α → H β} (hx : Quiet x) (env : Env) : Oks (x >>= f) env ↔ ∃ a, (x env).1 = some a ∧ Oks (f a) env := by
  have h := hx env
  unfold Oks
  rw [bind_eval]
  cases hxe : x env with
  | mk r s =>
    rw [hxe] at h
    simp only at h
    cases r with
    | none => simp [h]
    | some a => simp [toClient_append, h]

theorem oks_may {β : Type} (o : Op) (f : Unit → H β) (env : Env) : Oks (may o >>= f) env ↔ env.ok o = true ∧ Oks (f ()) env := by
  rw [oks_bind (Quiet.may o)]
  simp only [may]
  constructor
  · rintro ⟨a, h1, h2⟩
    split at h1
    · rename_i h; exact ⟨h, h2⟩
    · cases h1
  · rintro ⟨h1, h2⟩
    exact ⟨(), by simp [h1], h2⟩

theorem oks_ask {α β : Type} (g : Env → α) (f : α → H β) (env : Env) : Oks (ask g >>= f) env ↔ Oks (f (g env)) env := by
  rw [oks_bind (Quiet.ask g)]
  simp [ask]

theorem oks_attempt_may {β : Type} (o : Op) (f : Bool → H β) (env : Env) : Oks (attempt (may o) >>= f) env ↔ Oks (f (env.ok o)) env := by
  rw [oks_bind (Quiet.attempt (Quiet.may o))]
  simp only [attempt, may]
  cases env.ok o <;> simp

theorem oks_sendReply (k : Kind) (ok : Bool) (env : Env) : Oks (sendReply k ok) env ↔ env.ok .pack = true ∧ ok = true := by
  unfold sendReply
  rw [oks_may]
  simp [Oks, send, Spec.toClient]

theorem oks_sendErr (k : Kind) (env : Env) : ¬ Oks (sendErr k) env := by simp [Oks, sendErr, send, Spec.toClient]
theorem oks_hubError (env : Env) : ¬ Oks hubError env := by simp [Oks, hubError, send, Spec.toClient]

theorem oks_ite {α : Type} (b : Bool) (x y : H α) (env : Env) : Oks (if b = true then x else y) env ↔ (b = true ∧ Oks x env) ∨ (b = false ∧ Oks y env) := by
  cases b <;> simp

theorem oks_pure {α β : Type} (a : α) (f : α → H β) (env : Env) : Oks (pure a >>= f) env ↔ Oks (f a) env := by
  rw [oks_bind (Quiet.pure a)]
  simp [Pure.pure, H.pure]

theorem bind_some {α β : Type} (x : H α) (f : α → H β) (env : Env) (b : β) : ((x >>= f) env).1 = some b ↔ ∃ a, (x env).1 = some a ∧ (f a env).1 = some b := by
  rw [bind_eval]
  cases x env with
  | mk r s => cases r <;> simp

theorem may_some (o : Op) (env : Env) (u : Unit) : (may o env).1 = some u ↔ env.ok o = true := by
  cases u
  simp [may]

theorem loop_some (f : Nat → H Unit) (P : Nat → Prop) (env : Env) (hf : ∀ i, (f i env).1 = some () ↔ P i) (n : Nat) : (loop f n env).1 = some () ↔ ∀ i < n, P i := by
  induction n with
  | zero => simp [loop, Pure.pure, H.pure]
  | succ n ih =>
    show ((loop f n >>= fun _ => f n) env).1 = some () ↔ _
    rw [bind_some]
    constructor
    · rintro ⟨a, h1, h2⟩ i hi
      rcases Nat.lt_succ_iff_lt_or_eq.1 hi with h | rfl
      · exact ih.1 h1 i h
      · exact (hf _).1 h2
    · intro h
      exact ⟨(), ih.2 (fun i hi => h i (Nat.lt_succ_of_lt hi)), (hf n).2 (h n (Nat.lt_succ_self n))⟩

theorem oks_look {β : Type} (n : Nat) (f : Unit → H β) (env : Env) : Oks (loop (fun i => may (.look i)) n >>= f) env ↔ (∀ i < n, env.ok (.look i) = true) ∧ Oks (f ()) env := by
  rw [oks_bind (Quiet.loop (fun i => Quiet.may _) n)]
  have := loop_some (fun i => may (.look i)) (fun i => env.ok (.look i) = true) env (fun i => may_some _ _ _) n
  constructor
  · rintro ⟨a, h1, h2⟩; exact ⟨this.1 h1, h2⟩
  · rintro ⟨h1, h2⟩; exact ⟨(), this.2 h1, h2⟩

theorem purgeEngines_true (n : Nat) (env : Env) : (purgeEngines n env).1 = some true ↔ ∀ i < n, env.engine i = true ∧ env.ok (.drop (i + 1)) = true := by
  induction n with
  | zero => simp [purgeEngines, Pure.pure, H.pure]
  | succ n ih =>
    unfold purgeEngines
    rw [bind_some]
    have hstep : ∀ a : Bool, ((if a = true then (do let b ← ask (fun env => env.engine n); if b = true then attempt (may (.drop (n + 1))) else pure false) else pure false : H Bool) env).1 = some true ↔
        a = true ∧ env.engine n = true ∧ env.ok (.drop (n + 1)) = true := by
      intro a
      cases a with
      | false => simp [Pure.pure, H.pure]
      | true =>
        simp only [if_true, true_and]
        rw [bind_some]
        simp only [ask, Option.some.injEq, exists_eq_left']
        cases env.engine n with
        | false => simp [Pure.pure, H.pure]
        | true => simp [attempt, may]
    constructor
    · rintro ⟨a, h1, h2⟩ i hi
      obtain ⟨ha, h3⟩ := (hstep a).1 h2
      subst ha
      rcases Nat.lt_succ_iff_lt_or_eq.1 hi with h | rfl
      · exact ih.1 h1 i h
      · exact h3
    · intro h
      exact ⟨true, ih.2 (fun i hi => h i (Nat.lt_succ_of_lt hi)), (hstep true).2 ⟨rfl, h n (Nat.lt_succ_self n)⟩⟩

theorem resubmitLoop_true (n : Nat) (env : Env) : (resubmitLoop n env).1 = some true ↔ ∀ i < n, env.ok (.data (i + 1)) = true ∧ env.ok (.forward i) = true ∧ env.ok (.addRecord i) = true := by
  induction n with
  | zero => simp [resubmitLoop, Pure.pure, H.pure]
  | succ n ih =>
    unfold resubmitLoop
    rw [bind_some]
    have hstep : ∀ a : Bool, ((if a = true then resubmitOne n else pure false : H Bool) env).1 = some true ↔ a = true ∧ env.ok (.data (n + 1)) = true ∧ env.ok (.forward n) = true ∧ env.ok (.addRecord n) = true := by
      intro a
      cases a with
      | false => simp [Pure.pure, H.pure]
      | true =>
        simp only [if_true, true_and, resubmitOne]
        rw [bind_some]
        simp only [may_some, exists_and_left, exists_const]
        rw [bind_some]
        simp only [may_some, exists_and_left, exists_const]
        rw [bind_some]
        simp [send, attempt, may]
    constructor
    · rintro ⟨a, h1, h2⟩ i hi
      obtain ⟨ha, h3⟩ := (hstep a).1 h2
      subst ha
      rcases Nat.lt_succ_iff_lt_or_eq.1 hi with h | rfl
      · exact ih.1 h1 i h
      · exact h3
    · intro h
      exact ⟨true, ih.2 (fun i hi => h i (Nat.lt_succ_of_lt hi)), (hstep true).2 ⟨rfl, h n (Nat.lt_succ_self n)⟩⟩

theorem resultLoop_true (n : Nat) (env : Env) : (resultLoop n env).1 = some true ↔
    ∀ i < n, env.known i ≠ .missing ∧ ((env.known i = .completed ∧ env.statusOnly = false) ∨ env.known i = .recordDone → env.ok (.look i) = true) := by
  induction n with
  | zero => simp [resultLoop, Pure.pure, H.pure]
  | succ n ih =>
    unfold resultLoop
    rw [bind_some]
    have hstep : ∀ a : Bool, ((if a = true then (do
        match ← ask (fun env => env.known n) with
        | .pending => pure true
        | .completed => do if ← ask Env.statusOnly then pure true else do may (.look n); pure true
        | .recordDone => do may (.look n); pure true
        | .recordOpen => pure true
        | .missing => do may (.data (n + 1)); pure false) else pure false : H Bool) env).1 = some true ↔
        a = true ∧ env.known n ≠ .missing ∧ ((env.known n = .completed ∧ env.statusOnly = false) ∨ env.known n = .recordDone → env.ok (.look n) = true) := by
      intro a
      cases a with
      | false => simp [Pure.pure, H.pure]
      | true =>
        simp only [if_true, true_and]
        rw [bind_some]
        simp only [ask, Option.some.injEq, exists_eq_left']
        have hlook : (((do may (.look n); pure true) : H Bool) env).1 = some true ↔ env.ok (.look n) = true := by
          rw [bind_some]
          simp only [may_some, exists_and_left, exists_const]
          simp [Pure.pure, H.pure]
        cases hk : env.known n with
        | pending => simp [Pure.pure, H.pure]
        | completed =>
          simp only
          rw [bind_some]
          simp only [ask, Option.some.injEq, exists_eq_left']
          cases hs : env.statusOnly with
          | true => simp [Pure.pure, H.pure]
          | false =>
            simp only [Bool.false_eq_true, if_false]
            rw [hlook]; simp
        | recordDone => simp only; rw [hlook]; simp
        | recordOpen => simp [Pure.pure, H.pure]
        | missing =>
          simp only
          rw [bind_some]
          simp [Pure.pure, H.pure]
    constructor
    · rintro ⟨a, h1, h2⟩ i hi
      obtain ⟨ha, h3⟩ := (hstep a).1 h2
      subst ha
      rcases Nat.lt_succ_iff_lt_or_eq.1 hi with h | rfl
      · exact ih.1 h1 i h
      · exact h3
    · intro h
      exact ⟨true, ih.2 (fun i hi => h i (Nat.lt_succ_of_lt hi)), (hstep true).2 ⟨rfl, h n (Nat.lt_succ_self n)⟩⟩

theorem oks_of_bool {β : Type} {x : H Bool} (hx : Quiet x) (f : Bool → H β) (env : Env) (hf : ¬ Oks (f false) env) : Oks (x >>= f) env ↔ (x env).1 = some true ∧ Oks (f true) env := by
  rw [oks_bind hx]
  constructor
  · rintro ⟨a, h1, h2⟩
    cases a with
    | false => exact absurd h2 hf
    | true => exact ⟨h1, h2⟩
  · rintro ⟨h1, h2⟩; exact ⟨true, h1, h2⟩

/-- the answer of a handler that may raise is ok iff it sends an ok message -/
theorem dispatch_ok {k : Kind} {h : H Unit} (hh : handler k = some h) (env : Env) : (∃ m ∈ Spec.toClient (dispatch k env), m.ok = true) ↔ Oks h env := by
  unfold dispatch Oks
  rw [hh]
  simp only
  split
  · rename_i u s he; rw [he]
  · rename_i s he
    rw [he]
    simp [toClient_append, hubError, send, Spec.toClient]

/-- **C81 (honest answers).** The answer to a request says `ok` exactly if everything needed for that request succeeded: an exception while handling it is never reported as success, and a success never as an error. -/
theorem ok_iff_succeeds (k : Kind) (hk : Spec.Answerable k) (env : Env) : (∃ m ∈ Spec.toClient (dispatch k env), m.ok = true) ↔ Spec.Succeeds env k := by
  cases k with
  | queue =>
    rw [dispatch_ok rfl]
    unfold queueStatus
    rw [oks_may, oks_attempt_may, oks_ite, oks_ask, oks_look, oks_sendReply]
    simp [oks_hubError, Spec.Succeeds]
  | load =>
    rw [dispatch_ok rfl]
    unfold checkLoad
    have hval : ((do may .content; may .validate : H Unit) env).1.isSome = (env.ok .content && env.ok .validate) := by
      show ((may .content >>= fun _ => may .validate) env).1.isSome = _
      rw [bind_eval]
      simp only [may]
      cases env.ok .content <;> cases env.ok .validate <;> rfl
    rw [oks_bind (Quiet.attempt (Quiet.bind (Quiet.may _) (fun _ => Quiet.may _)))]
    simp only [attempt, Option.some.injEq, exists_eq_left', hval]
    rw [oks_ite, oks_ask, oks_look, oks_sendReply]
    simp [oks_hubError, Spec.Succeeds, and_assoc]
  | history =>
    rw [dispatch_ok rfl]
    unfold getHistory
    rw [oks_attempt_may, oks_ite, oks_sendReply]
    simp [oks_sendErr, Spec.Succeeds]
  | db =>
    rw [dispatch_ok rfl]
    unfold dbQuery
    rw [oks_may, oks_attempt_may, oks_ite, oks_ask, oks_look, oks_sendReply]
    simp [oks_sendErr, Spec.Succeeds]
  | connection =>
    rw [dispatch_ok rfl]
    unfold connectionRequest
    rw [oks_sendReply]
    simp [Spec.Succeeds]
  | shutdown =>
    rw [dispatch_ok rfl]
    unfold shutdownRequest
    have : Oks (sendReply .shutdown true >>= fun _ => send ⟨.notifier, .notification, true, true⟩) env ↔ Oks (sendReply .shutdown true) env := by
      unfold Oks
      rw [bind_eval]
      cases hs : sendReply .shutdown true env with
      | mk r s => cases r <;> simp [toClient_append, send, Spec.toClient]
    rw [this, oks_sendReply]
    simp [Spec.Succeeds]
  | becomeDask =>
    rw [dispatch_ok rfl]
    unfold becomeDask
    rw [oks_ask]
    simp only
    rw [oks_ite, oks_sendReply, oks_may, oks_may, oks_may, oks_sendReply]
    simp only [Spec.Succeeds]
    cases env.dask <;> simp [and_assoc]
  | stopDistributed =>
    rw [dispatch_ok rfl]
    unfold stopDistributed
    rw [oks_ask]
    simp only
    rw [oks_ite, oks_may, oks_sendReply]
    simp only [Spec.Succeeds]
    cases env.dask <;> simp
  | purge =>
    rw [dispatch_ok rfl]
    unfold purgeResults
    rw [oks_ask]
    simp only
    rw [oks_ite, oks_attempt_may, oks_sendReply, oks_may, oks_ask]
    have tail : ∀ ok : Bool, Oks (if ok = true then (do let n ← ask Env.n; let ok ← purgeEngines n; sendReply .purge ok) else (do let ok ← pure false; sendReply .purge ok)) env ↔
        ok = true ∧ (∀ i < env.n, env.engine i = true ∧ env.ok (.drop (i + 1)) = true) ∧ env.ok .pack = true := by
      intro ok
      rw [oks_ite, oks_ask, oks_of_bool (quiet_purgeEngines _) _ _ (by rw [oks_sendReply]; simp), purgeEngines_true, oks_sendReply, oks_pure, oks_sendReply]
      simp
    rw [oks_ite, oks_pure, oks_attempt_may]
    simp only [tail, Spec.Succeeds]
    cases env.all <;> cases env.pending <;> cases env.ok (.drop 0) <;> cases env.ok .pack <;> simp
  | resubmit =>
    rw [dispatch_ok rfl]
    unfold resubmitTask
    rw [oks_may, oks_attempt_may, oks_ite, oks_may, oks_ask]
    simp only [Spec.Succeeds]
    have htail : Oks (sendReply .resubmit true >>= fun _ => (ask Env.n >>= fun n => loop (fun i => do let _ ← attempt (may (.updateRecord i)); pure ()) n)) env ↔ env.ok .pack = true := by
      have hq : Quiet (ask Env.n >>= fun n => loop (fun i => do let _ ← attempt (may (.updateRecord i)); pure ()) n) :=
        Quiet.bind (Quiet.ask _) (fun n => Quiet.loop (fun i => Quiet.bind (Quiet.attempt (Quiet.may _)) (fun _ => Quiet.pure _)) n)
      have : Oks (sendReply .resubmit true >>= fun _ => (ask Env.n >>= fun n => loop (fun i => do let _ ← attempt (may (.updateRecord i)); pure ()) n)) env ↔ Oks (sendReply .resubmit true) env := by
        have h1 := hq env
        unfold Oks
        rw [bind_eval]
        cases hs : sendReply .resubmit true env with
        | mk r s =>
          cases r with
          | none => rfl
          | some a => simp only [toClient_append, h1, List.append_nil]
      rw [this, oks_sendReply]; simp
    cases env.found with
    | lt => simp [oks_sendErr]
    | gt => simp [oks_sendErr]
    | eq =>
      simp only
      rw [oks_ask, oks_of_bool (quiet_resubmitLoop _) _ _ (by simp [oks_sendErr]), resubmitLoop_true]
      simp only [if_true]
      rw [htail]
      simp [oks_sendErr]
  | result =>
    rw [dispatch_ok rfl]
    unfold getResults
    rw [oks_may, oks_may, oks_ask]
    simp only
    have tail : ∀ found : Bool, Oks (if found = true then (do let n ← ask Env.n; let ok ← resultLoop n; if ok = true then sendReply .result true else sendErr .result) else sendErr .result) env ↔
        found = true ∧ (∀ i < env.n, env.known i ≠ .missing ∧ ((env.known i = .completed ∧ env.statusOnly = false) ∨ env.known i = .recordDone → env.ok (.look i) = true)) ∧ env.ok .pack = true := by
      intro found
      rw [oks_ite, oks_ask, oks_of_bool (quiet_resultLoop _) _ _ (by simp [oks_sendErr]), resultLoop_true]
      simp [oks_sendErr, oks_sendReply]
    rw [oks_ite, oks_pure, oks_attempt_may]
    have t1 := tail true
    have t2 := tail (env.ok .find)
    simp only [Spec.Succeeds]
    refine (and_congr Iff.rfl (and_congr Iff.rfl (or_congr (and_congr Iff.rfl t1) (and_congr Iff.rfl t2)))).trans ?_
    cases env.statusOnly <;> simp
  | registration => exact absurd rfl hk.1
  | unregistration => exact absurd rfl hk.2
  | unknown n => simp [dispatch, handler, hubError, send, Spec.toClient, Spec.Succeeds]

end IPP.HubQ
