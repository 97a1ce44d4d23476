import Verif.HubQ.Model
/-!
# C81: every request to the hub is answered exactly once, and a call gets the answer to its own request
-/
namespace IPP.HubQ

namespace Spec

/-- messages to the sender of the request -/
def toClient (l : List Send) : List Send := l.filter fun m => decide (m.dest = .client)

/-- requests that have an answer -/
def Answerable (k : Kind) : Prop := k ≠ .registration ∧ k ≠ .unregistration

end Spec

/-! ## handlers -/

/-- sends nothing to the client -/
def Quiet {α : Type} (x : H α) : Prop := ∀ env, Spec.toClient (x env).2 = []

/-- never raises -/
def Safe {α : Type} (x : H α) : Prop := ∀ env, (x env).1.isSome

/-- replies once, or raises before it has replied -/
def Final (k : Kind) (x : H Unit) : Prop := ∀ env,
  match (x env).1 with
  | none => Spec.toClient (x env).2 = []
  | some _ => ∃ t ok, Spec.toClient (x env).2 = [⟨.client, t, ok, true⟩] ∧ (t = .reply k ∨ (t = .hubError ∧ ok = false))

theorem toClient_append (a b : List Send) : Spec.toClient (a ++ b) = Spec.toClient a ++ Spec.toClient b := by simp [Spec.toClient]

theorem bind_eval {α β : Type} (x : H α) (f : α → H β) (env : Env) : (x >>= f) env = (match x env with
    | (none, s) => (none, s)
    | (some a, s) => ((f a env).1, s ++ (f a env).2)) := rfl

theorem Quiet.bind {α β : Type} {x : H α} {f : α → H β} (hx : Quiet x) (hf : ∀ a, Quiet (f a)) : Quiet (x >>= f) := by
  intro env
  rw [bind_eval]
  have := hx env
  split
  · rename_i s h; rw [h] at this; exact this
  · rename_i a s h; rw [h] at this; simp only at this ⊢; rw [toClient_append, this, hf a env]; rfl

theorem Quiet.pure {α : Type} (a : α) : Quiet (Pure.pure a : H α) := fun _ => rfl
theorem Quiet.may (o : Op) : Quiet (may o) := fun _ => rfl
theorem Quiet.ask {α : Type} (f : Env → α) : Quiet (ask f) := fun _ => rfl
theorem Quiet.attempt {x : H Unit} (hx : Quiet x) : Quiet (attempt x) := fun env => hx env
theorem Quiet.send {m : Send} (h : m.dest ≠ .client) : Quiet (send m) := fun env => by simp [HubQ.send, Spec.toClient, h]
theorem Quiet.loop {f : Nat → H Unit} (hf : ∀ i, Quiet (f i)) (n : Nat) : Quiet (loop f n) := by
  induction n with
  | zero => exact Quiet.pure ()
  | succ n ih => exact Quiet.bind ih (fun _ => hf n)
theorem Quiet.ite {α : Type} {b : Prop} [Decidable b] {x y : H α} (hx : Quiet x) (hy : Quiet y) : Quiet (if b then x else y) := by
  split
  · exact hx
  · exact hy

theorem Final.bind {α : Type} {k : Kind} {x : H α} {f : α → H Unit} (hx : Quiet x) (hf : ∀ a, Final k (f a)) : Final k (x >>= f) := by
  intro env
  have h1 := hx env
  rw [bind_eval]
  cases hxe : x env with
  | mk r s =>
    rw [hxe] at h1
    cases r with
    | none => exact h1
    | some a =>
      have h2 := hf a env
      simp only
      rw [toClient_append]
      simp only at h1
      rw [h1, List.nil_append]
      exact h2

theorem Final.ite {k : Kind} {b : Prop} [Decidable b] {x y : H Unit} (hx : Final k x) (hy : Final k y) : Final k (if b then x else y) := by
  split
  · exact hx
  · exact hy

theorem Final.andThen {k : Kind} {x : H Unit} {y : H Unit} (hx : Final k x) (hy : Quiet y) (hs : Safe y) : Final k (x >>= fun _ => y) := by
  intro env
  have h1 := hx env
  rw [bind_eval]
  cases hxe : x env with
  | mk r s =>
    rw [hxe] at h1
    cases r with
    | none => exact h1
    | some a =>
      have h2 := hs env
      cases hye : (y env).1 with
      | none => rw [hye] at h2; cases h2
      | some b =>
        simp only [hye]
        rw [toClient_append, hy env, List.append_nil]
        exact h1

theorem Final.sendReply (k : Kind) (ok : Bool) : Final k (sendReply k ok) := by
  refine Final.bind (Quiet.may _) (fun _ env => ?_)
  exact ⟨.reply k, ok, rfl, Or.inl rfl⟩
theorem Final.sendErr (k : Kind) : Final k (sendErr k) := fun _ => ⟨.reply k, false, rfl, Or.inl rfl⟩
theorem Final.hubError (k : Kind) : Final k hubError := fun _ => ⟨.hubError, false, rfl, Or.inr ⟨rfl, rfl⟩⟩

theorem quiet_purgeEngines (n : Nat) : Quiet (purgeEngines n) := by
  induction n with
  | zero => exact Quiet.pure _
  | succ n ih =>
    refine Quiet.bind ih (fun b => ?_)
    refine Quiet.ite ?_ (Quiet.pure _)
    refine Quiet.bind (Quiet.ask _) (fun b => Quiet.ite (Quiet.attempt (Quiet.may _)) (Quiet.pure _))

theorem quiet_resubmitLoop (n : Nat) : Quiet (resubmitLoop n) := by
  induction n with
  | zero => exact Quiet.pure _
  | succ n ih =>
    refine Quiet.bind ih (fun b => Quiet.ite ?_ (Quiet.pure _))
    exact Quiet.bind (Quiet.may _) (fun _ => Quiet.bind (Quiet.may _) (fun _ => Quiet.bind (Quiet.send (by simp)) (fun _ => Quiet.attempt (Quiet.may _))))

theorem quiet_resultLoop (n : Nat) : Quiet (resultLoop n) := by
  induction n with
  | zero => exact Quiet.pure _
  | succ n ih =>
    refine Quiet.bind ih (fun b => Quiet.ite ?_ (Quiet.pure _))
    refine Quiet.bind (Quiet.ask _) (fun kn => ?_)
    cases kn with
    | pending => exact Quiet.pure _
    | completed => exact Quiet.bind (Quiet.ask _) (fun b => Quiet.ite (Quiet.pure _) (Quiet.bind (Quiet.may _) (fun _ => Quiet.pure _)))
    | recordDone => exact Quiet.bind (Quiet.may _) (fun _ => Quiet.pure _)
    | recordOpen => exact Quiet.pure _
    | missing => exact Quiet.bind (Quiet.may _) (fun _ => Quiet.pure _)

theorem safe_updates (n : Nat) : Safe (loop (fun i => do let _ ← attempt (may (.updateRecord i)); pure ()) n) := by
  induction n with
  | zero => intro env; rfl
  | succ n ih =>
    intro env
    have := ih env
    show ((HubQ.loop _ n >>= fun _ => _) env).1.isSome
    rw [bind_eval]
    cases h : (HubQ.loop (fun i => do let _ ← attempt (may (.updateRecord i)); Pure.pure ()) n) env with
    | mk r s =>
      rw [h] at this
      cases r with
      | none => cases this
      | some a => rfl

theorem final_handler {k : Kind} (hk : Spec.Answerable k) {h : H Unit} (hh : handler k = some h) : Final k h := by
  have hlook : ∀ n, Quiet (loop (fun i => may (.look i)) n) := fun n => Quiet.loop (fun i => Quiet.may _) n
  cases k <;> simp only [handler, Option.some.injEq, reduceCtorEq] at hh <;> try subst hh
  · -- queue
    refine Final.bind (Quiet.may _) (fun _ => Final.bind (Quiet.attempt (Quiet.may _)) (fun b => Final.ite ?_ (Final.hubError _)))
    exact Final.bind (Quiet.ask _) (fun n => Final.bind (hlook n) (fun _ => Final.sendReply _ _))
  · -- result
    refine Final.bind (Quiet.may _) (fun _ => Final.bind (Quiet.may _) (fun _ => Final.bind (Quiet.ask _) (fun b => ?_)))
    have tail : ∀ found : Bool, Final .result (if found = true then (do let n ← ask Env.n; let ok ← resultLoop n; if ok = true then sendReply .result true else sendErr .result) else sendErr .result) := by
      intro found
      refine Final.ite ?_ (Final.sendErr _)
      exact Final.bind (Quiet.ask _) (fun n => Final.bind (quiet_resultLoop n) (fun b => Final.ite (Final.sendReply _ _) (Final.sendErr _)))
    exact Final.ite (Final.bind (Quiet.pure _) tail) (Final.bind (Quiet.attempt (Quiet.may _)) tail)
  · -- history
    exact Final.bind (Quiet.attempt (Quiet.may _)) (fun b => Final.ite (Final.sendReply _ _) (Final.sendErr _))
  · -- db
    refine Final.bind (Quiet.may _) (fun _ => Final.bind (Quiet.attempt (Quiet.may _)) (fun b => Final.ite ?_ (Final.sendErr _)))
    exact Final.bind (Quiet.ask _) (fun n => Final.bind (hlook n) (fun _ => Final.sendReply _ _))
  · -- purge
    refine Final.bind (Quiet.ask _) (fun b => ?_)
    refine Final.ite (Final.bind (Quiet.attempt (Quiet.may _)) (fun ok => Final.sendReply _ _)) ?_
    refine Final.bind (Quiet.may _) (fun _ => Final.bind (Quiet.ask _) (fun p => ?_))
    have tail : ∀ ok : Bool, Final .purge (if ok = true then (do let n ← ask Env.n; let ok ← purgeEngines n; sendReply .purge ok) else (do let ok ← pure false; sendReply .purge ok)) := by
      intro ok
      refine Final.ite ?_ (Final.bind (Quiet.pure _) (fun _ => Final.sendReply _ _))
      exact Final.bind (Quiet.ask _) (fun n => Final.bind (quiet_purgeEngines n) (fun _ => Final.sendReply _ _))
    exact Final.ite (Final.bind (Quiet.pure _) tail) (Final.bind (Quiet.attempt (Quiet.may _)) tail)
  · -- load
    refine Final.bind (Quiet.attempt (Quiet.bind (Quiet.may _) (fun _ => Quiet.may _))) (fun b => Final.ite ?_ (Final.hubError _))
    exact Final.bind (Quiet.ask _) (fun n => Final.bind (hlook n) (fun _ => Final.sendReply _ _))
  · -- resubmit
    refine Final.bind (Quiet.may _) (fun _ => Final.bind (Quiet.attempt (Quiet.may _)) (fun b => Final.ite ?_ (Final.sendErr _)))
    refine Final.bind (Quiet.may _) (fun _ => Final.bind (Quiet.ask _) (fun o => ?_))
    cases o with
    | lt => exact Final.sendErr _
    | gt => exact Final.sendErr _
    | eq =>
      refine Final.bind (Quiet.ask _) (fun n => Final.bind (quiet_resubmitLoop n) (fun b => Final.ite ?_ (Final.sendErr _)))
      refine Final.andThen (Final.sendReply _ _) (Quiet.bind (Quiet.ask _) (fun n => Quiet.loop (fun i => Quiet.bind (Quiet.attempt (Quiet.may _)) (fun _ => Quiet.pure _)) n)) ?_
      intro env
      exact safe_updates env.n env
  · -- shutdown
    exact Final.andThen (Final.sendReply _ _) (Quiet.send (by simp)) (fun _ => rfl)
  · exact absurd rfl hk.1
  · exact absurd rfl hk.2
  · exact Final.sendReply _ _
  · -- becomeDask
    refine Final.bind (Quiet.ask _) (fun b => Final.ite (Final.sendReply _ _) ?_)
    exact Final.bind (Quiet.may _) (fun _ => Final.bind (Quiet.may _) (fun _ => Final.bind (Quiet.may _) (fun _ => Final.sendReply _ _)))
  · -- stopDistributed
    exact Final.bind (Quiet.ask _) (fun b => Final.ite (Final.bind (Quiet.may _) (fun _ => Final.sendReply _ _)) (Final.sendReply _ _))

/-- **C81 (one answer).** Whatever raises while the hub handles a request — missing fields, unknown targets or ids, database errors, content that cannot be packed, an unknown type of request — its sender is sent exactly one message, which names the request as its parent and is the reply of that kind or a `hub_error`. (Registrations and unregistrations of engines are not such requests.) -/
theorem one_answer (k : Kind) (hk : Spec.Answerable k) (env : Env) :
    ∃ t ok, Spec.toClient (dispatch k env) = [⟨.client, t, ok, true⟩] ∧ (t = .reply k ∨ (t = .hubError ∧ ok = false)) := by
  unfold dispatch
  split
  · exact ⟨.hubError, false, rfl, Or.inr ⟨rfl, rfl⟩⟩
  · rename_i h hh
    have hf := final_handler hk hh env
    split
    · rename_i u s he; rw [he] at hf; exact hf
    · rename_i s he
      rw [he] at hf
      simp only at hf
      rw [toClient_append, hf]
      exact ⟨.hubError, false, rfl, Or.inr ⟨rfl, rfl⟩⟩

end IPP.HubQ
