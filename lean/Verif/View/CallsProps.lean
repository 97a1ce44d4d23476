import Verif.View.Calls

/-! # C94: what a view keeps about its calls, and what uses it -/
namespace IPP.ViewCalls
open IPP.Client (Client Mid Uuid Target Err value FreshIds created)
open IPP.View (lastN)

/-! ## Specification vocabulary -/

/-- the messages sent by a call, in order -/
def Core.sent (k : Core) : List Mid := k.evs.filterMap Client.Ev.sent

/-- the messages sent through view `v`, in order -/
def sentBy (v : Vid) (evs : List Ev) : List Mid := evs.flatMap (fun e => match e with
  | .call w k => if w = v then k.sent else []
  | .gather w ks => if w = v then ks.flatMap Core.sent else []
  | _ => [])

/-- the requests made through view `v`: the messages, and the parts of broadcasts that are not coalescing -/
def own (v : Vid) (evs : List Ev) : List Mid := evs.flatMap (fun e => match e with
  | .call w k => if w = v then created k.evs else []
  | .gather w ks => if w = v then ks.flatMap (fun k => created k.evs) else []
  | _ => [])

/-- everything that happens to the client -/
def clientEvs (evs : List Ev) : List Client.Ev := evs.flatMap (fun e => match e with
  | .client e => [e]
  | .call _ k => k.evs
  | .gather _ ks => ks.flatMap Core.evs
  | .spin _ => [])

/-- Every call of view `v` sends at least one message: it does not fail before that, and it has targets. -/
def Sends (v : Vid) (evs : List Ev) : Prop := ∀ e ∈ evs, match e with
  | .call w k => w = v → k.sent ≠ []
  | .gather w ks => w = v → ks ≠ [] ∧ ∀ k ∈ ks, k.sent ≠ []
  | _ => True

/-- no `gather` through `v` -/
def NoGather (v : Vid) (evs : List Ev) : Prop := ∀ ks, Ev.gather v ks ∉ evs

/-- a call of a direct or load-balanced view sends no broadcasts; during a broadcast no other message is sent (the calls do not overlap) -/
def Core.Ok : Core → Prop
  | .direct acts => ∀ e ∈ acts, ∀ n ts c, e ≠ .broadcast n ts c
  | .bcast _ _ _ after => ∀ e ∈ after, e.sent = none

/-- the calls are what calls are, and no message id is used twice -/
structure Good (evs : List Ev) : Prop where
  fresh : FreshIds (clientEvs evs)
  ok : ∀ e ∈ evs, match e with
    | .call _ k => k.Ok
    | .gather _ ks => ∀ k ∈ ks, k.Ok
    | _ => True

/-! ## The client -/

theorem foldl_flatMap_evs (ks : List Core) (c : Client) : (ks.flatMap Core.evs).foldl Client.step c = ks.foldl (fun c k => k.evs.foldl Client.step c) c := by
  induction ks generalizing c with
  | nil => rfl
  | cons k ks ih => rw [List.flatMap_cons, List.foldl_append, ih]; rfl

theorem saved_fold_client (ks : List Core) (s : Client × V) : (ks.foldl (fun s k => k.saved s) s).1 = ks.foldl (fun c k => k.evs.foldl Client.step c) s.1 := by
  induction ks generalizing s with
  | nil => rfl
  | cons k ks ih => simp only [List.foldl_cons]; rw [ih]; rfl

theorem step_client (s : State) (e : Ev) : (step s e).client = (clientEvs [e]).foldl Client.step s.client := by
  cases e with
  | client e => simp [step, clientEvs]
  | call v k => simp [step, clientEvs, State.set, Core.saved]
  | gather v ks =>
    have : clientEvs [Ev.gather v ks] = ks.flatMap Core.evs := by simp [clientEvs]
    rw [this, foldl_flatMap_evs]
    simp only [step, State.set, gathered]
    rw [saved_fold_client]
  | spin v => simp [step, clientEvs, State.set]

theorem clientEvs_snoc (evs : List Ev) (e : Ev) : clientEvs (evs ++ [e]) = clientEvs evs ++ clientEvs [e] := by simp [clientEvs]
theorem own_snoc (v : Vid) (evs : List Ev) (e : Ev) : own v (evs ++ [e]) = own v evs ++ own v [e] := by simp [own]
theorem sentBy_snoc (v : Vid) (evs : List Ev) (e : Ev) : sentBy v (evs ++ [e]) = sentBy v evs ++ sentBy v [e] := by simp [sentBy]
theorem run_snoc (evs : List Ev) (e : Ev) : run (evs ++ [e]) = step (run evs) e := by simp [run]

/-- What happens to the client does not depend on views. -/
theorem run_client (evs : List Ev) : (run evs).client = Client.run (clientEvs evs) := by
  induction evs using Client.snoc_induction with
  | h0 => rfl
  | h1 evs e ih => rw [run_snoc, step_client, clientEvs_snoc, ih]; simp [Client.run]

theorem step_history (s : Client) (e : Client.Ev) : (Client.step s e).history = s.history ++ (e.sent).toList := by
  open IPP.Client in
  cases e with
  | register e u => simp [Client.step, updateEngine, Ev.sent]
  | unregister e =>
    simp only [Client.step, unregister, Ev.sent, Option.toList_none, List.append_nil]
    split
    · split
      · rw [strand_history]
      · rfl
    · rfl
  | send m i => simp [Client.step, send, sendFinish, sendBegin, Ev.sent]
  | broadcast n ts c =>
    simp only [Client.step, broadcast, Ev.sent, Option.toList_some]
    split
    · rfl
    · rw [addParts_history]; rfl
  | reply m v us => simp [Client.step, handleReply_history, Ev.sent]
  | idle m =>
    simp only [Client.step, idle, Ev.sent, Option.toList_none, List.append_nil]
    split
    · rfl
    · split
      · rw [settle_history]
      · rfl
  | purge ms => simp only [Client.step, purgeIds, Ev.sent, Option.toList_none, List.append_nil]; split <;> rfl
  | purgeAll => simp only [Client.step, purgeAll, Ev.sent, Option.toList_none, List.append_nil]; split <;> rfl

theorem foldl_history (acts : List Client.Ev) (c : Client) : (acts.foldl Client.step c).history = c.history ++ acts.filterMap Client.Ev.sent := by
  induction acts generalizing c with
  | nil => simp
  | cons e acts ih =>
    rw [List.foldl_cons, ih, step_history, List.append_assoc]
    cases h : e.sent <;> simp [List.filterMap_cons, h]

theorem fold_cores_history (ks : List Core) (c : Client) : (ks.foldl (fun c k => k.evs.foldl Client.step c) c).history = c.history ++ ks.flatMap Core.sent := by
  rw [← foldl_flatMap_evs, foldl_history]
  congr 1
  induction ks with
  | nil => rfl
  | cons k ks ih => rw [List.flatMap_cons, List.filterMap_append, ih]; rfl

/-! ## The decorators -/

theorem mem_addAll {l ms : List Mid} {x : Mid} : x ∈ addAll l ms ↔ x ∈ l ∨ x ∈ ms := by
  unfold addAll
  induction ms generalizing l with
  | nil => simp
  | cons m ms ih =>
    rw [List.foldl_cons, ih, Client.mem_add, List.mem_cons]
    constructor
    · rintro ((h | h) | h)
      · exact .inl h
      · exact .inr (.inl h)
      · exact .inr (.inr h)
    · rintro (h | h | h)
      · exact .inl (.inl h)
      · exact .inl (.inr h)
      · exact .inr h

/-- `save_ids` after a call that has sent `new` -/
theorem save_eq (c0 c1 : Client) (v : V) (new : List Mid) (h : c1.history = c0.history ++ new) (hn : new ≠ []) :
    save c0 c1 v = { history := v.history ++ new, outstanding := addAll v.outstanding new } := by
  have hl : new.length ≠ 0 := by simpa using hn
  simp [save, h, lastN, hl]

/-- after a call that has sent nothing -/
theorem save_nothing (c0 c1 : Client) (v : V) (h : c1.history = c0.history) :
    save c0 c1 v = { history := v.history ++ c1.history, outstanding := addAll v.outstanding c1.history } := by
  simp [save, h, lastN]

theorem save_keeps (c0 c1 : Client) (v : V) (new : List Mid) (h : c1.history = c0.history ++ new) :
    (∀ m ∈ v.history, m ∈ (save c0 c1 v).history) ∧ (∀ m ∈ v.outstanding, m ∈ (save c0 c1 v).outstanding) ∧
    (∀ m ∈ new, m ∈ (save c0 c1 v).history ∧ m ∈ (save c0 c1 v).outstanding) := by
  by_cases hn : new = []
  · subst hn
    rw [save_nothing c0 c1 v (by simpa using h)]
    refine ⟨fun m hm => ?_, fun m hm => ?_, fun m hm => ?_⟩
    · exact List.mem_append.2 (.inl hm)
    · exact mem_addAll.2 (.inl hm)
    · cases hm
  · rw [save_eq c0 c1 v new h hn]
    refine ⟨fun m hm => ?_, fun m hm => ?_, fun m hm => ⟨?_, ?_⟩⟩
    · exact List.mem_append.2 (.inl hm)
    · exact mem_addAll.2 (.inl hm)
    · exact List.mem_append.2 (.inr hm)
    · exact mem_addAll.2 (.inr hm)

theorem core_history (k : Core) (c : Client) : (k.evs.foldl Client.step c).history = c.history ++ k.sent := foldl_history k.evs c

/-- the view while the call is inside -/
def Core.inside (k : Core) (v : V) : V := match k with
  | .direct _ => v
  | .bcast n ts c _ => hook n ts c v

theorem saved_eq (k : Core) (s : Client × V) : k.saved s = (k.evs.foldl Client.step s.1, save s.1 (k.evs.foldl Client.step s.1) (k.inside s.2)) := by
  cases k <;> rfl

theorem inside_history (k : Core) (v : V) : (k.inside v).history = v.history := by
  cases k with
  | direct acts => rfl
  | bcast n ts c a => unfold Core.inside hook; dsimp only; split <;> rfl

theorem inside_mem (k : Core) (v : V) (m : Mid) (h : m ∈ (k.inside v).outstanding) : m ∈ v.outstanding ∨ m ∈ created k.evs := by
  cases k with
  | direct acts => exact .inl h
  | bcast n ts c a =>
    unfold Core.inside hook at h
    dsimp only at h
    cases c with
    | true => rw [if_pos rfl] at h; exact .inl h
    | false =>
      rw [if_neg (by simp)] at h
      obtain ⟨h, -⟩ := Client.mem_discard.1 h
      rcases mem_addAll.1 h with h | h
      · exact .inl h
      · refine .inr ?_
        simp only [created, Core.evs, List.flatMap_cons, Client.Ev.creates, List.mem_append, List.mem_cons]
        refine .inl (.inr ?_)
        rw [if_neg (by simp), Client.mem_eraseDups_parts]
        exact h

theorem inside_keeps (k : Core) (v : V) (m : Mid) (h : m ∈ v.outstanding) (hn : m ∉ created k.evs) : m ∈ (k.inside v).outstanding := by
  cases k with
  | direct acts => exact h
  | bcast n ts c a =>
    unfold Core.inside hook
    dsimp only
    cases c with
    | true => rw [if_pos rfl]; exact h
    | false =>
      rw [if_neg (by simp)]
      refine Client.mem_discard.2 ⟨mem_addAll.2 (.inl h), ?_⟩
      rintro rfl
      exact hn (by simp [created, Core.evs, Client.Ev.creates])

theorem sent_created (e : Client.Ev) (m : Mid) (h : e.sent = some m) : m ∈ e.creates := by
  cases e <;> simp_all [Client.Ev.sent, Client.Ev.creates]

theorem sent_sub_created (acts : List Client.Ev) (m : Mid) (h : m ∈ acts.filterMap Client.Ev.sent) : m ∈ created acts := by
  obtain ⟨e, he, hm⟩ := List.mem_filterMap.1 h
  exact List.mem_flatMap.2 ⟨e, he, sent_created e m hm⟩

/-- after the call, everything that it made is there -/
theorem saved_has (k : Core) (hk : k.Ok) (s : Client × V) (m : Mid) (h : m ∈ created k.evs) : m ∈ (k.saved s).2.outstanding := by
  rw [saved_eq]
  obtain ⟨-, h2, h3⟩ := save_keeps s.1 (k.evs.foldl Client.step s.1) (k.inside s.2) k.sent (core_history k s.1)
  by_cases hs : m ∈ k.sent
  · exact (h3 m hs).2
  · refine h2 m ?_
    obtain ⟨e, he, hm⟩ := List.mem_flatMap.1 h
    cases k with
    | direct acts =>
      exfalso
      apply hs
      have hnb := hk e he
      refine List.mem_filterMap.2 ⟨e, he, ?_⟩
      cases e with
      | broadcast n ts c => exact absurd rfl (hnb n ts c)
      | send m' i =>
        have hm' : m = m' := by simpa [Client.Ev.creates] using hm
        simp [Client.Ev.sent, hm']
      | _ => simp [Client.Ev.creates] at hm
    | bcast n ts c a =>
      simp only [Core.evs, List.mem_cons] at he
      rcases he with rfl | he
      · simp only [Client.Ev.creates, List.mem_cons] at hm
        rcases hm with rfl | hm
        · exact absurd (by simp [Core.sent, Core.evs, Client.Ev.sent]) hs
        · cases c with
          | true => simp at hm
          | false =>
            rw [if_neg (by simp), Client.mem_eraseDups_parts] at hm
            unfold Core.inside hook
            dsimp only
            rw [if_neg (by simp)]
            refine Client.mem_discard.2 ⟨mem_addAll.2 (.inr hm), ?_⟩
            rintro rfl
            simp at hm
      · have := hk e he
        cases e <;> simp_all [Client.Ev.creates, Client.Ev.sent]

theorem saved_keeps (k : Core) (s : Client × V) (m : Mid) (h : m ∈ s.2.outstanding) (hn : m ∉ created k.evs) : m ∈ (k.saved s).2.outstanding := by
  rw [saved_eq]
  exact (save_keeps s.1 _ (k.inside s.2) k.sent (core_history k s.1)).2.1 m (inside_keeps k s.2 m h hn)

/-- a call that sends something adds only its own -/
theorem saved_mem (k : Core) (s : Client × V) (hk : k.sent ≠ []) (m : Mid) (h : m ∈ (k.saved s).2.outstanding) : m ∈ s.2.outstanding ∨ m ∈ created k.evs := by
  rw [saved_eq, save_eq s.1 _ _ k.sent (core_history k s.1) hk] at h
  rcases mem_addAll.1 h with h | h
  · exact inside_mem k s.2 m h
  · exact .inr (sent_sub_created _ m h)

theorem saved_history (k : Core) (s : Client × V) (hk : k.sent ≠ []) : (k.saved s).2.history = s.2.history ++ k.sent := by
  rw [saved_eq, save_eq s.1 _ _ k.sent (core_history k s.1) hk, inside_history]

theorem saved_history_sub (k : Core) (s : Client × V) (m : Mid) (h : m ∈ s.2.history ∨ m ∈ k.sent) : m ∈ (k.saved s).2.history := by
  rw [saved_eq]
  obtain ⟨h1, -, h3⟩ := save_keeps s.1 (k.evs.foldl Client.step s.1) (k.inside s.2) k.sent (core_history k s.1)
  rcases h with h | h
  · exact h1 m (by rw [inside_history]; exact h)
  · exact (h3 m h).1

/-! ## The pulls inside a gather -/

theorem fold_history (ks : List Core) (s : Client × V) (h : ∀ k ∈ ks, k.sent ≠ []) : (ks.foldl (fun s k => k.saved s) s).2.history = s.2.history ++ ks.flatMap Core.sent := by
  induction ks generalizing s with
  | nil => simp
  | cons k ks ih =>
    rw [List.foldl_cons, ih _ (fun k' hk' => h k' (by simp [hk'])), saved_history k s (h k (by simp))]
    simp

theorem fold_history_sub (ks : List Core) (s : Client × V) (m : Mid) (h : m ∈ s.2.history ∨ m ∈ ks.flatMap Core.sent) : m ∈ (ks.foldl (fun s k => k.saved s) s).2.history := by
  induction ks generalizing s with
  | nil => simpa using h
  | cons k ks ih =>
    rw [List.foldl_cons]
    refine ih _ ?_
    rw [List.flatMap_cons, List.mem_append] at h
    rcases h with h | h | h
    · exact .inl (saved_history_sub k s m (.inl h))
    · exact .inl (saved_history_sub k s m (.inr h))
    · exact .inr h

theorem fold_mem (ks : List Core) (s : Client × V) (h : ∀ k ∈ ks, k.sent ≠ []) (m : Mid) (hm : m ∈ (ks.foldl (fun s k => k.saved s) s).2.outstanding) :
    m ∈ s.2.outstanding ∨ m ∈ ks.flatMap (fun k => created k.evs) := by
  induction ks generalizing s with
  | nil => exact .inl hm
  | cons k ks ih =>
    rw [List.foldl_cons] at hm
    rw [List.flatMap_cons, List.mem_append]
    rcases ih _ (fun k' hk' => h k' (by simp [hk'])) hm with h' | h'
    · rcases saved_mem k s (h k (by simp)) m h' with h' | h'
      · exact .inl h'
      · exact .inr (.inl h')
    · exact .inr (.inr h')

theorem fold_keeps (ks : List Core) (s : Client × V) (m : Mid) (h : m ∈ s.2.outstanding) (hn : m ∉ ks.flatMap (fun k => created k.evs)) :
    m ∈ (ks.foldl (fun s k => k.saved s) s).2.outstanding := by
  induction ks generalizing s with
  | nil => exact h
  | cons k ks ih =>
    rw [List.flatMap_cons, List.mem_append, not_or] at hn
    rw [List.foldl_cons]
    exact ih _ (saved_keeps k s m h hn.1) hn.2

theorem fold_has (ks : List Core) (s : Client × V) (hk : ∀ k ∈ ks, k.Ok) (hd : (ks.flatMap (fun k => created k.evs)).Nodup) (m : Mid)
    (h : m ∈ ks.flatMap (fun k => created k.evs)) : m ∈ (ks.foldl (fun s k => k.saved s) s).2.outstanding := by
  induction ks generalizing s with
  | nil => simp at h
  | cons k ks ih =>
    rw [List.flatMap_cons, List.nodup_append] at hd
    rw [List.flatMap_cons, List.mem_append] at h
    rw [List.foldl_cons]
    by_cases h' : m ∈ ks.flatMap (fun k => created k.evs)
    · exact ih _ (fun k' hk' => hk k' (by simp [hk'])) hd.2.1 h'
    · rcases h with h | h
      · exact fold_keeps ks _ m (saved_has k (hk k (by simp)) s m h) h'
      · exact absurd h h'

theorem gathered_client (ks : List Core) (s : Client × V) : (gathered ks s).1.history = s.1.history ++ ks.flatMap Core.sent := by
  unfold gathered
  dsimp only
  rw [saved_fold_client, fold_cores_history]

theorem gathered_eq (ks : List Core) (s : Client × V) (h0 : ks ≠ []) (h : ∀ k ∈ ks, k.sent ≠ []) : (gathered ks s).2 =
    { history := (ks.foldl (fun s k => k.saved s) s).2.history ++ ks.flatMap Core.sent
      outstanding := addAll (ks.foldl (fun s k => k.saved s) s).2.outstanding (ks.flatMap Core.sent) } := by
  have hne : ks.flatMap Core.sent ≠ [] := by
    cases ks with
    | nil => exact absurd rfl h0
    | cons k ks =>
      rw [List.flatMap_cons]
      intro he
      exact h k (by simp) (List.append_eq_nil_iff.1 he).1
  exact save_eq s.1 _ _ _ (gathered_client ks s) hne

theorem gathered_keeps (ks : List Core) (s : Client × V) :
    (∀ m ∈ (ks.foldl (fun s k => k.saved s) s).2.history, m ∈ (gathered ks s).2.history) ∧
    (∀ m ∈ (ks.foldl (fun s k => k.saved s) s).2.outstanding, m ∈ (gathered ks s).2.outstanding) := by
  obtain ⟨h1, h2, -⟩ := save_keeps s.1 (gathered ks s).1 (ks.foldl (fun s k => k.saved s) s).2 _ (gathered_client ks s)
  exact ⟨h1, h2⟩

theorem created_flatMap (ks : List Core) : created (ks.flatMap Core.evs) = ks.flatMap (fun k => created k.evs) := by
  induction ks with
  | nil => rfl
  | cons k ks ih => rw [List.flatMap_cons, List.flatMap_cons, ← ih]; simp [created]

theorem sent_flatMap_created (ks : List Core) (m : Mid) (h : m ∈ ks.flatMap Core.sent) : m ∈ ks.flatMap (fun k => created k.evs) := by
  obtain ⟨k, hk, hm⟩ := List.mem_flatMap.1 h
  exact List.mem_flatMap.2 ⟨k, hk, sent_sub_created _ m hm⟩

/-! ## History -/

theorem Sends.snoc {v : Vid} {evs : List Ev} {e : Ev} (h : Sends v (evs ++ [e])) : Sends v evs ∧ Sends v [e] :=
  ⟨fun x hx => h x (by simp [hx]), fun x hx => h x (by simp at hx; simp [hx])⟩

/-- what is recorded: a gather records its messages twice -/
def recorded (v : Vid) (evs : List Ev) : List Mid := evs.flatMap (fun e => match e with
  | .call w k => if w = v then k.sent else []
  | .gather w ks => if w = v then ks.flatMap Core.sent ++ ks.flatMap Core.sent else []
  | _ => [])

theorem set_views_same (s : State) (v : Vid) (r : Client × V) : (s.set v r).views v = r.2 := by simp [State.set]
theorem set_views_ne (s : State) {v w : Vid} (h : w ≠ v) (r : Client × V) : (s.set v r).views w = s.views w := by simp [State.set, h]

theorem history_recorded (v : Vid) (evs : List Ev) (h : Sends v evs) : ((run evs).views v).history = recorded v evs := by
  induction evs using Client.snoc_induction with
  | h0 => rfl
  | h1 evs e ih =>
    obtain ⟨h1, h2⟩ := h.snoc
    have hr : recorded v (evs ++ [e]) = recorded v evs ++ recorded v [e] := by simp [recorded]
    rw [run_snoc, hr, ← ih h1]
    have he := h2 e (by simp)
    cases e with
    | client e => simp [step, recorded]
    | spin w =>
      by_cases hw : v = w
      · subst hw; simp only [step]; rw [set_views_same]; simp [sync, recorded]
      · simp only [step]; rw [set_views_ne _ hw]; simp [recorded]
    | call w k =>
      by_cases hw : v = w
      · subst hw
        simp only [step]
        rw [set_views_same]
        simp only [sync]
        rw [saved_history k _ (he rfl)]
        simp [recorded]
      · simp only [step]; rw [set_views_ne _ hw]; simp [recorded, Ne.symm hw]
    | gather w ks =>
      by_cases hw : v = w
      · subst hw
        simp only [step]
        rw [set_views_same]
        simp only [sync]
        obtain ⟨a, b⟩ := he rfl
        rw [gathered_eq ks _ a b, fold_history ks _ b]
        simp [recorded]
      · simp only [step]; rw [set_views_ne _ hw]; simp [recorded, Ne.symm hw]

/-- **C94**: `view.history` is the list of the messages sent through the view, in order — if each of its calls sent something and it did not `gather`. -/
theorem history_exact_partial (v : Vid) (evs : List Ev) (h : Sends v evs) (hg : NoGather v evs) : ((run evs).views v).history = sentBy v evs := by
  rw [history_recorded v evs h]
  unfold recorded sentBy
  have : ∀ l : List Ev, (∀ e ∈ l, e ∈ evs) → l.flatMap (fun e => match e with
      | .call w k => if w = v then k.sent else []
      | .gather w ks => if w = v then ks.flatMap Core.sent ++ ks.flatMap Core.sent else []
      | _ => []) = l.flatMap (fun e => match e with
      | .call w k => if w = v then k.sent else []
      | .gather w ks => if w = v then ks.flatMap Core.sent else []
      | _ => []) := by
    intro l hl
    induction l with
    | nil => rfl
    | cons e l ih =>
      rw [List.flatMap_cons, List.flatMap_cons, ih (fun x hx => hl x (by simp [hx]))]
      congr 1
      cases e with
      | gather w ks =>
        by_cases hw : w = v
        · subst hw; exact absurd (hl _ (by simp)) (hg ks)
        · simp [hw]
      | _ => rfl
  exact this evs (fun _ h => h)

/-- **C94, violated**: every `gather` records all its messages twice. -/
theorem gather_twice_violated (v : Vid) (evs : List Ev) (ks : List Core) (h0 : ks ≠ []) (h : ∀ k ∈ ks, k.sent ≠ []) :
    ((run (evs ++ [.gather v ks])).views v).history = ((run evs).views v).history ++ ks.flatMap Core.sent ++ ks.flatMap Core.sent := by
  rw [run_snoc]
  simp only [step]
  rw [set_views_same]
  simp only [sync]
  rw [gathered_eq ks _ h0 h, fold_history ks _ h]

/-- Whatever happens, every message sent through the view is in its history. -/
theorem history_complete (v : Vid) (evs : List Ev) (m : Mid) (h : m ∈ sentBy v evs) : m ∈ ((run evs).views v).history := by
  induction evs using Client.snoc_induction with
  | h0 => simp [sentBy] at h
  | h1 evs e ih =>
    rw [sentBy_snoc, List.mem_append] at h
    rw [run_snoc]
    cases e with
    | client e => exact ih (by simpa [sentBy] using h)
    | spin w =>
      have h' : m ∈ sentBy v evs := by simpa [sentBy] using h
      by_cases hw : v = w
      · subst hw; simp only [step]; rw [set_views_same]; exact ih h'
      · simp only [step]; rw [set_views_ne _ hw]; exact ih h'
    | call w k =>
      by_cases hw : v = w
      · subst hw
        simp only [step]
        rw [set_views_same]
        refine saved_history_sub k _ m ?_
        rcases h with h | h
        · exact .inl (ih h)
        · exact .inr (by simpa [sentBy] using h)
      · simp only [step]; rw [set_views_ne _ hw]
        rcases h with h | h
        · exact ih h
        · simp [sentBy, Ne.symm hw] at h
    | gather w ks =>
      by_cases hw : v = w
      · subst hw
        simp only [step]
        rw [set_views_same]
        refine (gathered_keeps ks _).1 m (fold_history_sub ks _ m ?_)
        rcases h with h | h
        · exact .inl (ih h)
        · refine .inr ?_
          simp only [sentBy, List.flatMap_cons, List.flatMap_nil, List.append_nil, if_pos] at h
          exact h
      · simp only [step]; rw [set_views_ne _ hw]
        rcases h with h | h
        · exact ih h
        · simp [sentBy, Ne.symm hw] at h

/-! ## Outstanding requests -/

/-- **C94**: a view whose calls all sent something has only its own requests among its outstanding ones. -/
theorem outstanding_own_partial (v : Vid) (evs : List Ev) (h : Sends v evs) (m : Mid) (hm : m ∈ ((run evs).views v).outstanding) : m ∈ own v evs := by
  induction evs using Client.snoc_induction with
  | h0 => simp [run, init] at hm
  | h1 evs e ih =>
    obtain ⟨h1, h2⟩ := h.snoc
    rw [run_snoc] at hm
    rw [own_snoc, List.mem_append]
    have he := h2 e (by simp)
    cases e with
    | client e => exact .inl (ih h1 hm)
    | spin w =>
      by_cases hw : v = w
      · subst hw
        simp only [step] at hm
        rw [set_views_same] at hm
        exact .inl (ih h1 (List.mem_filter.1 hm).1)
      · simp only [step] at hm
        rw [set_views_ne _ hw] at hm
        exact .inl (ih h1 hm)
    | call w k =>
      by_cases hw : v = w
      · subst hw
        simp only [step] at hm
        rw [set_views_same] at hm
        rcases saved_mem k _ (he rfl) m (List.mem_filter.1 hm).1 with h' | h'
        · exact .inl (ih h1 h')
        · exact .inr (by simpa [own] using h')
      · simp only [step] at hm
        rw [set_views_ne _ hw] at hm
        exact .inl (ih h1 hm)
    | gather w ks =>
      by_cases hw : v = w
      · subst hw
        simp only [step] at hm
        rw [set_views_same] at hm
        obtain ⟨a, b⟩ := he rfl
        have hm' := (List.mem_filter.1 hm).1
        rw [gathered_eq ks _ a b] at hm'
        have ho : own v [Ev.gather v ks] = ks.flatMap (fun k => created k.evs) := by simp [own]
        rw [ho]
        rcases mem_addAll.1 hm' with h' | h'
        · rcases fold_mem ks _ b m h' with h' | h'
          · exact .inl (ih h1 h')
          · exact .inr h'
        · exact .inr (sent_flatMap_created ks m h')
      · simp only [step] at hm
        rw [set_views_ne _ hw] at hm
        exact .inl (ih h1 hm)

theorem own_sub_created (v : Vid) (evs : List Ev) (m : Mid) (h : m ∈ own v evs) : m ∈ created (clientEvs evs) := by
  obtain ⟨e, he, hm⟩ := List.mem_flatMap.1 h
  unfold created clientEvs
  rw [List.flatMap_assoc]
  refine List.mem_flatMap.2 ⟨e, he, ?_⟩
  cases e with
  | client e => cases hm
  | spin w => cases hm
  | call w k =>
    by_cases hw : w = v
    · simp only [hw, if_true] at hm; exact hm
    · simp [hw] at hm
  | gather w ks =>
    by_cases hw : w = v
    · simp only [hw, if_true] at hm
      rw [← created_flatMap] at hm
      exact hm
    · simp [hw] at hm

theorem Good.snoc {evs : List Ev} {e : Ev} (h : Good (evs ++ [e])) : Good evs :=
  ⟨by have := h.fresh; rw [clientEvs_snoc] at this; exact this.prefix, fun x hx => h.ok x (by simp [hx])⟩

theorem Good.new {evs : List Ev} {e : Ev} (h : Good (evs ++ [e])) (m : Mid) (hm : m ∈ created (clientEvs evs)) : m ∉ created (clientEvs [e]) := by
  have := h.fresh
  rw [clientEvs_snoc] at this
  unfold FreshIds at this
  have hc : created (clientEvs evs ++ clientEvs [e]) = created (clientEvs evs) ++ created (clientEvs [e]) := by simp [created]
  rw [hc, List.nodup_append] at this
  intro hm'
  exact this.2.2 m hm m hm' rfl

theorem Good.nodup_new {evs : List Ev} {e : Ev} (h : Good (evs ++ [e])) : (created (clientEvs [e])).Nodup := by
  have := h.fresh
  rw [clientEvs_snoc] at this
  unfold FreshIds at this
  have hc : created (clientEvs evs ++ clientEvs [e]) = created (clientEvs evs) ++ created (clientEvs [e]) := by simp [created]
  rw [hc, List.nodup_append] at this
  exact this.2.1

/-- what is outstanding after an event was so before, unless it is new -/
theorem outstanding_before {evs : List Ev} {e : Ev} (h : Good (evs ++ [e])) (m : Mid) (hc : m ∈ created (clientEvs evs))
    (hm : m ∈ (run (evs ++ [e])).client.outstanding) : m ∈ (run evs).client.outstanding := by
  rw [run_client] at hm ⊢
  have hf := h.fresh
  rw [Client.outstanding_iff _ h.snoc.fresh]
  refine ⟨hc, ?_⟩
  obtain ⟨-, hn⟩ := (Client.outstanding_iff _ hf m).1 hm
  cases hv : value (Client.run (clientEvs evs)) m with
  | none => rfl
  | some w =>
    rw [clientEvs_snoc] at hf hn
    rw [Client.outcome_final _ _ hf m w hv] at hn
    cases hn

/-- **C94**: whatever happens, every request made through the view that has no outcome yet is among its outstanding ones. -/
theorem outstanding_complete (v : Vid) (evs : List Ev) (h : Good evs) (m : Mid) (hm : m ∈ own v evs) (hn : value (run evs).client m = none) :
    m ∈ ((run evs).views v).outstanding := by
  have ho : m ∈ (run evs).client.outstanding := by
    rw [run_client] at hn ⊢
    exact (Client.outstanding_iff _ h.fresh m).2 ⟨own_sub_created v evs m hm, hn⟩
  clear hn
  induction evs using Client.snoc_induction with
  | h0 => simp [own] at hm
  | h1 evs e ih =>
    have hb := fun hc => outstanding_before h m hc ho
    have hnew := h.new m
    have hnd := h.nodup_new
    have hok := h.ok e (by simp)
    have old : m ∈ own v evs → m ∈ ((run evs).views v).outstanding := fun h' => ih h.snoc h' (hb (own_sub_created v evs m h'))
    rw [run_snoc] at ho ⊢
    rw [own_snoc, List.mem_append] at hm
    cases e with
    | client e => exact old (by simpa [own] using hm)
    | spin w =>
      have hm' : m ∈ own v evs := by simpa [own] using hm
      by_cases hw : v = w
      · subst hw
        simp only [step] at ho ⊢
        rw [set_views_same]
        exact List.mem_filter.2 ⟨old hm', by simpa [State.set] using ho⟩
      · simp only [step]; rw [set_views_ne _ hw]; exact old hm'
    | call w k =>
      have hce : clientEvs [Ev.call w k] = k.evs := by simp [clientEvs]
      rw [hce] at hnew hnd
      by_cases hw : v = w
      · subst hw
        simp only [step] at ho ⊢
        rw [set_views_same]
        refine List.mem_filter.2 ⟨?_, by simpa [State.set] using ho⟩
        rcases hm with hm | hm
        · exact saved_keeps k _ m (old hm) (hnew (own_sub_created v evs m hm))
        · exact saved_has k hok _ m (by simpa [own] using hm)
      · simp only [step]; rw [set_views_ne _ hw]
        rcases hm with hm | hm
        · exact old hm
        · simp [own, Ne.symm hw] at hm
    | gather w ks =>
      have hce : created (clientEvs [Ev.gather w ks]) = ks.flatMap (fun k => created k.evs) := by
        rw [← created_flatMap]; simp [clientEvs]
      rw [hce] at hnew hnd
      by_cases hw : v = w
      · subst hw
        simp only [step] at ho ⊢
        rw [set_views_same]
        refine List.mem_filter.2 ⟨?_, by simpa [State.set] using ho⟩
        refine (gathered_keeps ks _).2 m ?_
        rcases hm with hm | hm
        · exact fold_keeps ks _ m (old hm) (hnew (own_sub_created v evs m hm))
        · have ho' : own v [Ev.gather v ks] = ks.flatMap (fun k => created k.evs) := by simp [own]
          rw [ho'] at hm
          exact fold_has ks _ hok hnd m hm
      · simp only [step]; rw [set_views_ne _ hw]
        rcases hm with hm | hm
        · exact old hm
        · simp [own, Ne.symm hw] at hm

/-- is this event a call of view `v`? -/
def Ev.ofView (v : Vid) : Ev → Bool
  | .client _ => false
  | .call w _ => w = v
  | .gather w _ => w = v
  | .spin w => w = v

/-- **C94**: right after any call of the view, nothing that has an outcome is among its outstanding requests. -/
theorem outstanding_current (v : Vid) (evs : List Ev) (e : Ev) (he : e.ofView v = true) (hf : FreshIds (clientEvs (evs ++ [e]))) (m : Mid)
    (hm : m ∈ ((run (evs ++ [e])).views v).outstanding) : value (run (evs ++ [e])).client m = none := by
  have ho : m ∈ (run (evs ++ [e])).client.outstanding := by
    rw [run_snoc] at hm ⊢
    cases e with
    | client e => cases he
    | spin w =>
      have hw : w = v := by simpa [Ev.ofView] using he
      subst hw
      simp only [step] at hm ⊢
      rw [set_views_same] at hm
      simpa [State.set] using (List.mem_filter.1 hm).2
    | call w k =>
      have hw : w = v := by simpa [Ev.ofView] using he
      subst hw
      simp only [step] at hm ⊢
      rw [set_views_same] at hm
      simpa [State.set] using (List.mem_filter.1 hm).2
    | gather w ks =>
      have hw : w = v := by simpa [Ev.ofView] using he
      subst hw
      simp only [step] at hm ⊢
      rw [set_views_same] at hm
      simpa [State.set] using (List.mem_filter.1 hm).2
  rw [run_client] at ho ⊢
  exact ((Client.outstanding_iff _ hf m).1 ho).2

/-- **C94**: so after `spin` the outstanding requests are exactly the view's own requests without an outcome. -/
theorem outstanding_exact_partial (v : Vid) (evs : List Ev) (h : Good evs) (hs : Sends v evs) (m : Mid) :
    m ∈ ((run (evs ++ [.spin v])).views v).outstanding ↔ m ∈ own v evs ∧ value (run evs).client m = none := by
  have hce : clientEvs (evs ++ [Ev.spin v]) = clientEvs evs := by simp [clientEvs]
  have hcl : (run (evs ++ [Ev.spin v])).client = (run evs).client := by rw [run_client, run_client, hce]
  have hg : Good (evs ++ [Ev.spin v]) := ⟨by rw [hce]; exact h.fresh, by
    intro e he
    rw [List.mem_append, List.mem_singleton] at he
    rcases he with he | rfl
    · exact h.ok e he
    · trivial⟩
  have hs' : Sends v (evs ++ [Ev.spin v]) := by
    intro e he
    rw [List.mem_append, List.mem_singleton] at he
    rcases he with he | rfl
    · exact hs e he
    · trivial
  have hown : own v (evs ++ [Ev.spin v]) = own v evs := by simp [own]
  constructor
  · intro hm
    refine ⟨by rw [← hown]; exact outstanding_own_partial v _ hs' m hm, ?_⟩
    have := outstanding_current v evs (.spin v) (by simp [Ev.ofView]) hg.fresh m hm
    rwa [hcl] at this
  · rintro ⟨h1, h2⟩
    exact outstanding_complete v _ hg m (by rw [hown]; exact h1) (by rw [hcl]; exact h2)

/-! ## abort -/

/-- **C94**: `view.abort()` asks for all requests of the view that have no outcome, -/
theorem abort_all_own (v : Vid) (evs : List Ev) (h : Good evs) (m : Mid) (hm : m ∈ own v evs) (hn : value (run evs).client m = none) :
    m ∈ abortJobs ((run evs).views v) none := outstanding_complete v evs h m hm hn

/-- and, if its calls all sent something, for no others. -/
theorem abort_only_own_partial (v : Vid) (evs : List Ev) (h : Sends v evs) (m : Mid) (hm : m ∈ abortJobs ((run evs).views v) none) : m ∈ own v evs :=
  outstanding_own_partial v evs h m hm

/-- jobs that are named are asked for, no others -/
theorem abort_named (v : V) (jobs : List Mid) : abortJobs v (some jobs) = jobs := rfl

/-- **C94, violated**: after a call that sent nothing — it failed, or had no targets — `view.abort()` asks for every pending message of the client, whoever sent it. -/
theorem abort_after_failure_violated (v : Vid) (evs : List Ev) (hf : FreshIds (clientEvs evs)) (m : Mid) (hm : m ∈ (run evs).client.history)
    (hn : value (run evs).client m = none) : m ∈ abortJobs ((run (evs ++ [.call v (.direct [])])).views v) none := by
  have ho : m ∈ (run evs).client.outstanding := by
    rw [run_client] at hm hn ⊢
    rw [Client.history_exact] at hm
    exact (Client.outstanding_iff _ hf m).2 ⟨sent_sub_created _ m hm, hn⟩
  rw [run_snoc]
  simp only [step, abortJobs, Option.getD_none]
  rw [set_views_same]
  refine List.mem_filter.2 ⟨?_, decide_eq_true ho⟩
  rw [saved_eq]
  dsimp only [Core.evs, List.foldl_nil]
  rw [save_nothing _ _ _ rfl]
  exact mem_addAll.2 (.inr hm)

/-! ## wait -/

theorem waitDone_iff (evs : List Client.Ev) (h : FreshIds evs) (jobs : List Mid) (hj : ∀ m ∈ jobs, m ∈ created evs) :
    waitDone (Client.run evs) jobs = true ↔ ∀ m ∈ jobs, value (Client.run evs) m ≠ none := by
  have I := Client.inv_run evs h
  unfold waitDone
  by_cases ha : (jobs.all (fun m => m ∉ (Client.run evs).outstanding)) = true
  · rw [if_pos ha]
    simp only [true_iff]
    intro m hm hn
    rw [List.all_eq_true] at ha
    have := ha m hm
    simp only [decide_eq_true_eq] at this
    exact this ((Client.outstanding_iff evs h m).2 ⟨hj m hm, hn⟩)
  · rw [if_neg ha]
    constructor
    · intro hall
      exfalso
      apply ha
      rw [List.all_eq_true] at hall ⊢
      intro m hm
      simp only [decide_eq_true_eq]
      intro ho
      obtain ⟨f, hf, hv⟩ := (I.out m).1 ho
      have := hall m hm
      simp [hf, hv, I.listed m f hf hv] at this
    · intro hv
      exfalso
      apply ha
      rw [List.all_eq_true]
      intro m hm
      simp only [decide_eq_true_eq]
      intro ho
      exact hv m hm ((Client.outstanding_iff evs h m).1 ho).2

/-- the history of a view: things that were sent -/
theorem history_sent (v : Vid) (evs : List Ev) (m : Mid) (h : m ∈ ((run evs).views v).history) : m ∈ (run evs).client.history := by
  have hstep : ∀ (s : State) (e : Ev), ∀ m ∈ s.client.history, m ∈ (step s e).client.history := by
    intro s e m hm
    rw [step_client, foldl_history]
    exact List.mem_append.2 (.inl hm)
  have hsave : ∀ (c0 c1 : Client) (w : V), ∀ m ∈ (save c0 c1 w).history, m ∈ w.history ∨ m ∈ c1.history := by
    intro c0 c1 w m hm
    simp only [save, List.mem_append] at hm
    rcases hm with hm | hm
    · exact .inl hm
    · refine .inr ?_
      unfold lastN at hm
      split at hm
      · exact hm
      · exact List.mem_of_mem_drop hm
  have hcore : ∀ (k : Core) (s : Client × V), ∀ m ∈ (k.saved s).2.history, m ∈ s.2.history ∨ m ∈ (k.saved s).1.history := by
    intro k s m hm
    rw [saved_eq] at hm ⊢
    rcases hsave _ _ _ m hm with hm | hm
    · rw [inside_history] at hm; exact .inl hm
    · exact .inr hm
  have hfold : ∀ (ks : List Core) (s : Client × V), ∀ m ∈ (ks.foldl (fun s k => k.saved s) s).2.history,
      m ∈ s.2.history ∨ m ∈ (ks.foldl (fun s k => k.saved s) s).1.history := by
    intro ks
    induction ks with
    | nil => exact fun s m hm => .inl hm
    | cons k ks ih =>
      intro s m hm
      rw [List.foldl_cons] at hm ⊢
      rcases ih _ m hm with hm | hm
      · rcases hcore k s m hm with hm | hm
        · exact .inl hm
        · refine .inr ?_
          rw [saved_fold_client, fold_cores_history]
          exact List.mem_append.2 (.inl hm)
      · exact .inr hm
  induction evs using Client.snoc_induction with
  | h0 => simp [run, init] at h
  | h1 evs e ih =>
    rw [run_snoc] at h ⊢
    have old : m ∈ ((run evs).views v).history → m ∈ (step (run evs) e).client.history := fun h' => hstep _ e m (ih h')
    cases e with
    | client e => exact old h
    | spin w =>
      by_cases hw : v = w
      · subst hw
        simp only [step] at h
        rw [set_views_same] at h
        exact old h
      · simp only [step] at h; rw [set_views_ne _ hw] at h; exact old h
    | call w k =>
      by_cases hw : v = w
      · subst hw
        simp only [step] at h
        rw [set_views_same] at h
        rcases hcore k _ m h with h | h
        · exact old h
        · simpa [step, State.set] using h
      · simp only [step] at h; rw [set_views_ne _ hw] at h; exact old h
    | gather w ks =>
      by_cases hw : v = w
      · subst hw
        simp only [step] at h
        rw [set_views_same] at h
        rcases hsave _ _ _ m h with h | h
        · rcases hfold ks _ m h with h | h
          · exact old h
          · simpa [step, State.set, gathered] using h
        · simpa [step, State.set, gathered] using h
      · simp only [step] at h; rw [set_views_ne _ hw] at h; exact old h

theorem history_created (v : Vid) (evs : List Ev) (m : Mid) (h : m ∈ ((run evs).views v).history) : m ∈ created (clientEvs evs) := by
  have := history_sent v evs m h
  rw [run_client, Client.history_exact] at this
  exact sent_sub_created _ m this

/-- **C94**: when `view.wait()` has returned, every message sent through the view has an outcome. -/
theorem wait_sound (v : Vid) (evs : List Ev) (hf : FreshIds (clientEvs evs)) (hw : viewWaitDone (run evs) v = true) (m : Mid) (hm : m ∈ sentBy v evs) :
    value (run evs).client m ≠ none := by
  unfold viewWaitDone at hw
  rw [run_client] at hw ⊢
  exact (waitDone_iff _ hf _ (fun x hx => history_created v evs x hx)).1 hw m (history_complete v evs m hm)

/-- **C94**: if all calls of the view sent something, it returns as soon as they have. -/
theorem wait_returns_partial (v : Vid) (evs : List Ev) (hf : FreshIds (clientEvs evs)) (hs : Sends v evs) (h : ∀ m ∈ sentBy v evs, value (run evs).client m ≠ none) :
    viewWaitDone (run evs) v = true := by
  unfold viewWaitDone
  rw [run_client] at h ⊢
  refine (waitDone_iff _ hf _ (fun x hx => history_created v evs x hx)).2 (fun m hm => h m ?_)
  rw [history_recorded v evs hs] at hm
  obtain ⟨e, he, hm⟩ := List.mem_flatMap.1 hm
  refine List.mem_flatMap.2 ⟨e, he, ?_⟩
  cases e with
  | gather w ks =>
    by_cases hw : w = v
    · simp only [hw, if_true] at hm ⊢
      rcases List.mem_append.1 hm with h | h <;> exact h
    · simp [hw] at hm
  | _ => exact hm

/-- **C94, violated**: after a broadcast without coalescing, `view.wait()` does not return (unless an engine dies): nobody answers the id of the broadcast itself. -/
theorem wait_broadcast_violated (v : Vid) (evs : List Ev) (hf : FreshIds (clientEvs evs)) (n : Nat) (ts : List Uuid) (a : List Client.Ev)
    (hb : Ev.call v (.bcast n ts false a) ∈ evs) (hr : ∀ w us, Client.Ev.reply (.msg n) w us ∉ clientEvs evs) (hd : ∀ i, Client.Ev.unregister i ∉ clientEvs evs) :
    viewWaitDone (run evs) v = false := by
  cases hw : viewWaitDone (run evs) v with
  | false => rfl
  | true =>
    exfalso
    have hm : (Mid.msg n) ∈ sentBy v evs := List.mem_flatMap.2 ⟨_, hb, by simp [Core.sent, Core.evs, Client.Ev.sent]⟩
    have := wait_sound v evs hf hw _ hm
    rw [run_client] at this
    cases hv : value (Client.run (clientEvs evs)) (.msg n) with
    | none => exact this hv
    | some w =>
      obtain ⟨pre, e, post, he, -, -, hc⟩ := Client.outcome_cause _ hf _ w hv
      rcases hc with ⟨us, rfl⟩ | ⟨i, rfl, -⟩
      · exact hr w us (by rw [he]; simp)
      · exact hd i (by rw [he]; simp)

/-- **C94, violated**: after a call that sent nothing, `view.wait()` waits for all messages of the client. -/
theorem wait_after_failure_violated (v : Vid) (evs : List Ev) (hf : FreshIds (clientEvs evs)) (m : Mid) (hm : m ∈ (run evs).client.history)
    (hn : value (run evs).client m = none) : viewWaitDone (run (evs ++ [.call v (.direct [])])) v = false := by
  have hce : clientEvs (evs ++ [Ev.call v (.direct [])]) = clientEvs evs := by simp [clientEvs, Core.evs]
  cases hw : viewWaitDone (run (evs ++ [.call v (.direct [])])) v with
  | false => rfl
  | true =>
    exfalso
    have hmem : m ∈ ((run (evs ++ [.call v (.direct [])])).views v).history := by
      rw [run_snoc]
      simp only [step]
      rw [set_views_same, saved_eq]
      dsimp only [Core.evs, List.foldl_nil]
      rw [save_nothing _ _ _ rfl]
      exact List.mem_append.2 (.inr hm)
    unfold viewWaitDone at hw
    rw [run_client] at hw
    have := (waitDone_iff _ (by rw [hce]; exact hf) _ (fun x hx => history_created v _ x hx)).1 hw m hmem
    rw [hce, ← run_client] at this
    exact this hn

/-! ## get_result by index -/

/-- **C94**: `view.get_result(i)` fetches the `i`-th message sent through the view, counted from the end if `i` is negative; without argument, the last one. -/
theorem get_result_index_partial (v : Vid) (evs : List Ev) (h : Sends v evs) (hg : NoGather v evs) :
    (∀ i : Nat, resolve ((run evs).views v) (.int i) = (sentBy v evs)[i]?) ∧
    (∀ k : Nat, k < (sentBy v evs).length → resolve ((run evs).views v) (.int (-(k + 1 : Nat))) = (sentBy v evs)[(sentBy v evs).length - (k + 1)]?) ∧
    (∀ k : Nat, (sentBy v evs).length ≤ k → resolve ((run evs).views v) (.int (-(k + 1 : Nat))) = none) ∧
    resolveAll ((run evs).views v) none = (sentBy v evs).getLast?.map (fun m => [m]) := by
  have hh := history_exact_partial v evs h hg
  have neg : ∀ k : Nat, k < (sentBy v evs).length → resolve ((run evs).views v) (.int (-(k + 1 : Nat))) = (sentBy v evs)[(sentBy v evs).length - (k + 1)]? := by
    intro k hk
    unfold resolve Client.pyGet
    dsimp only
    rw [hh, if_neg (by omega), if_pos (by omega)]
    congr 1
    omega
  have out : ∀ k : Nat, (sentBy v evs).length ≤ k → resolve ((run evs).views v) (.int (-(k + 1 : Nat))) = none := by
    intro k hk
    unfold resolve Client.pyGet
    dsimp only
    rw [hh, if_neg (by omega), if_neg (by omega)]
  refine ⟨fun i => ?_, neg, out, ?_⟩
  · unfold resolve Client.pyGet
    dsimp only
    rw [hh, if_pos (by omega)]
    rfl
  · unfold resolveAll
    have e : (-1 : Int) = -((0 + 1 : Nat) : Int) := by omega
    dsimp only
    rw [e]
    by_cases hk : 0 < (sentBy v evs).length
    · rw [neg 0 hk, List.getLast?_eq_getElem?]
    · rw [out 0 (by omega)]
      have : sentBy v evs = [] := List.length_eq_zero_iff.1 (by omega)
      simp [this]

/-- message ids are fetched as they are; a list, element by element -/
theorem get_result_ids (v : V) (l : List Mid) : resolveAll v (some (l.map Index.id)) = some l := by
  unfold resolveAll
  dsimp only
  induction l with
  | nil => rfl
  | cons m l ih => simp [List.mapM_cons, ih, resolve]

/-- **C94, violated**: after a call that sent nothing, `view.get_result()` is the last message of the client, which another view may have sent; and after a gather from two engines the index −3
is not the message before it. -/
theorem get_result_violated :
    let other : List Ev := [.call 0 (.direct [.send (.msg 1) (some 7)]), .call 1 (.direct [.send (.msg 2) (some 8)])]
    let failed : List Ev := other ++ [.call 0 (.direct [])]
    let gath : List Ev := other ++ [.gather 0 [.direct [.send (.msg 3) (some 7)], .direct [.send (.msg 4) (some 8)]]]
    resolveAll ((run other).views 0) none = some [.msg 1] ∧ resolveAll ((run failed).views 0) none = some [.msg 2] ∧
    resolve ((run gath).views 0) (.int (-3)) = some (.msg 4) ∧ sentBy 0 gath = [.msg 1, .msg 3, .msg 4] := by decide +kernel

/-! ## Calls of a direct view -/

/-- **C94**: a call on targets that select engines sends one message to each of them, in that order, and no other; the result is a single one exactly for an integer target. -/
theorem direct_one_each (evs : List Client.Ev) (hp : Client.Proper evs) (t : Target) (ids : Nat → Nat) (acts : List Client.Ev) (es : List Int) (single : Bool)
    (h : directCall (Client.run evs) t ids = .ok (acts, es, single)) :
    acts.length = es.length ∧
    (∀ k (hk : k < es.length), ∃ (e : Client.Eid) (u : Uuid), es[k] = (e : Int) ∧ (e, u) ∈ Client.Reg evs ∧ acts[k]? = some (.send (.msg (ids k)) (some u))) ∧
    acts.filterMap Client.Ev.sent = (List.range es.length).map (fun k => Mid.msg (ids k)) ∧ (single = true ↔ ∃ i, t = .int i) := by
  unfold directCall at h
  cases hb : Client.buildTargets (Client.run evs) t with
  | error e => rw [hb] at h; cases h
  | ok r =>
    obtain ⟨us, es'⟩ := r
    rw [hb] at h
    simp only [Except.ok.injEq, Prod.mk.injEq] at h
    obtain ⟨h1, h2, h3⟩ := h
    subst h1 h2
    obtain ⟨hl, hz⟩ := Client.targets_registered evs hp t us es' hb
    refine ⟨by simp [hl], fun k hk => ?_, ?_, ?_⟩
    · have hk' : k < us.length := by omega
      obtain ⟨e, h1, h2⟩ := hz (us[k], es'[k]) (by
        rw [List.mem_iff_getElem]
        exact ⟨k, by simp; omega, by simp⟩)
      exact ⟨e, us[k], h1.symm, h2, by simp [hk']⟩
    · rw [← hl, List.filterMap_map]
      have : (Client.Ev.sent ∘ fun p : Uuid × Nat => Client.Ev.send (.msg (ids p.2)) (some p.1)) = fun p : Uuid × Nat => some (Mid.msg (ids p.2)) := rfl
      rw [this, List.filterMap_eq_map' ]
      apply List.ext_getElem
      · simp
      · intro i h1 h2
        simp
    · rw [← h3]
      cases t <;> simp

/-- for all engines: one message to each, in the order of their ids -/
theorem direct_all (evs : List Client.Ev) (hp : Client.Proper evs) (h : Client.Reg evs ≠ []) (ids : Nat → Nat) :
    ∃ acts, directCall (Client.run evs) .all ids = .ok (acts, Client.intIds evs, false) := by
  obtain ⟨us, hu⟩ := Client.finish_ids evs hp (Client.intIds evs) (fun _ h => h)
  have hb : Client.buildTargets (Client.run evs) .all = .ok (us, Client.intIds evs) := by
    unfold Client.buildTargets
    rw [if_neg (Client.ids_ne_nil evs hp h)]
    exact hu
  exact ⟨_, by unfold directCall; rw [hb]⟩

/-- for one engine: one message, a single result -/
theorem direct_one (evs : List Client.Ev) (hp : Client.Proper evs) (e : Client.Eid) (u : Uuid) (h : (e, u) ∈ Client.Reg evs) (ids : Nat → Nat) :
    directCall (Client.run evs) (.int e) ids = .ok ([.send (.msg (ids 0)) (some u)], [(e : Int)], true) := by
  have := (Client.targets_int evs hp (fun h0 => by rw [h0] at h; cases h) e).1 u h
  unfold directCall
  rw [this]
  rfl

/-- an empty list of targets is accepted and sends nothing: the case of `abort_after_failure_violated` without any error -/
theorem direct_no_targets (evs : List Client.Ev) (hp : Client.Proper evs) (h : Client.Reg evs ≠ []) (ids : Nat → Nat) :
    directCall (Client.run evs) (.coll []) ids = .ok ([], [], false) := by
  have hb : Client.buildTargets (Client.run evs) (.coll []) = .ok ([], []) := by
    unfold Client.buildTargets
    rw [if_neg (Client.ids_ne_nil evs hp h)]
    rfl
  unfold directCall
  rw [hb]
  rfl

/-- **C94, violated**: `run` works for direct views, never for broadcast views: TypeError, whatever the file. -/
theorem run_broadcast_violated : runAccepted .direct = true ∧ runAccepted .broadcast = false := by decide

/-! ## Non-trivial cases -/

/-- two views, a broadcast, a gather, replies during and between the calls -/
def ex : List Ev :=
  [.client (.register 0 7), .client (.register 1 8), .call 0 (.direct [.send (.msg 1) (some 7), .reply (.msg 1) (.ok 1) [7], .send (.msg 2) (some 8)]),
   .call 1 (.direct [.send (.msg 3) none]), .call 0 (.bcast 4 [7, 8] false [.reply (.part 4 7) (.ok 2) [7]]),
   .gather 0 [.direct [.send (.msg 5) (some 7)], .direct [.send (.msg 6) (some 8)]], .client (.reply (.msg 5) (.ok 3) [7]), .spin 0]

example : FreshIds (clientEvs ex) ∧ ((run ex).views 0).history = [.msg 1, .msg 2, .msg 4, .msg 5, .msg 6, .msg 5, .msg 6] ∧
    ((run ex).views 0).outstanding = [.msg 2, .part 4 8, .msg 4, .msg 6] ∧ ((run ex).views 1).outstanding = [.msg 3] := by decide +kernel

example : Good ex := by
  refine ⟨by decide +kernel, ?_⟩
  intro e he
  simp only [ex, List.mem_cons, List.not_mem_nil, or_false] at he
  rcases he with rfl | rfl | rfl | rfl | rfl | rfl | rfl | rfl <;> simp [Core.Ok, Client.Ev.sent]

example : Sends 0 ex := by
  intro e he
  simp only [ex, List.mem_cons, List.not_mem_nil, or_false] at he
  rcases he with rfl | rfl | rfl | rfl | rfl | rfl | rfl | rfl <;> simp [Core.sent, Core.evs, Client.Ev.sent]

/-- the second view's task would be aborted by the first -/
example : abortJobs ((run (ex ++ [.call 0 (.direct [])])).views 0) none = [.msg 2, .part 4 8, .msg 4, .msg 6, .msg 3] := by decide +kernel

end IPP.ViewCalls
