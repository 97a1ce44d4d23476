import Verif.Sched.JobInv

/-!
# Invariants about retries (lemmas)
-/
namespace IPP.Sched

structure RetryInv (tr : List Obs) (ret : MsgId → Option Nat) : Prop where
  unsub : ∀ m, (∀ sub, Obs.submitted m sub ∉ tr) →
    ret m = none ∧ failures m tr = 0 ∧ retried m tr = 0 ∧ relays m tr = 0 ∧ successes m tr = 0
  live : ∀ m sub k, Obs.submitted m sub ∈ tr → ret m = some k →
    k + failures m tr = sub.retries ∧ retried m tr ≤ failures m tr ∧ relays m tr = 0 ∧ successes m tr = 0
  done : ∀ m sub, Obs.submitted m sub ∈ tr → ret m = none → relays m tr = 1 ∧ retried m tr ≤ sub.retries
  relayed : ∀ p e m ok q, tr = p ++ .relay e m ok :: q →
    ∃ sub, Obs.submitted m sub ∈ p ∧ (ok = false → failures m p = sub.retries + 1)

/-- Observations that do not matter for retries. -/
def retNeutral : Obs → Prop
  | .submitted .. | .received _ _ _ true | .stranded .. | .retry _ _ .failure | .relay .. => False
  | _ => True

theorem counts_neutral {o : Obs} (ho : retNeutral o) (m : MsgId) (tr : List Obs) :
    failures m (tr ++ [o]) = failures m tr ∧ retried m (tr ++ [o]) = retried m tr ∧ relays m (tr ++ [o]) = relays m tr ∧
    successes m (tr ++ [o]) = successes m tr := by
  simp only [failures, retried, relays, successes, List.countP_append]
  refine ⟨?_, ?_, ?_, ?_⟩ <;>
    (cases o with
     | received e m' ok dm => cases dm <;> simp_all [retNeutral]
     | retry e m' c => cases c <;> simp_all [retNeutral]
     | _ => simp_all [retNeutral])

theorem RetryInv.neutral {tr : List Obs} {ret : MsgId → Option Nat} {o : Obs} (ho : retNeutral o) (h : RetryInv tr ret) :
    RetryInv (tr ++ [o]) ret := by
  have hs : ∀ m sub, Obs.submitted m sub ∈ tr ++ [o] ↔ Obs.submitted m sub ∈ tr := by
    intro m sub
    constructor
    · intro hm
      rcases List.mem_append.mp hm with hm | hm
      · exact hm
      · simp at hm; subst hm; exact ho.elim
    · exact fun h => List.mem_append_left _ h
  refine ⟨?_, ?_, ?_, ?_⟩
  · intro m hm
    obtain ⟨c1, c2, c3, c4⟩ := counts_neutral ho m tr
    rw [c1, c2, c3, c4]
    exact h.unsub m fun sub hs' => hm sub ((hs _ _).mpr hs')
  · intro m sub k hm hk
    obtain ⟨c1, c2, c3, c4⟩ := counts_neutral ho m tr
    rw [c1, c2, c3, c4]
    exact h.live m sub k ((hs _ _).mp hm) hk
  · intro m sub hm hk
    obtain ⟨c1, c2, c3, c4⟩ := counts_neutral ho m tr
    rw [c2, c3]
    exact h.done m sub ((hs _ _).mp hm) hk
  · intro p e m ok q hq
    rcases snoc_split hq with ⟨_, _, rfl⟩ | ⟨q', _, hq'⟩
    · exact ho.elim
    · exact h.relayed p e m ok q' hq'

/-- `o` counts as one reply for `m`, with all dependencies met. -/
def ReplyFor (o : Obs) (m : MsgId) (ok : Bool) : Prop := (∃ e, o = .received e m ok true) ∨ (∃ e, o = .stranded e m ∧ ok = false)

theorem counts_reply {o : Obs} {m : MsgId} {ok : Bool} (ho : ReplyFor o m ok) (m' : MsgId) (tr : List Obs) :
    failures m' (tr ++ [o]) = failures m' tr + (if m' = m ∧ ok = false then 1 else 0) ∧ retried m' (tr ++ [o]) = retried m' tr ∧
    relays m' (tr ++ [o]) = relays m' tr ∧
    successes m' (tr ++ [o]) = successes m' tr + (if m' = m ∧ ok = true then 1 else 0) := by
  simp only [failures, retried, relays, successes, List.countP_append]
  rcases ho with ⟨e, rfl⟩ | ⟨e, rfl, rfl⟩
  · cases ok <;> simp [List.countP_cons, eq_comm]
  · simp [List.countP_cons, eq_comm]

theorem reply_not_sub {o : Obs} {m : MsgId} {ok : Bool} (ho : ReplyFor o m ok) (tr : List Obs) (m' : MsgId) (sub : Submission) :
    Obs.submitted m' sub ∈ tr ++ [o] ↔ Obs.submitted m' sub ∈ tr := by
  rcases ho with ⟨e, rfl⟩ | ⟨e, rfl, _⟩ <;> simp

theorem reply_not_relay {o : Obs} {m : MsgId} {ok : Bool} (ho : ReplyFor o m ok) {e' m' ok'} : o ≠ .relay e' m' ok' := by
  rcases ho with ⟨e, rfl⟩ | ⟨e, rfl, _⟩ <;> simp

/-- a reply for an already answered task -/
theorem RetryInv.late {tr : List Obs} {ret : MsgId → Option Nat} {o : Obs} {m : MsgId} {ok : Bool} (ho : ReplyFor o m ok)
    (h : RetryInv tr ret) (hret : ret m = none) (hsub : ∃ sub, Obs.submitted m sub ∈ tr) : RetryInv (tr ++ [o]) ret := by
  refine ⟨?_, ?_, ?_, ?_⟩
  · intro m' hm'
    obtain ⟨c1, c2, c3, c4⟩ := counts_reply ho m' tr
    have hne : m' ≠ m := by
      rintro rfl
      obtain ⟨sub, hs⟩ := hsub
      exact hm' sub ((reply_not_sub ho _ _ _).mpr hs)
    rw [c1, c2, c3, c4]
    simpa [hne] using h.unsub m' fun sub hs => hm' sub ((reply_not_sub ho _ _ _).mpr hs)
  · intro m' sub k hm' hk
    obtain ⟨c1, c2, c3, c4⟩ := counts_reply ho m' tr
    have hne : m' ≠ m := by
      rintro rfl
      rw [hret] at hk; cases hk
    rw [c1, c2, c3, c4]
    simpa [hne] using h.live m' sub k ((reply_not_sub ho _ _ _).mp hm') hk
  · intro m' sub hm' hk
    obtain ⟨c1, c2, c3, c4⟩ := counts_reply ho m' tr
    rw [c2, c3]
    exact h.done m' sub ((reply_not_sub ho _ _ _).mp hm') hk
  · intro p e m' ok' q hq
    rcases snoc_split hq with ⟨_, _, h'⟩ | ⟨q', _, hq'⟩
    · exact absurd h' (reply_not_relay ho)
    · exact h.relayed p e m' ok' q' hq'

/-- a failure with retries left -/
theorem RetryInv.dec {tr : List Obs} {ret : MsgId → Option Nat} {o : Obs} {m : MsgId} {r : Nat} (ho : ReplyFor o m false)
    (h : RetryInv tr ret) (hret : ret m = some (r + 1)) : RetryInv (tr ++ [o]) (upd ret m (some r)) := by
  refine ⟨?_, ?_, ?_, ?_⟩
  · intro m' hm'
    obtain ⟨c1, c2, c3, c4⟩ := counts_reply ho m' tr
    have h0 := h.unsub m' fun sub hs => hm' sub ((reply_not_sub ho _ _ _).mpr hs)
    have hne : m' ≠ m := by
      rintro rfl
      rw [h0.1] at hret; cases hret
    rw [c1, c2, c3, c4]
    simpa [hne, upd] using h0
  · intro m' sub k hm' hk
    obtain ⟨c1, c2, c3, c4⟩ := counts_reply ho m' tr
    rw [c1, c2, c3, c4]
    by_cases hmm : m' = m
    · subst hmm
      have := h.live m' sub _ ((reply_not_sub ho _ _ _).mp hm') hret
      simp [upd] at hk ⊢
      omega
    · simp only [upd, hmm, if_false] at hk
      simpa [hmm] using h.live m' sub k ((reply_not_sub ho _ _ _).mp hm') hk
  · intro m' sub hm' hk
    obtain ⟨c1, c2, c3, c4⟩ := counts_reply ho m' tr
    rw [c2, c3]
    by_cases hmm : m' = m
    · simp [upd, hmm] at hk
    · simp only [upd, hmm, if_false] at hk
      exact h.done m' sub ((reply_not_sub ho _ _ _).mp hm') hk
  · intro p e m' ok' q hq
    rcases snoc_split hq with ⟨_, _, h'⟩ | ⟨q', _, hq'⟩
    · exact absurd h' (reply_not_relay ho)
    · exact h.relayed p e m' ok' q' hq'

/-- the retry itself -/
theorem RetryInv.decRetry {tr : List Obs} {ret : MsgId → Option Nat} {o : Obs} {m : MsgId} {r : Nat} {e : Engine} (ho : ReplyFor o m false)
    (h : RetryInv tr ret) (hret : ret m = some (r + 1)) :
    RetryInv (tr ++ [o] ++ [.retry e m .failure]) (upd ret m (some r)) := by
  have h1 := h.dec ho hret
  have hc : ∀ m', failures m' (tr ++ [o] ++ [.retry e m .failure]) = failures m' (tr ++ [o]) ∧
      retried m' (tr ++ [o] ++ [.retry e m .failure]) = retried m' (tr ++ [o]) + (if m = m' then 1 else 0) ∧
      relays m' (tr ++ [o] ++ [.retry e m .failure]) = relays m' (tr ++ [o]) ∧
      successes m' (tr ++ [o] ++ [.retry e m .failure]) = successes m' (tr ++ [o]) := by
    intro m'
    simp only [failures, retried, relays, successes, List.countP_append (l₁ := tr ++ [o])]
    simp [List.countP_cons]
  have hs : ∀ m' sub, Obs.submitted m' sub ∈ tr ++ [o] ++ [Obs.retry e m .failure] ↔ Obs.submitted m' sub ∈ tr ++ [o] := by
    intro m' sub
    rw [List.mem_append]
    simp
  have hmsub : ∀ m', (∀ sub, Obs.submitted m' sub ∉ tr) → m' ≠ m := by
    rintro m' hm' rfl
    rw [(h.unsub m' hm').1] at hret
    cases hret
  refine ⟨?_, ?_, ?_, ?_⟩
  · intro m' hm'
    obtain ⟨c1, c2, c3, c4⟩ := hc m'
    have hne : m' ≠ m := hmsub m' fun sub hs' => hm' sub ((hs _ _).mpr (List.mem_append_left _ hs'))
    rw [c1, c2, c3, c4]
    simpa [Ne.symm hne] using h1.unsub m' fun sub hs' => hm' sub ((hs _ _).mpr hs')
  · intro m' sub k hm' hk
    obtain ⟨c1, c2, c3, c4⟩ := hc m'
    rw [c1, c2, c3, c4]
    by_cases hmm : m' = m
    · subst hmm
      have a := h.live m' sub _ ((reply_not_sub ho _ _ _).mp ((hs _ _).mp hm')) hret
      have b := h1.live m' sub k ((hs _ _).mp hm') hk
      obtain ⟨d1, d2, _, _⟩ := counts_reply ho m' tr
      simp at d1 ⊢
      omega
    · simpa [Ne.symm hmm] using h1.live m' sub k ((hs _ _).mp hm') hk
  · intro m' sub hm' hk
    obtain ⟨c1, c2, c3, c4⟩ := hc m'
    rw [c2, c3]
    by_cases hmm : m' = m
    · simp [upd, hmm] at hk
    · simpa [Ne.symm hmm] using h1.done m' sub ((hs _ _).mp hm') hk
  · intro p e m' ok' q hq
    rcases snoc_split hq with ⟨_, _, h'⟩ | ⟨q', _, hq'⟩
    · cases h'
    · exact h1.relayed p e m' ok' q' hq'

/-- the final reply -/
theorem RetryInv.relay {tr : List Obs} {ret : MsgId → Option Nat} {o : Obs} {m : MsgId} {r : Nat} {e : Engine} {ok : Bool}
    (ho : ReplyFor o m ok) (h : RetryInv tr ret) (hret : ret m = some r) (hok : ok = true ∨ r = 0) :
    RetryInv (tr ++ [o] ++ [.relay e m ok]) (upd ret m none) := by
  have hc : ∀ m', failures m' (tr ++ [o] ++ [.relay e m ok]) = failures m' (tr ++ [o]) ∧
      retried m' (tr ++ [o] ++ [.relay e m ok]) = retried m' (tr ++ [o]) ∧
      relays m' (tr ++ [o] ++ [.relay e m ok]) = relays m' (tr ++ [o]) + (if m = m' then 1 else 0) ∧
      successes m' (tr ++ [o] ++ [.relay e m ok]) = successes m' (tr ++ [o]) := by
    intro m'
    simp only [failures, retried, relays, successes, List.countP_append (l₁ := tr ++ [o])]
    simp [List.countP_cons]
  have hs : ∀ m' sub, Obs.submitted m' sub ∈ tr ++ [o] ++ [Obs.relay e m ok] ↔ Obs.submitted m' sub ∈ tr := by
    intro m' sub
    rw [List.mem_append, reply_not_sub ho]
    simp
  have hmsub : ∀ m', (∀ sub, Obs.submitted m' sub ∉ tr) → m' ≠ m := by
    rintro m' hm' rfl
    rw [(h.unsub m' hm').1] at hret
    cases hret
  refine ⟨?_, ?_, ?_, ?_⟩
  · intro m' hm'
    obtain ⟨c1, c2, c3, c4⟩ := hc m'
    obtain ⟨d1, d2, d3, d4⟩ := counts_reply ho m' tr
    have hu : ∀ sub, Obs.submitted m' sub ∉ tr := fun sub hs' => hm' sub ((hs _ _).mpr hs')
    have hne : m' ≠ m := hmsub m' hu
    rw [c1, c2, c3, c4, d1, d2, d3, d4]
    simpa [Ne.symm hne, hne, upd] using h.unsub m' hu
  · intro m' sub k hm' hk
    obtain ⟨c1, c2, c3, c4⟩ := hc m'
    obtain ⟨d1, d2, d3, d4⟩ := counts_reply ho m' tr
    rw [c1, c2, c3, c4, d1, d2, d3, d4]
    by_cases hmm : m' = m
    · simp [upd, hmm] at hk
    · simp only [upd, hmm, if_false] at hk
      simpa [hmm, Ne.symm hmm] using h.live m' sub k ((hs _ _).mp hm') hk
  · intro m' sub hm' hk
    obtain ⟨c1, c2, c3, c4⟩ := hc m'
    obtain ⟨d1, d2, d3, d4⟩ := counts_reply ho m' tr
    rw [c2, c3, d2, d3]
    by_cases hmm : m' = m
    · subst hmm
      have := h.live m' sub r ((hs _ _).mp hm') hret
      simp
      omega
    · simp only [upd, hmm, if_false] at hk
      simpa [Ne.symm hmm] using h.done m' sub ((hs _ _).mp hm') hk
  · intro p e' m' ok' q hq
    rcases snoc_split hq with ⟨_, hp, h'⟩ | ⟨q', _, hq'⟩
    · cases h'
      have hsub : ∃ sub, Obs.submitted m sub ∈ tr := by
        apply Classical.byContradiction
        intro hno
        exact hmsub m (fun sub hs' => hno ⟨sub, hs'⟩) rfl
      obtain ⟨sub, hs'⟩ := hsub
      refine ⟨sub, hp ▸ (reply_not_sub ho _ _ _).mpr hs', fun hf => ?_⟩
      subst hf
      have hr : r = 0 := by simpa using hok
      subst hr
      have := h.live m sub 0 hs' hret
      obtain ⟨d1, _⟩ := counts_reply ho m tr
      rw [← hp, d1]
      simp
      omega
    · rcases snoc_split hq' with ⟨_, _, h'⟩ | ⟨q'', _, hq''⟩
      · exact absurd h' (reply_not_relay ho)
      · exact h.relayed p e' m' ok' q'' hq''

/-- a new task -/
theorem RetryInv.submit {tr : List Obs} {ret : MsgId → Option Nat} (h : RetryInv tr ret) (m : MsgId) (sub : Submission)
    (hf : ∀ sub, Obs.submitted m sub ∉ tr) : RetryInv (tr ++ [.submitted m sub]) (upd ret m (some sub.retries)) := by
  have hc : ∀ m', failures m' (tr ++ [.submitted m sub]) = failures m' tr ∧ retried m' (tr ++ [.submitted m sub]) = retried m' tr ∧
      relays m' (tr ++ [.submitted m sub]) = relays m' tr ∧ successes m' (tr ++ [.submitted m sub]) = successes m' tr := by
    intro m'
    simp [failures, retried, relays, successes, List.countP_append, List.countP_cons]
  have h0 := h.unsub m hf
  refine ⟨?_, ?_, ?_, ?_⟩
  · intro m' hm'
    obtain ⟨c1, c2, c3, c4⟩ := hc m'
    have hne : m' ≠ m := by
      rintro rfl
      exact hm' sub (by simp)
    rw [c1, c2, c3, c4]
    simpa [hne, upd] using h.unsub m' fun sub hs' => hm' sub (List.mem_append_left _ hs')
  · intro m' sub' k hm' hk
    obtain ⟨c1, c2, c3, c4⟩ := hc m'
    rw [c1, c2, c3, c4]
    by_cases hmm : m' = m
    · subst hmm
      have : sub' = sub := by
        rcases List.mem_append.mp hm' with hm' | hm'
        · exact absurd hm' (hf _)
        · simpa using hm'
      subst this
      simp [upd] at hk
      omega
    · simp only [upd, hmm, if_false] at hk
      refine h.live m' sub' k ?_ hk
      simpa [hmm] using hm'
  · intro m' sub' hm' hk
    obtain ⟨c1, c2, c3, c4⟩ := hc m'
    rw [c2, c3]
    by_cases hmm : m' = m
    · simp [upd, hmm] at hk
    · simp only [upd, hmm, if_false] at hk
      refine h.done m' sub' ?_ hk
      simpa [hmm] using hm'
  · intro p e m' ok' q hq
    rcases snoc_split hq with ⟨_, _, h'⟩ | ⟨q', _, hq'⟩
    · cases h'
    · exact h.relayed p e m' ok' q' hq'

theorem IsReply.replyFor {ev : Event} {s : State} {o : Obs} {e : Engine} {m : MsgId} {ok : Bool} (h : IsReply ev s o e m ok true) :
    ReplyFor o m ok := by
  rcases h with ⟨rfl, _⟩ | ⟨rfl, h, _⟩
  · exact Or.inl ⟨e, rfl⟩
  · exact Or.inr ⟨e, rfl, h⟩

theorem outstanding_sent {e : Engine} {m : MsgId} {tr : List Obs} (h : m ∈ outstanding e tr) : Obs.send e m ∈ tr := by
  induction tr using snoc_induction with
  | nil => simp [outstanding] at h
  | snoc tr o ih =>
    rw [outstanding_snoc] at h
    rw [List.mem_append]
    cases o with
    | send e' m' =>
      dsimp only at h
      split at h
      · rename_i he
        rcases List.mem_append.mp h with h | h
        · exact Or.inl (ih h)
        · have h2 : m = m' := by simpa using h
          subst he h2; right; simp
      · exact Or.inl (ih h)
    | received e' m' ok dm =>
      dsimp only at h
      split at h
      · exact Or.inl (ih (List.mem_of_mem_erase h))
      · exact Or.inl (ih h)
    | _ => exact Or.inl (ih h)

theorem JobInv.sent_sub {s : State} (h : JobInv s) {e : Engine} {m : MsgId} (hs : Obs.send e m ∈ s.trace) :
    ∃ sub, Obs.submitted m sub ∈ s.trace := by
  obtain ⟨p, q, hpq⟩ := List.append_of_mem hs
  obtain ⟨_, _, sub, hsub, _⟩ := h.sent p e m q hpq
  exact ⟨sub, by rw [hpq]; simp [hsub]⟩

theorem retryInv_closed (cfg : Config) (ev : Event) :
    Closed cfg ev (fun s => (LoadInv cfg s ∧ JobInv s) ∧ (Faithful s.trace → RetryInv s.trace s.retries)) := by
  intro s s' hm ⟨hj, h⟩
  refine ⟨jobInv_closed cfg ev s s' hm hj, ?_⟩
  obtain ⟨_, hj⟩ := hj
  have hsub : ∀ {o e m ok dm}, IsReply ev s o e m ok dm → Faithful (s.trace ++ [o]) → ∃ sub, Obs.submitted m sub ∈ s.trace := by
    intro o e m ok dm ho hf
    rcases ho with ⟨rfl, _⟩ | ⟨rfl, _, _, _, _, p, hp, hmem⟩
    · exact hj.sent_sub (outstanding_sent hf.last)
    · exact hj.sent_sub (hj.pend _ _ _ hp hmem)
  cases hm with
  | book hs => rw [hs.trace, hs.retries]; exact h
  | fail s' m why hs hok =>
    have h' : Faithful s'.trace → RetryInv s'.trace s'.retries := by rw [hs.trace, hs.retries]; exact h
    exact fun hf => (h' hf.snoc).neutral (o := .fail m why) trivial
  | send m j idx target hj ht hlo hb htg hf ha =>
    rw [sentState_trace, sentState_retries]
    exact fun hf => (h hf.snoc).neutral (o := .send target m) trivial
  | register e hev hfresh => exact fun hf => (h hf.snoc).neutral (o := .registered e) trivial
  | unregister e idx hev hidx => exact fun hf => (h hf.snoc).neutral (o := .unregistered e) trivial
  | strand e he => exact h
  | submit m sub hev hfresh => exact fun hf => (h hf.snoc).submit m sub hfresh
  | submitJob m sub j hev hfresh hj => exact fun hf => (h hf.snoc).submit m sub hfresh
  | recv e m ok dm o ho hd =>
    rw [recvBase_trace, recvBase_retries]
    intro hf
    cases dm with
    | true => exact (h hf.snoc).late ho.replyFor (hd rfl) (hsub ho hf)
    | false =>
      refine (h hf.snoc).neutral ?_
      rcases ho with ⟨rfl, _⟩ | ⟨_, _, hh, _⟩
      · trivial
      · cases hh
  | recvDec e m o r ho hr =>
    simp only [recvBase_trace]
    exact fun hf => (h hf.snoc).dec ho.replyFor hr
  | recvRetry e m o r s' ho hr ht =>
    obtain ⟨p, j, _, _, _, rfl⟩ := takeBack_some ht
    simp only [recvBase_trace]
    exact fun hf => (h hf.snoc.snoc).decRetry ho.replyFor hr
  | recvUnmet e m ok o s' ho ht =>
    obtain ⟨p, j, _, _, _, rfl⟩ := takeBack_some ht
    simp only [recvBase_trace, recvBase_retries]
    intro hf
    refine ((h hf.snoc.snoc).neutral ?_).neutral (o := .retry e m .unmet) trivial
    rcases ho with ⟨rfl, _⟩ | ⟨_, _, hh, _⟩
    · trivial
    · cases hh
  | recvRelay e m ok o r ho hr hok =>
    simp only [relayState, recvBase_trace, recvBase_retries]
    exact fun hf => (h hf.snoc.snoc).relay ho.replyFor hr hok
  | popPending e p p' hp hsub => exact h
  | complete e m c hr hc => exact h
  | failedBy e m c hr hc => exact h

theorem run_retryInv (cfg : Config) (evs : List Event) (hf : Fresh evs) (hfa : Faithful (run cfg evs).trace) :
    RetryInv (run cfg evs).trace (run cfg evs).retries := by
  refine (run_inv cfg evs hf (fun s => (LoadInv cfg s ∧ JobInv s) ∧ (Faithful s.trace → RetryInv s.trace s.retries))
    ⟨⟨loadInv_init cfg, jobInv_init⟩, fun _ => ⟨?_, ?_, ?_, ?_⟩⟩ fun ev _ => retryInv_closed cfg ev).2 hfa
  · intro m _; exact ⟨rfl, rfl, rfl, rfl, rfl⟩
  · intro m sub k h; simp at h
  · intro m sub h; simp at h
  · intro p e m ok q h; simp at h

end IPP.Sched
