import Verif.LB.Model
import Verif.Sched.TriesProps
/-!
# Lemmas about load-balanced tasks
-/
namespace IPP.LB
open IPP.Namespace

variable {V : Type}

/-! ## lists -/

theorem length_le_of_count {α : Type} [DecidableEq α] : ∀ (a b : List α), (∀ x, a.count x ≤ b.count x) → a.length ≤ b.length
  | [], _, _ => Nat.zero_le _
  | x :: t, b, h => by
    have hx : x ∈ b := List.count_pos_iff.1 (Nat.lt_of_lt_of_le (by simp) (h x))
    have ht : ∀ y, t.count y ≤ (b.erase x).count y := by
      intro y
      have := h y
      rw [List.count_cons] at this
      rw [List.count_erase]
      by_cases hy : x = y
      · subst hy; simp at this ⊢; omega
      · have hy' : (x == y) = false := by simpa using hy
        simp [hy'] at this ⊢
        omega
    have := length_le_of_count t (b.erase x) ht
    rw [List.length_erase_of_mem hx] at this
    have : 0 < b.length := List.length_pos_of_mem hx
    simp only [List.length_cons]
    omega

/-! ## what one event of the scheduler adds to the trace -/

/-- extension of `tr` with relays only as allowed by the event -/
def RelOk (ev : Sched.Event) (tr : List Sched.Obs) (s : Sched.State) : Prop :=
  ∃ r, s.trace = tr ++ r ∧ (∀ e m ok, Sched.Obs.relay e m ok ∈ r → ev = .result e m ok true ∨ (ev = .strandTimer e ∧ Sched.Obs.stranded e m ∈ r)) ∧
    ∀ e, Sched.Obs.registered e ∈ r → ev = .register e

theorem RelOk.congr {ev : Sched.Event} {tr : List Sched.Obs} {s s' : Sched.State} (h : RelOk ev tr s) (ht : s'.trace = s.trace) : RelOk ev tr s' := by
  obtain ⟨r, h1, h2⟩ := h
  exact ⟨r, ht ▸ h1, h2⟩

theorem RelOk.emit {ev : Sched.Event} {tr : List Sched.Obs} {s s' : Sched.State} {o : Sched.Obs} (h : RelOk ev tr s) (ht : s'.trace = s.trace ++ [o])
    (ho : ∀ e m ok, o ≠ .relay e m ok) (ho' : ∀ e, o = .registered e → ev = .register e) : RelOk ev tr s' := by
  obtain ⟨r, h1, h2, h3⟩ := h
  refine ⟨r ++ [o], by rw [ht, h1]; simp, fun e m ok hx => ?_, fun e hx => ?_⟩
  · rcases List.mem_append.mp hx with hx | hx
    · exact (h2 e m ok hx).imp id fun h => ⟨h.1, List.mem_append_left _ h.2⟩
    · exact absurd (List.mem_singleton.1 hx).symm (ho e m ok)
  · rcases List.mem_append.mp hx with hx | hx
    · exact h3 e hx
    · exact ho' e (List.mem_singleton.1 hx).symm

theorem relOk_closed (cfg : Sched.Config) (ev : Sched.Event) (tr : List Sched.Obs) : Sched.Closed cfg ev (RelOk ev tr) := by
  have hr : ∀ {s o e m ok dm}, Sched.IsReply ev s o e m ok dm → ∀ e' m' ok', o ≠ .relay e' m' ok' := by
    intro s o e m ok dm ho e' m' ok' heq
    rcases ho with ⟨h, _⟩ | ⟨h, _⟩ <;> rw [h] at heq <;> cases heq
  have hr' : ∀ {s o e m ok dm}, Sched.IsReply ev s o e m ok dm → ∀ e', o = .registered e' → ev = .register e' := by
    intro s o e m ok dm ho e' heq
    rcases ho with ⟨h, _⟩ | ⟨h, _⟩ <;> rw [h] at heq <;> cases heq
  intro s s' hm h
  cases hm with
  | book hs => exact h.congr hs.trace
  | fail s' m why hs hok => exact RelOk.emit (s := s') (h.congr hs.trace) (o := .fail m why) rfl (by simp) (by simp)
  | send m j idx target => exact h.emit (o := .send target m) (by simp) (by simp) (by simp)
  | register e hev => exact h.emit (o := .registered e) rfl (by simp) (fun e' h => by cases h; exact hev)
  | unregister e idx hev hidx => exact h.emit (o := .unregistered e) rfl (by simp) (by simp)
  | strand e he => exact h.congr rfl
  | submit m sub hev => exact h.emit (o := .submitted m sub) rfl (by simp) (by simp)
  | submitJob m sub j hev => exact h.emit (o := .submitted m sub) rfl (by simp) (by simp)
  | recv e m ok dm o ho => exact h.emit (by simp) (hr ho) (hr' ho)
  | recvDec e m o r ho => exact h.emit (by simp) (hr ho) (hr' ho)
  | recvRetry e m o r s' ho hrr ht =>
    obtain ⟨p, j, _, _, _, rfl⟩ := Sched.takeBack_some ht
    exact (h.emit (s' := Sched.recvBase s o e) (by simp) (hr ho) (hr' ho)).emit (o := .retry e m .failure) rfl (by simp) (by simp)
  | recvUnmet e m ok o s' ho ht =>
    obtain ⟨p, j, _, _, _, rfl⟩ := Sched.takeBack_some ht
    exact (h.emit (s' := Sched.recvBase s o e) (by simp) (hr ho) (hr' ho)).emit (o := .retry e m .unmet) rfl (by simp) (by simp)
  | recvRelay e m ok o r ho =>
    obtain ⟨r0, h1, h2, h3⟩ := h.emit (s' := Sched.recvBase s o e) (by simp) (hr ho) (hr' ho)
    obtain ⟨r1, k1, _⟩ := h
    have hor : r0 = r1 ++ [o] := List.append_cancel_left (as := tr) (by rw [← h1, Sched.recvBase_trace, k1]; simp)
    refine ⟨r0 ++ [.relay e m ok], ?_, fun e' m' ok' hx => ?_, fun e' hx => ?_⟩
    · rw [← List.append_assoc, ← h1]; rfl
    · rcases List.mem_append.1 hx with hx | hx
      · exact (h2 e' m' ok' hx).imp id fun h => ⟨h.1, List.mem_append_left _ h.2⟩
      · cases List.mem_singleton.1 hx
        rcases ho with ⟨_, h⟩ | ⟨h0, _, _, h, _⟩
        · exact .inl h
        · refine .inr ⟨h, List.mem_append_left _ ?_⟩
          rw [hor, h0]; simp
    · rcases List.mem_append.1 hx with hx | hx
      · exact h3 e' hx
      · simp at hx
  | popPending => exact h.congr rfl
  | complete => exact h.congr rfl
  | failedBy => exact h.congr rfl

/-- one event: what is added, which relays it has, which replies -/
theorem step_adds (cfg : Sched.Config) (s : Sched.State) (ev : Sched.Event) (hf : Sched.FreshIn s ev) :
    ∃ r, (Sched.step cfg s ev).trace = s.trace ++ r ∧ (∀ e m ok, Sched.Obs.relay e m ok ∈ r → ev = .result e m ok true ∨ (ev = .strandTimer e ∧ Sched.Obs.stranded e m ∈ r)) ∧
    ∀ e, Sched.Obs.registered e ∈ r → ev = .register e :=
  Sched.step_pres (relOk_closed cfg ev s.trace) s ⟨[], by simp, by simp, by simp⟩ hf

/-! ## engines that answer what they were asked -/

/-- Engines that answer only tasks outstanding on them are faithful. -/
theorem faithful_of_asked {cfg : Sched.Config} {evs : List Sched.Event} (hf : Sched.Fresh evs)
    (hp : ∀ p e m ok dm q, evs = p ++ .result e m ok dm :: q → m ∈ Sched.outstanding e (Sched.run cfg p).trace) : Sched.Faithful (Sched.run cfg evs).trace := by
  induction evs using Sched.snoc_induction with
  | nil => intro p e m ok dm q hq; simp [Sched.run] at hq
  | snoc evs ev ih =>
    have ih' := ih hf.snoc fun p e m ok dm q hq => hp p e m ok dm (q ++ [ev]) (by rw [hq]; simp)
    have hb := Sched.run_base cfg evs hf.snoc
    rw [Sched.run_snoc]
    cases Sched.adds cfg (Sched.run cfg evs) ev (hf.freshIn hb.1 hb.2) with
    | reply e m ok dm h r ht hr =>
      subst h
      have hm := hp evs e m ok dm [] rfl
      have h1 : Sched.Faithful ((Sched.run cfg evs).trace ++ [.received e m ok dm]) := by
        intro p e' m' ok' dm' q hq
        rcases Sched.snoc_split hq with ⟨_, h2, h3⟩ | ⟨q', _, hq'⟩
        · cases h3; rw [← h2]; exact hm
        · exact ih' p e' m' ok' dm' q' hq'
      refine h1.quiet ⟨r, by rw [ht]; simp, fun o ho => ?_⟩
      have := hr o ho
      cases o <;> simp_all [Sched.isBack, Sched.isReceived]
    | strand e h he hs =>
      obtain ⟨r, h1, h2, _⟩ := hs
      exact ih'.quiet ⟨r, h1, h2⟩
    | quiet hq r ht hr =>
      refine ih'.quiet ⟨r, ht, fun o ho => ?_⟩
      have := hr o ho
      cases o <;> simp_all [Sched.isBack, Sched.isReceived]

end IPP.LB
