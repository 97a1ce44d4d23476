import Verif.Sched.RetryInv

/-!
# More trace invariants (lemmas)
-/
namespace IPP.Sched

/-! ### The high water mark at every moment -/

/-- At every moment recorded in the trace the load was within the bound. -/
def HwmInv (cfg : Config) (s : State) : Prop := ∀ p q, s.trace = p ++ q → ∀ e, loadSpec e p ≤ (cfg.hwm : Int)

theorem HwmInv.emit {cfg : Config} {s s' : State} {o : Obs} (h : HwmInv cfg s) (htr : s'.trace = s.trace ++ [o])
    (hl : ∀ e, loadSpec e s'.trace ≤ (cfg.hwm : Int)) : HwmInv cfg s' := by
  intro p q hq e
  rcases List.eq_nil_or_concat q with rfl | ⟨q', y, rfl⟩
  · rw [List.append_nil] at hq; exact hq ▸ hl e
  · rw [htr] at hq
    have hq' : s.trace ++ [o] = (p ++ q') ++ [y] := by simpa using hq
    exact h p q' (List.append_inj' hq' rfl).1 e

theorem HwmInv.congr {cfg : Config} {s s' : State} (h : HwmInv cfg s) (htr : s'.trace = s.trace) : HwmInv cfg s' := by
  intro p q hq; exact h p q (htr ▸ hq)

theorem hwmInv_closed (cfg : Config) (ev : Event) (hh : cfg.hwm ≠ 0) :
    Closed cfg ev (fun s => LoadInv cfg s ∧ HwmInv cfg s) := by
  intro s s' hm h
  have hl' := loadInv_closed cfg ev s s' hm h.1
  refine ⟨hl', ?_⟩
  have hb := hl'.hwm hh
  cases hm with
  | book hs => exact h.2.congr hs.trace
  | fail s' m why hs hok => exact HwmInv.emit (s := s') (h.2.congr hs.trace) rfl hb
  | send m j idx target hj ht hl => exact h.2.emit (sentState_trace ..) hb
  | register e hev hfresh => exact h.2.emit rfl hb
  | unregister e idx hev hidx => exact h.2.emit rfl hb
  | strand e he => exact h.2.congr rfl
  | submit m sub => exact h.2.emit rfl hb
  | submitJob m sub => exact h.2.emit rfl hb
  | recv e m ok dm o ho => exact h.2.emit (recvBase_trace ..) hb
  | recvDec e m o r ho => exact h.2.emit (recvBase_trace ..) hb
  | recvRetry e m o r s' ho hr ht =>
    obtain ⟨p, j, _, _, _, rfl⟩ := takeBack_some ht
    exact HwmInv.emit (s := recvBase s o e) (h.2.emit (recvBase_trace ..) ((h.1.recvBase ho).hwm hh)) rfl hb
  | recvUnmet e m ok o s' ho ht =>
    obtain ⟨p, j, _, _, _, rfl⟩ := takeBack_some ht
    exact HwmInv.emit (s := recvBase s o e) (h.2.emit (recvBase_trace ..) ((h.1.recvBase ho).hwm hh)) rfl hb
  | recvRelay e m ok o r ho =>
    exact HwmInv.emit (s := recvBase s o e) (h.2.emit (recvBase_trace ..) ((h.1.recvBase ho).hwm hh)) rfl hb
  | popPending => exact h.2.congr rfl
  | complete => exact h.2.congr rfl
  | failedBy => exact h.2.congr rfl

theorem run_hwmInv (cfg : Config) (evs : List Event) (hf : Fresh evs) (hh : cfg.hwm ≠ 0) : HwmInv cfg (run cfg evs) := by
  refine (run_inv cfg evs hf _ ⟨loadInv_init cfg, ?_⟩ fun ev _ => hwmInv_closed cfg ev hh).2
  intro p q hq e
  simp at hq
  rw [hq.1]; simp [loadSpec]

/-! ### Successes are relayed at once -/

def SuccInv (tr : List Obs) : Prop := ∀ p e m q, tr = p ++ .received e m true true :: q →
  relays m p = 1 ∨ ∃ q', q = .relay e m true :: q'

theorem SuccInv.emit {tr : List Obs} {o : Obs} (h : SuccInv tr) (ho : ∀ e m, o = .received e m true true → relays m tr = 1) :
    SuccInv (tr ++ [o]) := by
  intro p e m q hq
  rcases snoc_split hq with ⟨_, rfl, h2⟩ | ⟨q', rfl, hq'⟩
  · exact Or.inl (ho e m h2)
  · rcases h p e m q' hq' with h | ⟨q'', rfl⟩
    · exact Or.inl h
    · exact Or.inr ⟨q'' ++ [o], rfl⟩

theorem SuccInv.emitRelay {tr : List Obs} {e : Engine} {m : MsgId} {o : Obs} {ok : Bool} (h : SuccInv tr) (ho : o = .received e m ok true ∨ o = .stranded e m) :
    SuccInv (tr ++ [o] ++ [.relay e m ok]) := by
  intro p e' m' q hq
  rcases snoc_split hq with ⟨_, _, h2⟩ | ⟨q', rfl, hq'⟩
  · cases h2
  · rcases snoc_split hq' with ⟨rfl, rfl, h2⟩ | ⟨q'', rfl, hq''⟩
    · right
      rcases ho with rfl | rfl <;> cases h2
      exact ⟨[], rfl⟩
    · rcases h p e' m' q'' hq'' with h | ⟨q3, rfl⟩
      · exact Or.inl h
      · exact Or.inr ⟨q3 ++ [o] ++ [.relay e m ok], rfl⟩

theorem succInv_closed (cfg : Config) (ev : Event) :
    Closed cfg ev (fun s => ((LoadInv cfg s ∧ JobInv s) ∧ (Faithful s.trace → RetryInv s.trace s.retries)) ∧
      (Faithful s.trace → SuccInv s.trace)) := by
  intro s s' hm hall
  obtain ⟨h, hs⟩ := hall
  refine ⟨retryInv_closed cfg ev s s' hm h, ?_⟩
  have hdone : ∀ e m ok, Faithful (s.trace ++ [.received e m ok true]) → s.retries m = none → relays m s.trace = 1 := by
    intro e m ok hf hn
    obtain ⟨sub, hsub⟩ := h.1.2.sent_sub (outstanding_sent hf.last)
    exact ((h.2 hf.snoc).done m sub hsub hn).1
  have simple : ∀ {o : Obs} {tr}, tr = s.trace ++ [o] → (∀ e m, o ≠ .received e m true true) → Faithful tr → SuccInv tr := by
    rintro o tr rfl ho hf
    exact (hs hf.snoc).emit fun e m h => absurd h (ho e m)
  cases hm with
  | book hsame => rw [hsame.trace]; exact hs
  | fail s' m why hs hok => exact simple (o := .fail m why) (by simp [failState, hs.trace]) (by simp)
  | send m j idx target hj ht hl => exact simple (sentState_trace ..) (by simp)
  | register e hev hfresh => exact simple rfl (by simp)
  | unregister e idx hev hidx => exact simple rfl (by simp)
  | strand e he => exact hs
  | submit m sub => exact simple rfl (by simp)
  | submitJob m sub => exact simple rfl (by simp)
  | recv e m ok dm o ho hr =>
    simp only [recvBase_trace]
    intro hf
    refine (hs hf.snoc).emit fun e' m' ho' => ?_
    rcases ho with ⟨rfl, _⟩ | ⟨rfl, _⟩ <;> cases ho'
    exact hdone e m true hf (hr rfl)
  | recvDec e m o r ho =>
    simp only [recvBase_trace]
    refine simple rfl fun e' m' ho' => ?_
    rcases ho with ⟨rfl, _⟩ | ⟨rfl, _⟩ <;> cases ho'
  | recvRetry e m o r s' ho hr ht =>
    obtain ⟨p, j, _, _, _, rfl⟩ := takeBack_some ht
    simp only [recvBase_trace]
    intro hf
    refine SuccInv.emit (simple rfl (fun e' m' ho' => ?_) hf.snoc) (by simp)
    rcases ho with ⟨rfl, _⟩ | ⟨rfl, _⟩ <;> cases ho'
  | recvUnmet e m ok o s' ho ht =>
    obtain ⟨p, j, _, _, _, rfl⟩ := takeBack_some ht
    simp only [recvBase_trace]
    intro hf
    refine SuccInv.emit (simple rfl (fun e' m' ho' => ?_) hf.snoc) (by simp)
    rcases ho with ⟨rfl, _⟩ | ⟨rfl, _⟩ <;> cases ho'
  | recvRelay e m ok o r ho =>
    simp only [relayState, recvBase_trace]
    intro hf
    exact (hs hf.snoc.snoc).emitRelay (by rcases ho with ⟨rfl, _⟩ | ⟨rfl, _⟩ <;> simp)
  | popPending => exact hs
  | complete => exact hs
  | failedBy => exact hs

theorem run_succInv (cfg : Config) (evs : List Event) (hf : Fresh evs) (hfa : Faithful (run cfg evs).trace) :
    SuccInv (run cfg evs).trace := by
  refine (run_inv cfg evs hf _ ⟨⟨⟨loadInv_init cfg, jobInv_init⟩, fun _ => ?_⟩, fun _ => ?_⟩ fun ev _ => succInv_closed cfg ev).2 hfa
  · exact run_retryInv cfg [] ⟨by simp, by simp⟩ (by intro p e m ok dm q h; simp [run] at h)
  · intro p e m q h; simp at h

end IPP.Sched
