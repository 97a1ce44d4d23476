import Verif.Sched.Tries

/-!
# C67: how often a task is started

Vocabulary: `Spec.lean`; `Orderly` and `Prompt`: `LocProps.lean`.
-/
namespace IPP.Sched

/-- Number of attempts of task `m` that came back: engines' replies other than refusals, and engines that died with it. -/
def tries (m : MsgId) (tr : List Obs) : Nat := tr.countP fun
  | .received _ m' _ true => m' = m
  | .stranded _ m' => m' = m
  | _ => false

/-- Number of times an engine refused task `m` (unmet dependency). -/
def refusals (m : MsgId) (tr : List Obs) : Nat := tr.countP fun
  | .received _ m' _ false => m' = m
  | _ => false

theorem tries_eq (m : MsgId) (tr : List Obs) : tries m tr = failures m tr + successes m tr := by
  induction tr with
  | nil => rfl
  | cons o tr ih =>
    simp only [tries, failures, successes, List.countP_cons] at ih ⊢
    rw [ih]
    cases o with
    | received e m' ok dm => cases ok <;> cases dm <;> simp <;> omega
    | _ => simp <;> omega

theorem tries_still {m : MsgId} {r : List Obs} (h : ∀ o ∈ r, isBack o = false) : tries m r = 0 ∧ refusals m r = 0 := by
  constructor
  · refine List.countP_eq_zero.2 fun o ho => ?_
    have := h o ho
    cases o <;> simp_all [isBack]
  · refine List.countP_eq_zero.2 fun o ho => ?_
    have := h o ho
    cases o <;> simp_all [isBack]

theorem tries_strands {m : MsgId} {r : List Obs} (h : ∀ o ∈ r, isReceived o = false) : tries m r = r.countP (isStrandedOf m) := by
  refine List.countP_congr fun o ho => ?_
  have := h o ho
  cases o <;> simp_all [isReceived, isStrandedOf]

theorem tries_append (m : MsgId) (a b : List Obs) : tries m (a ++ b) = tries m a + tries m b := List.countP_append

theorem relays_le_replies (m : MsgId) (tr : List Obs) : relays m tr ≤ replies m tr := by
  refine List.countP_mono_left fun o _ h => ?_
  cases o <;> simp_all

/-- **Attempts are bounded**: a task is attempted at most `retries + 1` times, and only `retries` attempts have come back before the client has an engine's reply. -/
theorem tries_at_most_partial (cfg : Config) (evs : List Event) (hf : Fresh evs) (ho : Orderly cfg evs) (hp : Prompt cfg evs) (m : MsgId) :
    ∀ sub, Obs.submitted m sub ∈ (run cfg evs).trace →
    tries m (run cfg evs).trace ≤ sub.retries + 1 ∧ (relays m (run cfg evs).trace = 0 → tries m (run cfg evs).trace ≤ sub.retries) := by
  have small : ∀ evs, Fresh evs → Prompt cfg evs → ∀ sub, Obs.submitted m sub ∈ (run cfg evs).trace → relays m (run cfg evs).trace = 0 → tries m (run cfg evs).trace ≤ sub.retries := by
    intro evs hf hp sub hs hr
    have h := run_retryInv cfg evs hf (hp.faithful hf)
    rw [tries_eq]
    cases hk : (run cfg evs).retries m with
    | none => have := (h.done m sub hs hk).1; omega
    | some k => have := h.live m sub k hs hk; omega
  suffices hmain : ∀ sub, Obs.submitted m sub ∈ (run cfg evs).trace → tries m (run cfg evs).trace ≤ sub.retries + 1 from
    fun sub hs => ⟨hmain sub hs, small evs hf hp sub hs⟩
  induction evs using snoc_induction with
  | nil => intro sub hs; simp [run] at hs
  | snoc evs ev ih =>
    intro sub hs
    have ho' : Orderly cfg evs := ho.imp id fun h => ⟨fun m' sub' h' => h.1 m' sub' (List.mem_append_left _ h'), h.2⟩
    have ihs := ih hf.snoc ho' hp.snoc
    have hb := run_base cfg evs hf.snoc
    have hfr := hf.freshIn hb.1 hb.2
    have hinv := run_inv_of_orderly hf.snoc ho' hp.snoc
    have hret := run_retryInv cfg evs hf.snoc (hp.snoc.faithful hf.snoc)
    -- tasks of which the trace before knows nothing
    have hzero : (∀ sub, Obs.submitted m sub ∉ (run cfg evs).trace) → tries m (run cfg evs).trace = 0 := by
      intro h
      obtain ⟨_, h1, _, _, h2⟩ := hret.unsub m h
      rw [tries_eq]; omega
    have huniq := (run_jobInv cfg _ hf).uniq m
    have hext : ∃ r, (run cfg (evs ++ [ev])).trace = (run cfg evs).trace ++ r := by
      rw [run_snoc]
      cases adds cfg (run cfg evs) ev hfr with
      | reply e m' ok dm h r ht hr => exact ⟨_, ht⟩
      | strand e h he hs => obtain ⟨r, h1, _⟩ := hs; exact ⟨r, h1⟩
      | quiet hq r ht hr => exact ⟨r, ht⟩
    obtain ⟨rr, hrr⟩ := hext
    have hold : tries m (run cfg evs).trace ≤ sub.retries + 1 := by
      by_cases hk : ∃ sub', Obs.submitted m sub' ∈ (run cfg evs).trace
      · obtain ⟨sub', hk⟩ := hk
        have : sub = sub' := huniq sub sub' hs (by rw [hrr]; exact List.mem_append_left _ hk)
        exact this ▸ ihs sub' hk
      · rw [hzero fun sub' h => hk ⟨sub', h⟩]; omega
    have hassigned : ∀ e, m ∈ assigned e (run cfg evs).trace → tries m (run cfg evs).trace ≤ sub.retries := by
      intro e he
      have h0 := (hinv.asg m e he).2.1
      have h1 := relays_le_replies m (run cfg evs).trace
      have hsent := outstanding_sent ((assigned_sublist e _).subset he)
      obtain ⟨sub', hk⟩ := (run_jobInv cfg evs hf.snoc).sent_sub hsent
      have : sub = sub' := huniq sub sub' hs (by rw [hrr]; exact List.mem_append_left _ hk)
      exact small evs hf.snoc hp.snoc sub (this ▸ hk) (by omega)
    rw [run_snoc]
    cases adds cfg (run cfg evs) ev hfr with
    | reply e m' ok dm h r ht hr =>
      rw [ht, tries_append]
      have h0 := (tries_still (m := m) hr).1
      have hc : tries m (.received e m' ok dm :: r) ≤ (if m' = m then 1 else 0) + tries m r := by
        simp only [tries, List.countP_cons]
        cases dm <;> simp <;> omega
      rw [h0] at hc
      by_cases hm : m' = m
      · subst hm h
        have := hassigned e (hp evs e m' ok dm [] rfl)
        simp at hc
        omega
      · simp [hm] at hc; omega
    | strand e h he hst =>
      obtain ⟨r, h1, h2, h3, _⟩ := hst
      rw [h1, tries_append, tries_strands h2]
      have h4 := h3 m
      cases hpe : (run cfg evs).pending e with
      | none => rw [hpe] at h4; simp only [Option.getD_none, List.count_nil] at h4; omega
      | some p =>
        rw [hpe] at h4
        have h5 := hinv.ps e p hpe
        rw [h5] at h4
        simp only [Option.getD_some] at h4
        by_cases hm : m ∈ assigned e (run cfg evs).trace
        · have := hassigned e hm
          have := List.nodup_iff_count.mp (hinv.nod e) m
          omega
        · rw [List.count_eq_zero.2 hm] at h4; omega
    | quiet hq r ht hr =>
      rw [ht, tries_append, (tries_still (m := m) hr).1]
      omega

theorem sends_holders (m : MsgId) (tr : List Obs) : sends m tr ≤ (holders m tr).length + tries m tr + refusals m tr := by
  induction tr using snoc_induction with
  | nil => exact Nat.le_refl _
  | snoc tr o ih =>
    rw [holders_snoc]
    simp only [sends, tries, refusals, List.countP_append, List.countP_cons, List.countP_nil] at ih ⊢
    cases o with
    | send e m' => dsimp only; by_cases h : m' = m <;> simp [h] <;> omega
    | received e m' ok dm =>
      have := List.length_erase (a := e) (l := holders m tr)
      cases dm <;> by_cases h : m' = m <;> simp [h] <;> (try split at this) <;> omega
    | stranded e m' =>
      have := List.length_erase (a := e) (l := holders m tr)
      by_cases h : m' = m <;> simp [h] <;> (try split at this) <;> omega
    | _ => simp <;> omega

theorem holders_le_one (m : MsgId) (tr : List Obs) (h1 : ∀ e, (assigned e tr).count m ≤ 1) (h2 : ∀ e e', m ∈ assigned e tr → m ∈ assigned e' tr → e = e') :
    (holders m tr).length ≤ 1 := by
  have hc := fun e => count_holders m e tr
  match hl : holders m tr with
  | [] => simp
  | [_] => simp
  | a :: b :: t =>
    exfalso
    rw [hl] at hc
    have ha : m ∈ assigned a tr := List.count_pos_iff.1 (by rw [← hc a]; exact List.count_pos_iff.2 (by simp))
    have hb : m ∈ assigned b tr := List.count_pos_iff.1 (by rw [← hc b]; exact List.count_pos_iff.2 (by simp))
    have := h2 a b ha hb
    subst this
    have h3 := h1 a
    rw [← hc a] at h3
    simp at h3

/-- **A task is started at most `retries + 1` times**, not counting the times an engine refuses it: without retries its function runs at most once. -/
theorem started_at_most_partial (cfg : Config) (evs : List Event) (hf : Fresh evs) (ho : Orderly cfg evs) (hp : Prompt cfg evs) (m : MsgId) (sub : Submission)
    (hs : Obs.submitted m sub ∈ (run cfg evs).trace) : sends m (run cfg evs).trace ≤ sub.retries + 1 + refusals m (run cfg evs).trace := by
  obtain ⟨h1, h2, h3⟩ := one_place_partial cfg evs hf ho hp m
  have hle := holders_le_one m _ h1 h2
  have hsd := sends_holders m (run cfg evs).trace
  obtain ⟨t1, t2⟩ := tries_at_most_partial cfg evs hf ho hp m sub hs
  cases hl : holders m (run cfg evs).trace with
  | nil => rw [hl] at hsd; simp at hsd; omega
  | cons e t =>
    have : m ∈ assigned e (run cfg evs).trace := List.count_pos_iff.1 (by rw [← count_holders, hl]; exact List.count_pos_iff.2 (by simp))
    have := h3 e this
    have := relays_le_replies m (run cfg evs).trace
    have := t2 (by omega)
    omega

/-- The bound is reached: task 1 (one retry) is sent twice in the example; in the second example task 5, refused once, is sent twice or waits. -/
example : sends 1 (run exCfg exHistory).trace = 2 ∧ refusals 1 (run exCfg exHistory).trace = 0 := by decide
example : sends 1 (run exCfg exHistory).trace ≤ 1 + 1 + refusals 1 (run exCfg exHistory).trace :=
  started_at_most_partial exCfg exHistory exHistory_fresh exHistory_orderly exHistory_prompt 1 { retries := 1 } (by decide)
example : refusals 5 (run exCfg2 exHistory2).trace = 1 := by decide
example : sends 5 (run exCfg2 exHistory2).trace ≤ 0 + 1 + refusals 5 (run exCfg2 exHistory2).trace :=
  started_at_most_partial exCfg2 exHistory2 exHistory2_fresh exHistory2_orderly exHistory2_prompt 5 {} (by decide)

/-- Without a high water mark and with dependencies a task without retries can be started twice (`Violations.sent_twice`). -/
theorem started_twice_violated : sends 2 (run { hwm := 0, pick := fun _ l => leastload l } [.register 7, .submit 1 {}, .submit 2 { after := some { ids := [1] } }, .result 7 1 true true, .register 8]).trace = 2 := by
  decide

end IPP.Sched
