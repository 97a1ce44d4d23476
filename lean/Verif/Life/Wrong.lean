import Verif.Life.Birth
/-!
# C80: what goes wrong — engines that are slow, time out, ask for an id, or die while the controller is down
-/
namespace IPP.Life
open Hub (Uuid Eid Reg delKey getKey)

/-! ## engines that never get listed -/

/-- a process that is gone does not change any more -/
theorem step_gone_eq (max : Nat) (s : Sys) (x : Ev) (u : Uuid) (h : (s.proc u).phase = .gone) : (step max s x).proc u = s.proc u := by
  have hp : ∀ (v : Uuid) (p : Proc), (v = u → p = s.proc u) → upd s.proc v p u = s.proc u := by
    intro v p hv
    by_cases hc : u = v
    · subst hc; simpa using hv rfl
    · rw [upd_other _ _ hc]
  have hgone : ∀ p : Proc, p.phase = .gone → { p with phase := .gone } = p := by
    intro p hp; cases p; simp at hp; simp [hp]
  cases x with
  | start v r =>
    simp only [step]; split
    · rename_i ha; exact hp v _ (by rintro rfl; rw [h] at ha; cases ha)
    · rfl
  | timeout v =>
    simp only [step]; split
    · rename_i ha; exact hp v _ (by rintro rfl; rw [h] at ha; cases ha)
    · rfl
  | reply v =>
    simp only [step]; split
    · rename_i ha
      split
      · rfl
      · exact hp v _ (by rintro rfl; rw [h] at ha; cases ha)
      · exact hp v _ (by rintro rfl; rw [h] at ha; cases ha)
    · rfl
  | heart v =>
    simp only [step]; split
    · rename_i ha; exact hp v _ (by rintro rfl; rw [h] at ha; cases ha)
    · rfl
  | die v =>
    simp only [step]; split
    · rfl
    · exact hp v _ (by rintro rfl; exact hgone _ h)
  | giveUp v =>
    simp only [step]; split
    · rename_i ha; exact hp v _ (by rintro rfl; rw [h] at ha; cases ha)
    · rfl
  | nanny v => simp only [step]; split <;> rfl
  | hub v =>
    simp only [step]; split
    · rfl
    · rename_i m rest _
      cases m with
      | register q => rfl
      | unregister i => cases i <;> rfl
  | pong v t => simp only [step]; split <;> rfl
  | beat dt => rfl
  | note =>
    simp only [step]; split
    · rfl
    · rename_i n _
      cases n <;> rfl
  | stall v => rfl

theorem run_gone_eq (max : Nat) (s : Sys) (evs : List Ev) (u : Uuid) (h : (s.proc u).phase = .gone) : (run max s evs).proc u = s.proc u := by
  induction evs generalizing s with
  | nil => rfl
  | cons x r ih =>
    show (run max (step max s x) r).proc u = s.proc u
    have h1 := step_gone_eq max s x u h
    rw [ih _ (by rw [h1]; exact h), h1]

/-- **C80 (giving up is final).** An engine that stops waiting for the hub's reply — or dies before it has started its heart — is never listed, whatever happens later. -/
theorem given_up_never_listed (max : Nat) (evs more : List Ev) (u : Uuid) (h : ((run max init evs).proc u).phase = .gone) (hh : ((run max init evs).proc u).heart = false) (e : Eid) :
    ¬ Spec.Listed (run max init (evs ++ more)) u e := by
  intro hl
  have := (listed_agrees max (evs ++ more) u e hl).1
  rw [run_append, run_gone_eq max _ more u h, hh] at this
  cases this

/-- **C80 (too slow).** Once the hub's registration timeout has struck an engine that had been granted an id, that engine is never listed — even though it may go on to start its heart and to answer every ping for ever. -/
theorem stalled_never_listed (max : Nat) (evs more : List Ev) (u : Uuid) (e : Eid) (h : Spec.Pending (run max init evs) u e) (e' : Eid) :
    ¬ Spec.Listed (run max init (evs ++ .stall u :: more)) u e' := by
  have hi := Inv.init.run max evs
  have hrep := hi.known u e (Or.inl h)
  have hi' := hi.step max (.stall u)
  have hf : Finished (step max (run max init evs) (.stall u)) u := by
    refine ⟨hi', ?_, ?_, ?_, ?_⟩
    · intro r hr
      have := (hi.lp u).head r hr
      rw [hrep] at this; cases this
    · intro i hin
      exact absurd rfl (Hub.mem_delKey.1 hin).2
    · intro i hin
      exact not_both hi.reg hin h
    · intro ha
      have := ((hi.lp u).absent ha).2.2
      rw [hrep] at this; cases this
  rw [run_append]
  exact (hf.run max more).notlisted e'

/-! ## concrete histories

`0` is an engine that registers normally under id 0. -/

/-- engine `u` starts without asking for an id, is granted one, starts its heart, answers, and is listed -/
def joins (u t : Nat) : List Ev := [.start u none, .hub u, .reply u, .heart u, .pong u t, .beat 1, .note]

/-- the hypotheses of the theorems are met: engine 0 is listed after it joined … -/
example : Spec.Listed (run 10 init (joins 0 0)) 0 0 ∧ ((run 10 init (joins 0 0)).proc 0).phase = .running ∧ Spec.Caught (run 10 init (joins 0 0)) := by
  unfold Spec.Listed Spec.Caught; decide +kernel
/-- … is pending before it answers, with a current token … -/
example : Spec.Pending (run 10 init [.start 0 none, .hub 0, .reply 0, .heart 0]) 0 0 ∧ ((run 10 init [.start 0 none, .hub 0, .reply 0, .heart 0]).proc 0).heart = true ∧
    0 = (run 10 init [.start 0 none, .hub 0, .reply 0, .heart 0]).hm.lifetime := by
  unfold Spec.Pending; decide +kernel
/-- … is removed after it died and twelve beats have passed … -/
example : Spec.Listed (run 10 init (joins 0 0 ++ [.die 0])) 0 0 ∧ ¬ Spec.Listed (run 10 init (joins 0 0 ++ .die 0 :: List.replicate 12 (.beat 1) ++ [.note])) 0 0 ∧
    Spec.beats (.die 0 :: List.replicate 12 (.beat 1) ++ [.note]) = 12 ∧ Spec.Caught (run 10 init (joins 0 0 ++ .die 0 :: List.replicate 12 (.beat 1) ++ [.note])) ∧
    Hub.Note.unregistered 0 0 ∈ (run 10 init (joins 0 0 ++ .die 0 :: List.replicate 12 (.beat 1) ++ [.note])).notes := by
  unfold Spec.Listed Spec.Caught; decide +kernel
/-- … or as soon as its nanny has spoken -/
example : (run 10 init (joins 0 0 ++ [.die 0, .nanny 0])).toHub 0 = [.unregister (some 0)] ∧ ¬ Spec.Listed (run 10 init (joins 0 0 ++ [.die 0, .nanny 0, .hub 0])) 0 0 ∧
    Spec.AutoIds (joins 0 0 ++ [.die 0, .nanny 0]) := by
  refine ⟨by decide +kernel, by unfold Spec.Listed; decide +kernel, ?_⟩
  intro u r h
  simp [joins] at h
  exact h.2

/-- an engine that asks for id 7 while another one, without a wish, overtakes it -/
example : Spec.Pending (run 10 init ([] ++ .start 3 (some 7) :: joins 0 0 ++ [.hub 3])) 3 7 := by
  have hr : (run 10 init ([] ++ .start 3 (some 7) :: joins 0 0)).reg.engines = [(0, 0)] ∧ (run 10 init ([] ++ .start 3 (some 7) :: joins 0 0)).reg.incoming = [] := by decide +kernel
  refine requested_granted 10 [] (joins 0 0) 3 7 rfl (by decide) (fun v h => ?_) (fun v h => ?_)
  · unfold Spec.Listed at h; rw [hr.1] at h; simp at h
  · unfold Spec.Pending at h; rw [hr.2] at h; cases h

/-- **C80 (violated).** The full claim — a listed engine whose process lives and whose heart is heard stays listed — fails: engine 0 is listed and runs; another engine asks for id 0 (as MPI ranks do), does not get it, gives up waiting — and its goodbye, which names the id it *asked* for, removes engine 0. -/
theorem timeout_removes_other_violated :
    ∃ evs : List Ev, Spec.Listed (run 10 init evs) 0 0 ∧ ((run 10 init evs).proc 0).phase = .running ∧ Heart.Note.stopped 0 ∉ (run 10 init evs).hm.notes ∧
      ¬ Spec.Listed (run 10 init (evs ++ [.hub 1])) 0 0 ∧ ((run 10 init (evs ++ [.hub 1])).proc 0).phase = .running ∧ Heart.Note.stopped 0 ∉ (run 10 init (evs ++ [.hub 1])).hm.notes := by
  refine ⟨joins 0 0 ++ [.start 1 (some 0), .timeout 1, .hub 1], ?_⟩
  unfold Spec.Listed
  decide +kernel

/-- **C80 (violated).** … and from then on the engine that was removed, which still runs and answers, is never listed again. -/
theorem timeout_removes_other_for_ever_violated :
    ∃ evs : List Ev, ((run 10 init evs).proc 0).phase = .running ∧ Heart.Note.stopped 0 ∉ (run 10 init evs).hm.notes ∧ ∀ more e, ¬ Spec.Listed (run 10 init (evs ++ more)) 0 e := by
  refine ⟨joins 0 0 ++ [.start 1 (some 0), .timeout 1, .hub 1, .hub 1], by decide +kernel, by decide +kernel, fun more e => ?_⟩
  exact (removed_stays_removed 10 _ more 0 0 (by decide +kernel)).1 e

/-- **C80 (violated).** An engine that gives up waiting without having asked for an id says goodbye with no id: its registration stays pending, and blocks its id, until the registration timeout. -/
theorem timeout_keeps_pending_violated :
    ∃ evs : List Ev, (∀ u, (run 10 init evs).toHub u = []) ∧ ((run 10 init evs).proc 0).phase = .gone ∧ ((run 10 init evs).proc 0).heart = false ∧ Spec.Pending (run 10 init evs) 0 0 := by
  refine ⟨[.start 0 none, .hub 0, .timeout 0, .hub 0], fun u => ?_, by decide +kernel, by decide +kernel, by unfold Spec.Pending; decide +kernel⟩
  by_cases hu : u = 0
  · subst hu; decide +kernel
  · simp [run, step, hubMsg, hubStep, init, upd, hu]

/-- **C80 (violated).** An engine whose start takes longer than the hub's registration timeout runs, answers every ping, and is never listed. -/
theorem slow_engine_lost_violated :
    ∃ evs : List Ev, ((run 10 init evs).proc 0).phase = .running ∧ Spec.Caught (run 10 init evs) ∧ 0 ∈ (run 10 init evs).hm.hearts ∧ ∀ more e, ¬ Spec.Listed (run 10 init (evs ++ more)) 0 e := by
  refine ⟨[.start 0 none, .hub 0, .reply 0] ++ .stall 0 :: [.heart 0, .pong 0 0, .beat 1, .note], by decide +kernel, by unfold Spec.Caught; decide +kernel, by decide +kernel, fun more e => ?_⟩
  have := stalled_never_listed 10 [.start 0 none, .hub 0, .reply 0] ([.heart 0, .pong 0 0, .beat 1, .note] ++ more) 0 0 (by unfold Spec.Pending; decide +kernel) e
  exact this

/-- **C80 (violated).** An engine that misses eleven beats — suspended, or its network interrupted — and then answers again runs on and is never listed again. -/
theorem resumed_engine_lost_violated :
    ∃ evs : List Ev, ((run 10 init evs).proc 0).phase = .running ∧ Spec.Caught (run 10 init evs) ∧ 0 ∈ (run 10 init evs).hm.hearts ∧ ∀ more e, ¬ Spec.Listed (run 10 init (evs ++ more)) 0 e := by
  refine ⟨joins 0 0 ++ (List.replicate 11 (.beat 1) ++ [.note, .pong 0 12, .beat 1, .note]), by decide +kernel, by unfold Spec.Caught; decide +kernel, by decide +kernel, fun more e => ?_⟩
  exact (removed_stays_removed 10 _ more 0 0 (by decide +kernel)).1 e

/-! ## engines that died while the controller was down -/

/-- what stays true while the restored engine `u`, whose process does not exist, is listed under `e` -/
structure Ghost (f : Hub.File) (u : Uuid) (e : Eid) (s : Sys) : Prop where
  reg : Hub.Inv s.reg
  listed : (e, u) ∈ s.reg.engines
  absent : (s.proc u).phase = .absent ∧ (s.proc u).heart = false
  quiet : u ∉ s.hm.responses ∧ u ∉ s.hm.hearts ∧ ∀ n ∈ s.hm.notes, n ≠ .stopped u
  asks : ∀ v r, Msg.register r ∈ s.toHub v → r = none
  untold : ∀ v i, (s.proc v).id = some i → f.nextId ≤ i
  replies : ∀ v i, s.reply v = some (some i) → f.nextId ≤ i
  goodbyes : ∀ v i, Msg.unregister (some i) ∈ s.toHub v → f.nextId ≤ i
  counter : f.nextId ≤ s.reg.counter

theorem ghost_init {f : Hub.File} (h1 : (f.engines.map Prod.fst).Nodup) (h2 : (f.engines.map Prod.snd).Nodup) (h3 : ∀ i ∈ f.engines.map Prod.fst, i < f.nextId) {u : Uuid} {e : Eid} (h : (e, u) ∈ f.engines) :
    Ghost f u e (restored f) := by
  have hl := Hub.load_eq h1 h2
  refine ⟨?_, ?_, ⟨rfl, rfl⟩, ⟨by simp [restored], by simp [restored], by simp [restored]⟩, fun v r hr => (by cases hr), fun v i hi => (by cases hi), fun v i hi => (by cases hi), fun v i hi => (by cases hi), ?_⟩
  · show Hub.Inv (Hub.load (some f))
    rw [hl]
    refine ⟨by simpa using h1, by simpa using h2, ?_, rfl, rfl⟩
    intro i hi; simp only [List.map_nil, List.append_nil] at hi; exact h3 i hi
  · show (e, u) ∈ (Hub.load (some f)).engines
    rw [hl]; exact h
  · show f.nextId ≤ (Hub.load (some f)).counter
    rw [hl]; exact Nat.le_refl _

theorem Ghost.step {f : Hub.File} {u : Uuid} {e : Eid} (he : e < f.nextId) {s : Sys} (h : Ghost f u e s) (max : Nat) (x : Ev) (hx : ∀ v r, x = .start v r → v ≠ u ∧ r = none) : Ghost f u e (step max s x) := by
  have hproc : ∀ (v : Uuid) (p : Proc) (q : List Msg), v ≠ u → (∀ i, p.id = some i → f.nextId ≤ i) → (∀ r, Msg.register r ∈ q → r = none) → (∀ i, Msg.unregister (some i) ∈ q → f.nextId ≤ i) →
      Ghost f u e { s with proc := upd s.proc v p, toHub := upd s.toHub v q } := by
    intro v p q hv hp hq hq'
    refine ⟨h.reg, h.listed, ?_, h.quiet, ?_, ?_, h.replies, ?_, h.counter⟩
    · simp only [upd_other _ _ (Ne.symm hv)]; exact h.absent
    · intro w r
      by_cases hw : w = v
      · subst hw; simpa using hq r
      · simp only [upd_other _ _ hw]; exact h.asks w r
    · intro w i
      by_cases hw : w = v
      · subst hw; simpa using hp i
      · simp only [upd_other _ _ hw]; exact h.untold w i
    · intro w i
      by_cases hw : w = v
      · subst hw; simpa using hq' i
      · simp only [upd_other _ _ hw]; exact h.goodbyes w i
  have hp : ∀ (v : Uuid) (p : Proc), v ≠ u → (∀ i, p.id = some i → f.nextId ≤ i) → Ghost f u e { s with proc := upd s.proc v p } := by
    intro v p hv hi
    have := hproc v p (s.toHub v) hv hi (h.asks v) (h.goodbyes v)
    rw [upd_id] at this; exact this
  have hne : ∀ v, (s.proc v).phase ≠ .absent → v ≠ u := by rintro v hv rfl; exact hv h.absent.1
  have hsend : ∀ v i, Msg.unregister (some i) ∈ s.toHub v ++ [Msg.unregister (s.proc v).id] → f.nextId ≤ i := by
    intro v i hi
    simp at hi
    rcases hi with hi | hi
    · exact h.goodbyes v i hi
    · exact h.untold v i hi.symm
  have hgone : ∀ {r' : Reg} {w : Uuid} {i : Eid}, r'.engines = s.reg.engines.filter (fun x => x ≠ (i, w)) → (i ≠ e ∨ w ≠ u) → (e, u) ∈ r'.engines := by
    intro r' w i h1 h2
    rw [h1]
    refine List.mem_filter.2 ⟨h.listed, ?_⟩
    simp only [ne_eq, Prod.mk.injEq, decide_not, Bool.not_eq_true', decide_eq_false_iff_not]
    rintro ⟨rfl, rfl⟩
    rcases h2 with h2 | h2 <;> exact h2 rfl
  cases x with
  | start v r =>
    simp only [Life.step]
    obtain ⟨hv, rfl⟩ := hx v r rfl
    split
    · exact hproc v _ _ hv (by simp) (by simp) (by simp)
    · exact h
  | timeout v =>
    simp only [Life.step]
    split
    · rename_i ha
      exact hproc v _ _ (hne v (by rw [ha]; simp)) (h.untold v) (fun r hr => h.asks v r (by simpa using hr)) (hsend v)
    · exact h
  | reply v =>
    simp only [Life.step]
    split
    · rename_i ha
      split
      · exact h
      · exact hp v _ (hne v (by rw [ha]; simp)) (h.untold v)
      · rename_i i hr
        exact hp v _ (hne v (by rw [ha]; simp)) (fun j hj => by simp at hj; subst hj; exact h.replies v i hr)
    · exact h
  | heart v =>
    simp only [Life.step]
    split
    · rename_i ha
      exact hp v _ (hne v (by rw [ha]; simp)) (h.untold v)
    · exact h
  | die v =>
    simp only [Life.step]
    split
    · exact h
    · rename_i ha; exact hp v _ (hne v ha) (h.untold v)
  | giveUp v =>
    simp only [Life.step]
    split
    · rename_i ha
      exact hproc v _ _ (hne v (by rw [ha]; simp)) (h.untold v) (fun r hr => h.asks v r (by simpa using hr)) (hsend v)
    · exact h
  | nanny v =>
    simp only [Life.step]
    split
    · rename_i ha
      have := hproc v (s.proc v) _ (hne v (by rw [ha.1]; simp)) (h.untold v) (fun r hr => h.asks v r (by simpa using hr)) (hsend v)
      rw [upd_id] at this; exact this
    · exact h
  | hub v =>
    simp only [Life.step]
    cases hq : s.toHub v with
    | nil => exact h
    | cons m rest =>
      have hmem : ∀ w y, y ∈ upd s.toHub v rest w → y ∈ s.toHub w := by
        intro w y hy
        by_cases hw : w = v
        · subst hw; simp at hy; rw [hq]; simp [hy]
        · rw [upd_other _ _ hw] at hy; exact hy
      cases m with
      | unregister i =>
        cases i with
        | none => exact ⟨h.reg, h.listed, h.absent, h.quiet, fun w r hr => h.asks w r (hmem w _ hr), h.untold, h.replies, fun w i hi => h.goodbyes w i (hmem w _ hi), h.counter⟩
        | some i =>
          have hi := h.goodbyes v i (by rw [hq]; simp)
          refine ⟨h.reg.step (e := .unregister i) trivial, ?_, h.absent, h.quiet, fun w r hr => h.asks w r (hmem w _ hr), h.untold, h.replies, fun w i hi => h.goodbyes w i (hmem w _ hi), ?_⟩
          · show (e, u) ∈ (Hub.unregister s.reg i).1.engines
            rcases unregister_eff h.reg i with ⟨w, -, h1, -, -⟩ | ⟨-, h1, -, -⟩
            · exact hgone h1 (Or.inl (Nat.ne_of_gt (Nat.lt_of_lt_of_le he hi)))
            · rw [h1]; exact h.listed
          · show f.nextId ≤ (Hub.unregister s.reg i).1.counter
            rw [unregister_counter]; exact h.counter
      | register q =>
        have hqn := h.asks v q (by rw [hq]; simp)
        subst hqn
        have hcnt : (Hub.register s.reg v none).1.counter = s.reg.counter + 1 := by
          unfold Hub.register
          simp only [Hub.newEngineId]
          split
          · rfl
          · split <;> rfl
        have hsent : (Hub.register s.reg v none).2 = [.refused v] ∨ (Hub.register s.reg v none).2 = [.granted v s.reg.counter true] := by
          unfold Hub.register
          simp only [Hub.newEngineId]
          split
          · exact Or.inl rfl
          · split
            · exact Or.inl rfl
            · exact Or.inr rfl
        refine ⟨h.reg.step (e := .register v none) trivial, ?_, h.absent, h.quiet, fun w r hr => h.asks w r (hmem w _ hr), h.untold, ?_, fun w i hi => h.goodbyes w i (hmem w _ hi), ?_⟩
        · show (e, u) ∈ (Hub.register s.reg v none).1.engines
          rw [(register_eff h.reg v none).1]; exact h.listed
        · intro w i hi
          have hi : upd s.reply v (some (match (Hub.register s.reg v none).2 with | [.granted _ id _] => some id | _ => none)) w = some (some i) := hi
          by_cases hw : w = v
          · subst hw
            rw [upd_same] at hi
            rcases hsent with h1 | h1
            · simp [h1] at hi
            · simp [h1] at hi; rw [← hi]; exact h.counter
          · rw [upd_other _ _ hw] at hi; exact h.replies w i hi
        · show f.nextId ≤ (Hub.register s.reg v none).1.counter
          rw [hcnt]; exact Nat.le_succ_of_le h.counter
  | pong v t =>
    simp only [Life.step]
    split
    · rename_i ha
      have hv : v ≠ u := by rintro rfl; rw [h.absent.2] at ha; cases ha
      obtain ⟨h1, h2, -, -⟩ := pong_rest s.hm v t
      refine ⟨h.reg, h.listed, h.absent, ?_, h.asks, h.untold, h.replies, h.goodbyes, h.counter⟩
      show u ∉ (Heart.handlePong s.hm v t).responses ∧ u ∉ (Heart.handlePong s.hm v t).hearts ∧ ∀ n ∈ (Heart.handlePong s.hm v t).notes, n ≠ .stopped u
      rw [h1, h2]
      refine ⟨fun hc => ?_, h.quiet.2⟩
      rcases pong_resp _ _ _ _ hc with hc | hc
      · exact h.quiet.1 hc
      · exact hv hc.symm
    · exact h
  | beat dt =>
    refine ⟨h.reg, h.listed, h.absent, ⟨by simp [Life.step, Heart.step, beat_resp], ?_, ?_⟩, h.asks, h.untold, h.replies, h.goodbyes, h.counter⟩
    · intro hc
      rcases (Heart.beat_hearts max s.hm dt u).1 hc with ⟨h1, -⟩ | h1
      · exact h.quiet.2.1 h1
      · exact h.quiet.1 (List.mem_filter.1 h1).1
    · intro n hn
      have hn : n ∈ (Heart.beat max s.hm dt).notes := hn
      rw [Heart.beat_notes] at hn
      simp only [List.mem_append, List.mem_map] at hn
      rcases hn with hn | ⟨y, -, rfl⟩ | ⟨y, hy, rfl⟩
      · exact h.quiet.2.2 n hn
      · simp
      · intro hc
        cases hc
        exact h.quiet.2.1 (List.mem_filter.1 hy).1
  | note =>
    simp only [Life.step]
    cases hn : s.hm.notes[s.handled]? with
    | none => exact h
    | some n =>
      have hmem := List.mem_of_getElem? hn
      cases n with
      | new v =>
        refine ⟨h.reg.step (e := .newHeart v) trivial, ?_, h.absent, h.quiet, h.asks, h.untold, h.replies, h.goodbyes, ?_⟩
        · show (e, u) ∈ (Hub.step s.reg (.newHeart v)).1.engines
          rcases newHeart_eff h.reg v with ⟨i, -, h1, -, -⟩ | ⟨h1, -⟩
          · rw [h1]; simp [h.listed]
          · rw [h1]; exact h.listed
        · show f.nextId ≤ (Hub.step s.reg (.newHeart v)).1.counter
          rw [newHeart_counter]; exact h.counter
      | stopped v =>
        have hv : v ≠ u := by rintro rfl; exact h.quiet.2.2 _ hmem rfl
        refine ⟨h.reg.step (e := .stoppedHeart v) trivial, ?_, h.absent, h.quiet, h.asks, h.untold, h.replies, h.goodbyes, ?_⟩
        · show (e, u) ∈ (Hub.step s.reg (.stoppedHeart v)).1.engines
          rcases stopped_eff h.reg v with ⟨i, -, h1, -, -⟩ | ⟨h1, -⟩
          · exact hgone h1 (Or.inr hv)
          · rw [h1]; exact h.listed
        · show f.nextId ≤ (Hub.step s.reg (.stoppedHeart v)).1.counter
          rw [stopped_counter]; exact h.counter
  | stall v =>
    exact ⟨h.reg.step (e := .stall v) trivial, h.listed, h.absent, h.quiet, h.asks, h.untold, h.replies, h.goodbyes, h.counter⟩

/-- **C80 (violated).** The claim that a dead engine is eventually removed fails for an engine that died while the controller was down: a controller that restores it from its file lists it for ever — for every history of the other engines, however many heartbeats pass — because its heart monitor never learns of a heart that could stop. -/
theorem restored_dead_listed_for_ever_violated (max : Nat) (f : Hub.File) (h1 : (f.engines.map Prod.fst).Nodup) (h2 : (f.engines.map Prod.snd).Nodup) (h3 : ∀ i ∈ f.engines.map Prod.fst, i < f.nextId)
    (u : Uuid) (e : Eid) (h : (e, u) ∈ f.engines) (evs : List Ev) (ha : Spec.AutoIds evs) (hu : ∀ r, Ev.start u r ∉ evs) : Spec.Listed (run max (restored f) evs) u e := by
  have he : e < f.nextId := h3 e (List.mem_map.2 ⟨_, h, rfl⟩)
  have key : ∀ (l : List Ev) (s : Sys), (∀ x ∈ l, x ∈ evs) → Ghost f u e s → Ghost f u e (run max s l) := by
    intro l
    induction l with
    | nil => intro s _ hs; exact hs
    | cons x l ih =>
      intro s hl hs
      refine ih _ (fun y hy => hl y (by simp [hy])) (hs.step he max x ?_)
      intro v r hx
      subst hx
      have := hl _ (List.mem_cons_self ..)
      exact ⟨by rintro rfl; exact hu r this, ha v r this⟩
  exact (key evs (restored f) (fun _ h => h) (ghost_init h1 h2 h3 h)).listed

/-- A file with two engines, the second of which is dead; a third one joins and a hundred beats pass. -/
example : Spec.Listed (run 10 (restored ⟨[(0, 5), (1, 6)], 2⟩) (joins 7 0 ++ List.replicate 100 (.beat 1) ++ [.note])) 6 1 :=
  restored_dead_listed_for_ever_violated 10 ⟨[(0, 5), (1, 6)], 2⟩ (by decide) (by decide) (by decide) 6 1 (by simp) _ (fun u r h => by simp [joins] at h; exact h.2) (fun r h => by simp [joins] at h)

end IPP.Life
