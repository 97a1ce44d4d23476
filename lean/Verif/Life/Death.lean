import Verif.Life.Props
/-!
# C80: silent engines are removed, responsive ones are listed, and nothing else removes an engine
-/
namespace IPP.Life
open Hub (Uuid Eid Reg delKey getKey)

namespace Spec

/-- how many heartbeat periods end during a history -/
def beats : List Ev → Nat
  | [] => 0
  | .beat _ :: r => beats r + 1
  | _ :: r => beats r

/-- the hub has read everything the heart monitor has reported -/
def Caught (s : Sys) : Prop := s.handled = s.hm.notes.length

/-- no engine asks for a particular id -/
def AutoIds (evs : List Ev) : Prop := ∀ u r, Ev.start u r ∈ evs → r = none

/-- the hub has granted the engine an id and waits for its heart -/
def Pending (s : Sys) (u : Uuid) (e : Eid) : Prop := (u, e) ∈ s.reg.incoming

end Spec

/-! ## the heart monitor within the system -/

theorem step_hm (max : Nat) (s : Sys) (x : Ev) : (step max s x).hm = match x with
    | .pong u t => if (s.proc u).heart = true then Heart.handlePong s.hm u t else s.hm
    | .beat dt => Heart.beat max s.hm dt
    | _ => s.hm := by
  cases x with
  | start u r => simp only [step]; split <;> rfl
  | timeout u => simp only [step]; split <;> rfl
  | reply u =>
    simp only [step]
    split
    · split <;> rfl
    · rfl
  | heart u => simp only [step]; split <;> rfl
  | die u => simp only [step]; split <;> rfl
  | giveUp u => simp only [step]; split <;> rfl
  | nanny u => simp only [step]; split <;> rfl
  | hub u =>
    simp only [step]
    split
    · rfl
    · rename_i m r _
      cases m with
      | register q => rfl
      | unregister i => cases i <;> rfl
  | pong u t => simp only [step]; split <;> rfl
  | beat dt => rfl
  | note =>
    simp only [step]
    split
    · rfl
    · rename_i n _
      cases n <;> rfl
  | stall u => rfl

/-- after `k` beats without a pong of `u` -/
def Quiet (max : Nat) (u : Uuid) (hm : Heart.State) : Nat → Prop
  | 0 => True
  | k + 1 => u ∉ hm.responses ∧ (u ∈ hm.hearts → k ≤ hm.onProbation u ∧ k ≤ max)

theorem Quiet.beat {max : Nat} {u : Uuid} {hm : Heart.State} {k : Nat} (h : Quiet max u hm k) (dt : Nat) : Quiet max u (Heart.beat max hm dt) (k + 1) := by
  refine ⟨by simp [beat_resp], fun hu => ?_⟩
  cases k with
  | zero => exact ⟨Nat.zero_le _, Nat.zero_le _⟩
  | succ k =>
    obtain ⟨h1, h2⟩ := h
    rcases (Heart.beat_hearts max hm dt u).1 hu with ⟨h3, h4⟩ | h3
    · have hp := Heart.beat_prob max hm dt u
      have h5 := (h2 h3).1
      have hf : ¬ (hm.onProbation u + 1 > max) := by
        intro hc
        apply h4
        simp only [Heart.failAt, List.mem_filter, decide_eq_true_eq]
        exact ⟨h3, h1, hc⟩
      rw [if_pos ⟨h3, h1, hf⟩] at hp
      rw [hp]
      omega
    · exact absurd (List.mem_filter.1 h3).1 h1

theorem Quiet.other {max : Nat} {u : Uuid} {hm : Heart.State} {k : Nat} (h : Quiet max u hm k) {v : Uuid} (hv : v ≠ u) (t : Nat) : Quiet max u (Heart.handlePong hm v t) k := by
  cases k with
  | zero => trivial
  | succ k =>
    obtain ⟨h1, h2, h3, -⟩ := pong_rest hm v t
    refine ⟨fun hu => ?_, by rw [h2, h3]; exact h.2⟩
    rcases pong_resp _ _ _ _ hu with h4 | h4
    · exact h.1 h4
    · exact hv h4.symm

theorem Quiet.run {max : Nat} {u : Uuid} (more : List Ev) (hno : ∀ t, Ev.pong u t ∉ more) (s : Sys) (k : Nat) (h : Quiet max u s.hm k) :
    Quiet max u (run max s more).hm (k + Spec.beats more) := by
  induction more generalizing s k with
  | nil => exact h
  | cons x r ih =>
    have hr : ∀ t, Ev.pong u t ∉ r := fun t ht => hno t (by simp [ht])
    have hx := step_hm max s x
    cases x with
    | beat dt =>
      have := ih hr (step max s (.beat dt)) (k + 1) (by rw [hx]; exact h.beat dt)
      simp only [Spec.beats]
      rw [show k + (Spec.beats r + 1) = k + 1 + Spec.beats r by omega]
      exact this
    | pong v t =>
      refine ih hr (step max s (.pong v t)) k ?_
      rw [hx]
      simp only
      split
      · exact h.other (fun hv => hno t (by simp [hv])) t
      · exact h
    | _ => exact ih hr _ k (by rw [hx]; exact h)

/-- **C80 (a dead engine is removed).** An engine from which no pong arrives during `max_heartmonitor_misses + 2` beats — because it is dead, or hangs, or lost its network — is not listed any more once the hub has read what the heart monitor reported; whatever else happens meanwhile, and whether or not the engine was listed. -/
theorem silent_removed (max : Nat) (evs more : List Ev) (u : Uuid) (hno : ∀ t, Ev.pong u t ∉ more) (hb : max + 2 ≤ Spec.beats more)
    (hc : Spec.Caught (run max init (evs ++ more))) (e : Eid) : ¬ Spec.Listed (run max init (evs ++ more)) u e := by
  intro hl
  rw [run_append] at hl hc
  have hi := (Inv.init.run max evs).run max more
  have hq := Quiet.run (max := max) (u := u) more hno (run max init evs) 0 trivial
  rw [Nat.zero_add] at hq
  rcases hi.monitored u e hl with h1 | h1
  · cases hk : Spec.beats more with
    | zero => omega
    | succ k =>
      rw [hk] at hq
      have := (hq.2 h1).2
      omega
  · unfold Spec.Caught at hc
    rw [hc, List.drop_length] at h1
    cases h1

/-! ## messages of engines -/

/-- an engine says goodbye only when it is gone, and with its own id -/
theorem goodbye (max : Nat) (evs : List Ev) (u : Uuid) (i : Option Eid) (h : .unregister i ∈ (run max init evs).toHub u) :
    ((run max init evs).proc u).phase = .gone ∧ ((run max init evs).proc u).id = i := by
  have key : ∀ (evs : List Ev) (s : Sys), (∀ u i, Msg.unregister i ∈ s.toHub u → (s.proc u).phase = .gone ∧ (s.proc u).id = i) →
      ∀ u i, Msg.unregister i ∈ (run max s evs).toHub u → ((run max s evs).proc u).phase = .gone ∧ ((run max s evs).proc u).id = i := by
    intro evs
    induction evs with
    | nil => intro s h; exact h
    | cons x r ih =>
      intro s h
      refine ih (step max s x) ?_
      have hproc : ∀ (v : Uuid) (p : Proc) (q : List Msg), (∀ i, Msg.unregister i ∈ q → p.phase = .gone ∧ p.id = i) →
          ∀ u i, Msg.unregister i ∈ upd s.toHub v q u → (upd s.proc v p u).phase = .gone ∧ (upd s.proc v p u).id = i := by
        intro v p q hq u i hu
        by_cases hv : u = v
        · subst hv; simp at hu ⊢; exact hq i hu
        · rw [upd_other _ _ hv] at hu ⊢; exact h u i hu
      have hp : ∀ (v : Uuid) (p : Proc), (∀ i, Msg.unregister i ∈ s.toHub v → p.phase = .gone ∧ p.id = i) →
          ∀ u i, Msg.unregister i ∈ s.toHub u → (upd s.proc v p u).phase = .gone ∧ (upd s.proc v p u).id = i := by
        intro v p hq
        have := hproc v p (s.toHub v) hq
        rw [upd_id] at this
        exact this
      cases x with
      | start u r =>
        simp only [step]
        split
        · exact hproc u _ _ (by simp)
        · exact h
      | timeout u =>
        simp only [step]
        split
        · rename_i ha
          refine hproc u _ _ (fun i hi => ?_)
          simp at hi
          rcases hi with hi | hi
          · have := (h u i hi).1; rw [ha] at this; cases this
          · exact ⟨rfl, hi.symm⟩
        · exact h
      | reply u =>
        simp only [step]
        split
        · rename_i ha
          have hno : ∀ i, Msg.unregister i ∉ s.toHub u := by
            intro i hi
            have := (h u i hi).1; rw [ha] at this; cases this
          split
          · exact h
          · exact hp u _ (fun i hi => absurd hi (hno i))
          · exact hp u _ (fun i hi => absurd hi (hno i))
        · exact h
      | heart u =>
        simp only [step]
        split
        · rename_i ha
          refine hp u _ (fun i hi => ?_)
          have := (h u i hi).1; rw [ha] at this; cases this
        · exact h
      | die u =>
        simp only [step]
        split
        · exact h
        · exact hp u _ (fun i hi => ⟨rfl, (h u i hi).2⟩)
      | giveUp u =>
        simp only [step]
        split
        · rename_i ha
          refine hproc u _ _ (fun i hi => ?_)
          simp at hi
          rcases hi with hi | hi
          · have := (h u i hi).1; rw [ha] at this; cases this
          · exact ⟨rfl, hi.symm⟩
        · exact h
      | nanny u =>
        simp only [step]
        split
        · rename_i ha
          have := hproc u (s.proc u) (s.toHub u ++ [.unregister (s.proc u).id]) (fun i hi => by
            simp at hi
            rcases hi with hi | hi
            · exact h u i hi
            · exact ⟨ha.1, hi.symm⟩)
          rw [upd_id] at this
          exact this
        · exact h
      | hub u =>
        simp only [step]
        split
        · exact h
        · rename_i m rest hq
          have := hproc u (s.proc u) rest (fun i hi => h u i (by rw [hq]; simp [hi]))
          rw [upd_id] at this
          cases m with
          | register q => exact this
          | unregister i => cases i <;> exact this
      | pong u t => simp only [step]; split <;> exact h
      | beat dt => exact h
      | note =>
        simp only [step]
        split
        · exact h
        · rename_i n _
          cases n <;> exact h
      | stall u => exact h
  exact key evs init (by simp [init]) u i h

/-- **C80 (an engine that says goodbye is removed).** When the hub handles the unregistration sent by an engine that lost the controller's heartbeat, or by the nanny of an engine that died, that engine is not listed any more. -/
theorem goodbye_removes (max : Nat) (evs : List Ev) (u : Uuid) (i : Option Eid) (rest : List Msg) (h : (run max init evs).toHub u = .unregister i :: rest) (e : Eid) :
    ¬ Spec.Listed (run max init (evs ++ [.hub u])) u e := by
  have hi := Inv.init.run max evs
  have hg := goodbye max evs u i (by rw [h]; simp)
  rw [run_append]
  intro hl
  have hl : (e, u) ∈ (step max (run max init evs) (.hub u)).reg.engines := hl
  simp only [step, h] at hl
  -- a listed engine has the id it says
  have hold : ∀ e', (e', u) ∈ (run max init evs).reg.engines → i = some e' := by
    intro e' he'
    have := (listed_agrees max evs u e' he').2
    rw [← hg.2, this]
  cases i with
  | none => exact absurd (hold e hl) (by simp)
  | some i =>
    have hl : (e, u) ∈ (Hub.unregister (run max init evs).reg i).1.engines := hl
    rcases unregister_eff hi.reg i with ⟨v, hv, h1, -, -⟩ | ⟨hno, h1, -, -⟩
    · rw [h1] at hl
      have hl' := List.mem_filter.1 hl
      have := hold e hl'.1
      simp at this
      subst this
      have hvu : v = u := by
        have hn := (List.nodup_append.1 hi.reg.ids).1
        have g1 := Hub.getKey_of_mem hn hv
        have g2 := Hub.getKey_of_mem hn hl'.1
        rw [g1] at g2; exact Option.some.inj g2
      subst hvu
      simp at hl'
    · rw [h1] at hl
      have := hold e hl
      simp at this
      subst this
      exact hno u hl

/-! ## nothing else removes an engine -/

/-- engines that ask for no id: no two are granted the same one -/
structure Auto (s : Sys) : Prop where
  inv : Inv s
  untold : ∀ u, (s.proc u).told = false → (s.proc u).id = none
  asks : ∀ u r, Msg.register r ∈ s.toHub u → r = none
  below : ∀ u e, s.reply u = some (some e) → e < s.reg.counter
  inj : ∀ u v e, s.reply u = some (some e) → s.reply v = some (some e) → u = v

theorem unregister_counter (r : Reg) (i : Eid) : (Hub.unregister r i).1.counter = r.counter := by
  unfold Hub.unregister
  split
  · split <;> rfl
  · rfl

theorem newHeart_counter (r : Reg) (u : Uuid) : (Hub.step r (.newHeart u)).1.counter = r.counter := by
  unfold Hub.step
  simp only
  split
  · unfold Hub.finish
    split <;> rfl
  · rfl

theorem stopped_counter (r : Reg) (u : Uuid) : (Hub.step r (.stoppedHeart u)).1.counter = r.counter := by
  unfold Hub.step
  simp only
  split
  · rfl
  · exact unregister_counter _ _

theorem Auto.init : Auto init where
  inv := Inv.init
  untold := by intro u _; rfl
  asks := by intro u r h; cases h
  below := by intro u e h; cases h
  inj := by intro u v e h; cases h

theorem Auto.step {s : Sys} (h : Auto s) (max : Nat) (x : Ev) (hx : ∀ u r, x = .start u r → r = none) : Auto (step max s x) := by
  have hinv := h.inv.step max x
  have hproc : ∀ (v : Uuid) (p : Proc) (q : List Msg), (p.told = false → p.id = none) → (∀ r, Msg.register r ∈ q → r = none) →
      Inv { s with proc := upd s.proc v p, toHub := upd s.toHub v q } → Auto { s with proc := upd s.proc v p, toHub := upd s.toHub v q } := by
    intro v p q hp hq hi
    refine ⟨hi, fun u => ?_, fun u r => ?_, h.below, h.inj⟩
    · by_cases hv : u = v
      · subst hv; simpa using hp
      · simp only [upd_other _ _ hv]; exact h.untold u
    · by_cases hv : u = v
      · subst hv; simpa using hq r
      · simp only [upd_other _ _ hv]; exact h.asks u r
  have hkeep : ∀ s' : Sys, Inv s' → s'.proc = s.proc → (∀ u r, Msg.register r ∈ s'.toHub u → Msg.register r ∈ s.toHub u) → s'.reply = s.reply → s'.reg.counter = s.reg.counter → Auto s' := by
    intro s' hi h1 h2 h3 h4
    exact ⟨hi, by rw [h1]; exact h.untold, fun u r hr => h.asks u r (h2 u r hr), by rw [h3, h4]; exact h.below, by rw [h3]; exact h.inj⟩
  cases x with
  | start v r =>
    simp only [Life.step] at hinv ⊢
    split
    · rename_i ha
      rw [if_pos ha] at hinv
      have hr := hx v r rfl
      subst hr
      exact hproc v _ _ (fun _ => rfl) (by simp) hinv
    · exact h
  | timeout v =>
    simp only [Life.step] at hinv ⊢
    split
    · rename_i ha
      rw [if_pos ha] at hinv
      exact hproc v _ _ (h.untold v) (fun r hr => h.asks v r (by simpa using hr)) hinv
    · exact h
  | reply v =>
    simp only [Life.step] at hinv ⊢
    split
    · rename_i ha
      rw [if_pos ha] at hinv
      cases hr : s.reply v with
      | none => exact h
      | some g =>
        cases g with
        | none =>
          rw [hr] at hinv
          have := hproc v { s.proc v with phase := .gone } (s.toHub v) (h.untold v) (h.asks v) (by rw [upd_id]; exact hinv)
          rw [upd_id] at this; exact this
        | some e =>
          rw [hr] at hinv
          have := hproc v { s.proc v with phase := .starting, id := some e, told := true } (s.toHub v) (by simp) (h.asks v) (by rw [upd_id]; exact hinv)
          rw [upd_id] at this; exact this
    · exact h
  | heart v =>
    simp only [Life.step] at hinv ⊢
    split
    · rename_i ha
      rw [if_pos ha] at hinv
      have := hproc v { s.proc v with phase := .running, heart := true } (s.toHub v) (h.untold v) (h.asks v) (by rw [upd_id]; exact hinv)
      rw [upd_id] at this; exact this
    · exact h
  | die v =>
    simp only [Life.step] at hinv ⊢
    split
    · exact h
    · rename_i ha
      rw [if_neg ha] at hinv
      have := hproc v { s.proc v with phase := .gone } (s.toHub v) (h.untold v) (h.asks v) (by rw [upd_id]; exact hinv)
      rw [upd_id] at this; exact this
  | giveUp v =>
    simp only [Life.step] at hinv ⊢
    split
    · rename_i ha
      rw [if_pos ha] at hinv
      exact hproc v _ _ (h.untold v) (fun r hr => h.asks v r (by simpa using hr)) hinv
    · exact h
  | nanny v =>
    simp only [Life.step] at hinv ⊢
    split
    · rename_i ha
      rw [if_pos ha] at hinv
      have := hproc v (s.proc v) (s.toHub v ++ [.unregister (s.proc v).id]) (h.untold v) (fun r hr => h.asks v r (by simpa using hr)) (by rw [upd_id]; exact hinv)
      rw [upd_id] at this; exact this
    · exact h
  | hub v =>
    simp only [Life.step] at hinv ⊢
    cases hq : s.toHub v with
    | nil => exact h
    | cons m rest =>
      rw [hq] at hinv
      have hsub : ∀ u r, Msg.register r ∈ upd s.toHub v rest u → Msg.register r ∈ s.toHub u := by
        intro u r hr
        by_cases hv : u = v
        · subst hv; simp at hr; rw [hq]; simp [hr]
        · rw [upd_other _ _ hv] at hr; exact hr
      cases m with
      | unregister i =>
        cases i with
        | none => exact hkeep _ hinv rfl hsub rfl rfl
        | some i => exact hkeep _ hinv rfl hsub rfl (unregister_counter _ _)
      | register q =>
        have hqn := h.asks v q (by rw [hq]; simp)
        subst hqn
        have hnone := (h.inv.lp v).head none (by rw [hq]; simp)
        have hcnt : (Hub.register s.reg v none).1.counter = s.reg.counter + 1 := by
          unfold Hub.register
          simp only [Hub.newEngineId]
          split
          · rfl
          · split <;> rfl
        have hsent : (Hub.register s.reg v none).2 = [.refused v] ∨ (Hub.register s.reg v none).2 = [.granted v s.reg.counter true] := by
          unfold Hub.register
          simp only [Hub.newEngineId]
          split
          · exact Or.inl rfl
          · split
            · exact Or.inl rfl
            · exact Or.inr rfl
        have hval : ∀ u e, upd s.reply v (some (match (Hub.register s.reg v none).2 with | [.granted _ id _] => some id | _ => none)) u = some (some e) →
            (u = v ∧ e = s.reg.counter) ∨ (u ≠ v ∧ s.reply u = some (some e)) := by
          intro u e hu
          by_cases hv : u = v
          · subst hv
            rw [upd_same] at hu
            rcases hsent with h1 | h1
            · simp [h1] at hu
            · simp [h1] at hu; exact Or.inl ⟨rfl, hu.symm⟩
          · rw [upd_other _ _ hv] at hu; exact Or.inr ⟨hv, hu⟩
        refine ⟨hinv, h.untold, fun u r hr => h.asks u r (hsub u r hr), ?_, ?_⟩
        · intro u e hu
          show e < (Hub.register s.reg v none).1.counter
          rw [hcnt]
          rcases hval u e hu with ⟨-, rfl⟩ | ⟨-, h1⟩
          · exact Nat.lt_succ_self _
          · exact Nat.lt_succ_of_lt (h.below u e h1)
        · intro u w e hu hw
          rcases hval u e hu with ⟨rfl, rfl⟩ | ⟨-, h1⟩ <;> rcases hval w _ hw with ⟨rfl, h3⟩ | ⟨-, h3⟩
          · rfl
          · exact absurd (h.below w _ h3) (Nat.lt_irrefl _)
          · subst h3; exact absurd (h.below u _ h1) (Nat.lt_irrefl _)
          · exact h.inj u w e h1 h3
  | pong v t =>
    simp only [Life.step] at hinv ⊢
    split
    · rename_i ha
      rw [if_pos ha] at hinv
      exact hkeep _ hinv rfl (fun _ _ h => h) rfl rfl
    · exact h
  | beat dt => exact hkeep _ hinv rfl (fun _ _ h => h) rfl rfl
  | note =>
    simp only [Life.step] at hinv ⊢
    cases hn : s.hm.notes[s.handled]? with
    | none => exact h
    | some n =>
      rw [hn] at hinv
      cases n with
      | new v => exact hkeep _ hinv rfl (fun _ _ h => h) rfl (newHeart_counter _ _)
      | stopped v => exact hkeep _ hinv rfl (fun _ _ h => h) rfl (stopped_counter _ _)
  | stall v => exact hkeep _ hinv rfl (fun _ _ h => h) rfl rfl

theorem Auto.run {max : Nat} (evs : List Ev) (ha : Spec.AutoIds evs) {s : Sys} (h : Auto s) : Auto (run max s evs) := by
  induction evs generalizing s with
  | nil => exact h
  | cons x r ih =>
    exact ih (fun u q hq => ha u q (by simp [hq])) (h.step max x (fun u q hq => ha u q (by simp [hq])))

/-- an unregistration about `e` comes from the engine that was granted `e` -/
theorem Auto.sender {max : Nat} {evs : List Ev} (ha : Spec.AutoIds evs) {v : Uuid} {e : Eid} (hv : .unregister (some e) ∈ (Life.run max Life.init evs).toHub v) {u : Uuid}
    (hu : (Life.run max Life.init evs).reply u = some (some e)) : u = v ∧ ((Life.run max Life.init evs).proc u).phase = .gone := by
  have h := Auto.run (max := max) evs ha Auto.init
  have hg := goodbye max evs v _ hv
  have ht : ((Life.run max Life.init evs).proc v).told = true := by
    cases hc : ((Life.run max Life.init evs).proc v).told with
    | true => rfl
    | false => rw [h.untold v hc] at hg; exact absurd hg.2 (by simp)
  obtain ⟨e', h1, h2⟩ := (h.inv.lp v).told ht
  rw [hg.2] at h2
  cases h2
  have := h.inj u v _ hu h1
  exact ⟨this, this ▸ hg.1⟩

/-- **C80 (only its own death removes an engine).** If no engine asks for a particular id, then a listed engine leaves the list only when the hub reads the heart monitor's report that this engine's heart stopped, or when it handles a goodbye sent by that engine (or its nanny), whose process is gone. -/
theorem removed_only_by_own_death (max : Nat) (evs : List Ev) (x : Ev) (u : Uuid) (e : Eid) (ha : Spec.AutoIds evs) (h : Spec.Listed (run max init evs) u e)
    (hnot : ¬ Spec.Listed (run max init (evs ++ [x])) u e) :
    (x = .note ∧ (run max init evs).hm.notes[(run max init evs).handled]? = some (.stopped u)) ∨
    (x = .hub u ∧ (∃ rest, (run max init evs).toHub u = .unregister (some e) :: rest) ∧ ((run max init evs).proc u).phase = .gone) := by
  have hi := Inv.init.run max evs
  have hrep := hi.known u e (Or.inr h)
  rw [run_append] at hnot
  have hnot : (e, u) ∉ (step max (run max init evs) x).reg.engines := hnot
  have h : (e, u) ∈ (run max init evs).reg.engines := h
  have hids : ∀ v, (e, v) ∈ (run max init evs).reg.engines → v = u := by
    intro v hv
    have hn := (List.nodup_append.1 hi.reg.ids).1
    have g1 := Hub.getKey_of_mem hn hv
    have g2 := Hub.getKey_of_mem hn h
    rw [g1] at g2; exact Option.some.inj g2
  have same : ∀ {s' : Sys}, s'.reg = (run max init evs).reg → (e, u) ∉ s'.reg.engines → False := by
    intro s' hs hc; rw [hs] at hc; exact hc h
  generalize hS : run max init evs = S at *
  cases x with
  | start v r => simp only [step] at hnot; exact (same (by split <;> rfl) hnot).elim
  | timeout v => simp only [step] at hnot; exact (same (by split <;> rfl) hnot).elim
  | reply v =>
    simp only [step] at hnot
    refine (same ?_ hnot).elim
    split
    · split <;> rfl
    · rfl
  | heart v => simp only [step] at hnot; exact (same (by split <;> rfl) hnot).elim
  | die v => simp only [step] at hnot; exact (same (by split <;> rfl) hnot).elim
  | giveUp v => simp only [step] at hnot; exact (same (by split <;> rfl) hnot).elim
  | nanny v => simp only [step] at hnot; exact (same (by split <;> rfl) hnot).elim
  | hub v =>
    simp only [step] at hnot
    cases hq : S.toHub v with
    | nil => rw [hq] at hnot; exact (hnot h).elim
    | cons m rest =>
      rw [hq] at hnot
      cases m with
      | register q =>
        have hnot : (e, u) ∉ (Hub.register S.reg v q).1.engines := hnot
        rw [(register_eff hi.reg v q).1] at hnot
        exact (hnot h).elim
      | unregister i =>
        cases i with
        | none => exact (hnot h).elim
        | some i =>
          have hnot : (e, u) ∉ (Hub.unregister S.reg i).1.engines := hnot
          rcases unregister_eff hi.reg i with ⟨w, hw, h1, -, -⟩ | ⟨-, h1, -, -⟩
          · rw [h1] at hnot
            have hc : e = i ∧ u = w := by
              apply Classical.byContradiction
              intro hc
              apply hnot
              refine List.mem_filter.2 ⟨h, ?_⟩
              simp only [ne_eq, Prod.mk.injEq, decide_not, Bool.not_eq_true', decide_eq_false_iff_not]
              exact hc
            obtain ⟨rfl, rfl⟩ := hc
            right
            have hs := Auto.sender (max := max) ha (v := v) (e := e) (u := u) (by rw [hS, hq]; simp) (by rw [hS]; exact hrep)
            rw [hS] at hs
            obtain ⟨rfl, hg⟩ := hs
            exact ⟨rfl, ⟨rest, hq⟩, hg⟩
          · rw [h1] at hnot; exact (hnot h).elim
  | pong v t => simp only [step] at hnot; exact (same (by split <;> rfl) hnot).elim
  | beat dt => exact (hnot h).elim
  | note =>
    simp only [step] at hnot
    cases hn : S.hm.notes[S.handled]? with
    | none => rw [hn] at hnot; exact (hnot h).elim
    | some n =>
      rw [hn] at hnot
      cases n with
      | new v =>
        have hnot : (e, u) ∉ (Hub.step S.reg (.newHeart v)).1.engines := hnot
        rcases newHeart_eff hi.reg v with ⟨i, -, h1, -, -⟩ | ⟨h1, -⟩
        · rw [h1] at hnot; exact (hnot (by simp [h])).elim
        · rw [h1] at hnot; exact (hnot h).elim
      | stopped v =>
        have hnot : (e, u) ∉ (Hub.step S.reg (.stoppedHeart v)).1.engines := hnot
        rcases stopped_eff hi.reg v with ⟨i, hm, h1, -, -⟩ | ⟨h1, -⟩
        · rw [h1] at hnot
          have hc : e = i ∧ u = v := by
            apply Classical.byContradiction
            intro hc
            apply hnot
            refine List.mem_filter.2 ⟨h, ?_⟩
            simp only [ne_eq, Prod.mk.injEq, decide_not, Bool.not_eq_true', decide_eq_false_iff_not]
            exact hc
          exact Or.inl ⟨rfl, by rw [hc.2]⟩
        · rw [h1] at hnot; exact (hnot h).elim
  | stall v => exact (hnot h).elim

end IPP.Life
