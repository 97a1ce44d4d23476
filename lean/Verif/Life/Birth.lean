import Verif.Life.Death
/-!
# C80: a responsive engine is listed
-/
namespace IPP.Life
open Hub (Uuid Eid Reg delKey getKey)

/-- an engine whose first heartbeat report has been read is not pending any more -/
structure Fresh (s : Sys) : Prop where
  inv : Inv s
  unread : ∀ u e, (u, e) ∈ s.reg.incoming → Heart.Note.new u ∉ s.hm.notes.take s.handled
  known : ∀ u, u ∈ s.hm.hearts → Heart.Note.new u ∈ s.hm.notes

theorem Fresh.init : Fresh init where
  inv := Inv.init
  unread := by intro u e h; cases h
  known := by intro u h; cases h

theorem Fresh.step {s : Sys} (h : Fresh s) (max : Nat) (x : Ev) : Fresh (step max s x) := by
  have hinv := h.inv.step max x
  have keep : ∀ s' : Sys, Inv s' → s'.hm = s.hm → s'.handled = s.handled → (∀ u e, (u, e) ∈ s'.reg.incoming → (u, e) ∈ s.reg.incoming) → Fresh s' := by
    intro s' hi h1 h2 h3
    exact ⟨hi, fun u e hu => by rw [h1, h2]; exact h.unread u e (h3 u e hu), by rw [h1]; exact h.known⟩
  have keep' : ∀ s' : Sys, Inv s' → s'.hm = s.hm → s'.handled = s.handled → s'.reg = s.reg → Fresh s' := by
    intro s' hi h1 h2 h3
    exact keep s' hi h1 h2 (by rw [h3]; exact fun _ _ h => h)
  cases x with
  | start v r => exact keep' _ hinv (by simp only [Life.step]; split <;> rfl) (by simp only [Life.step]; split <;> rfl) (by simp only [Life.step]; split <;> rfl)
  | timeout v => exact keep' _ hinv (by simp only [Life.step]; split <;> rfl) (by simp only [Life.step]; split <;> rfl) (by simp only [Life.step]; split <;> rfl)
  | heart v => exact keep' _ hinv (by simp only [Life.step]; split <;> rfl) (by simp only [Life.step]; split <;> rfl) (by simp only [Life.step]; split <;> rfl)
  | die v => exact keep' _ hinv (by simp only [Life.step]; split <;> rfl) (by simp only [Life.step]; split <;> rfl) (by simp only [Life.step]; split <;> rfl)
  | giveUp v => exact keep' _ hinv (by simp only [Life.step]; split <;> rfl) (by simp only [Life.step]; split <;> rfl) (by simp only [Life.step]; split <;> rfl)
  | nanny v => exact keep' _ hinv (by simp only [Life.step]; split <;> rfl) (by simp only [Life.step]; split <;> rfl) (by simp only [Life.step]; split <;> rfl)
  | reply v =>
    simp only [Life.step] at hinv ⊢
    split
    · rename_i ha
      rw [if_pos ha] at hinv
      cases hr : s.reply v with
      | none => exact h
      | some g => cases g with
        | none => rw [hr] at hinv; exact keep' _ hinv rfl rfl rfl
        | some e => rw [hr] at hinv; exact keep' _ hinv rfl rfl rfl
    · exact h
  | hub v =>
    simp only [Life.step] at hinv ⊢
    cases hq : s.toHub v with
    | nil => exact h
    | cons m rest =>
      rw [hq] at hinv
      cases m with
      | unregister i =>
        cases i with
        | none => exact keep' _ hinv rfl rfl rfl
        | some i =>
          refine keep _ hinv rfl rfl ?_
          intro u e hu
          have hu : (u, e) ∈ (Hub.unregister s.reg i).1.incoming := hu
          rcases unregister_eff h.inv.reg i with ⟨w, -, -, h2, -⟩ | ⟨-, -, h2, -⟩
          · rw [h2] at hu; exact hu
          · exact ((h2 _).1 hu).1
      | register q =>
        refine ⟨hinv, ?_, h.known⟩
        intro u e hu
        have hu : (u, e) ∈ (Hub.register s.reg v q).1.incoming := hu
        show Heart.Note.new u ∉ s.hm.notes.take s.handled
        obtain ⟨-, ⟨id, a, -, h3, -⟩ | ⟨-, h3⟩⟩ := register_eff h.inv.reg v q
        · rw [h3] at hu
          simp only [List.mem_append, List.mem_singleton, Prod.mk.injEq] at hu
          rcases hu with hu | ⟨rfl, rfl⟩
          · exact h.unread u e hu
          · intro hn
            have hheart := h.inv.resp u (Or.inr (Or.inr (List.mem_of_mem_take hn)))
            have hl := h.inv.lp u
            obtain ⟨e', h4, -⟩ := hl.told (hl.heart hheart)
            have := hl.head q (by rw [hq]; simp)
            rw [this] at h4; cases h4
        · rw [h3] at hu; exact h.unread u e hu
  | pong v t =>
    simp only [Life.step] at hinv ⊢
    split
    · rename_i ha
      rw [if_pos ha] at hinv
      obtain ⟨h1, h2, -, -⟩ := pong_rest s.hm v t
      refine ⟨hinv, ?_, ?_⟩
      · show ∀ u e, (u, e) ∈ s.reg.incoming → Heart.Note.new u ∉ (Heart.handlePong s.hm v t).notes.take s.handled
        rw [h1]; exact h.unread
      · show ∀ u, u ∈ (Heart.handlePong s.hm v t).hearts → Heart.Note.new u ∈ (Heart.handlePong s.hm v t).notes
        rw [h1, h2]; exact h.known
    · exact h
  | beat dt =>
    have hnotes := Heart.beat_notes max s.hm dt
    refine ⟨hinv, ?_, ?_⟩
    · show ∀ u e, (u, e) ∈ s.reg.incoming → Heart.Note.new u ∉ (Heart.beat max s.hm dt).notes.take s.handled
      rw [hnotes, List.take_append_of_le_length h.inv.bound]
      exact h.unread
    · show ∀ u, u ∈ (Heart.beat max s.hm dt).hearts → Heart.Note.new u ∈ (Heart.beat max s.hm dt).notes
      rw [hnotes]
      intro u hu
      rcases (Heart.beat_hearts max s.hm dt u).1 hu with ⟨h1, -⟩ | h1
      · simp [h.known u h1]
      · simp [h1]
  | note =>
    simp only [Life.step] at hinv ⊢
    cases hn : s.hm.notes[s.handled]? with
    | none => exact h
    | some n =>
      rw [hn] at hinv
      have htake : s.hm.notes.take (s.handled + 1) = s.hm.notes.take s.handled ++ [n] := by
        rw [List.take_add_one, hn]; rfl
      cases n with
      | new v =>
        refine ⟨hinv, ?_, h.known⟩
        intro u e hu
        show Heart.Note.new u ∉ s.hm.notes.take (s.handled + 1)
        rw [htake]
        have hu : (u, e) ∈ (Hub.step s.reg (.newHeart v)).1.incoming := hu
        have hold : (u, e) ∈ s.reg.incoming ∧ u ≠ v := by
          rcases newHeart_eff h.inv.reg v with ⟨i, -, -, h2, -⟩ | ⟨h1, h2⟩
          · rw [h2] at hu; exact Hub.mem_delKey.1 hu
          · rw [h1] at hu
            exact ⟨hu, fun hc => h2 e (hc ▸ hu)⟩
        simp [h.unread u e hold.1, hold.2]
      | stopped v =>
        refine ⟨hinv, ?_, h.known⟩
        intro u e hu
        show Heart.Note.new u ∉ s.hm.notes.take (s.handled + 1)
        rw [htake]
        have hu : (u, e) ∈ (Hub.step s.reg (.stoppedHeart v)).1.incoming := hu
        have hold : (u, e) ∈ s.reg.incoming := by
          rcases stopped_eff h.inv.reg v with ⟨i, -, -, h2, -⟩ | ⟨h1, h2⟩
          · rw [h2] at hu; exact hu
          · rw [h1] at hu; exact hu
        simp [h.unread u e hold]
  | stall v =>
    refine keep _ hinv rfl rfl ?_
    intro u e hu
    exact (Hub.mem_delKey.1 hu).1

theorem Fresh.run {s : Sys} (h : Fresh s) (max : Nat) (evs : List Ev) : Fresh (run max s evs) := by
  induction evs generalizing s with
  | nil => exact h
  | cons e r ih => exact ih (h.step max e)

/-- a process that is gone stays gone -/
theorem step_gone (max : Nat) (s : Sys) (x : Ev) (u : Uuid) (h : (s.proc u).phase = .gone) : ((step max s x).proc u).phase = .gone := by
  have hp : ∀ (v : Uuid) (p : Proc), (v = u → p.phase = .gone) → (upd s.proc v p u).phase = .gone := by
    intro v p hv
    by_cases hc : u = v
    · subst hc; simpa using hv rfl
    · rw [upd_other _ _ hc]; exact h
  cases x with
  | start v r =>
    simp only [step]; split
    · rename_i ha; exact hp v _ (by rintro rfl; rw [h] at ha; cases ha)
    · exact h
  | timeout v =>
    simp only [step]; split
    · exact hp v _ (fun _ => rfl)
    · exact h
  | reply v =>
    simp only [step]; split
    · rename_i ha
      split
      · exact h
      · exact hp v _ (fun _ => rfl)
      · exact hp v _ (by rintro rfl; rw [h] at ha; cases ha)
    · exact h
  | heart v =>
    simp only [step]; split
    · rename_i ha; exact hp v _ (by rintro rfl; rw [h] at ha; cases ha)
    · exact h
  | die v =>
    simp only [step]; split
    · exact h
    · exact hp v _ (fun _ => rfl)
  | giveUp v =>
    simp only [step]; split
    · exact hp v _ (fun _ => rfl)
    · exact h
  | nanny v => simp only [step]; split <;> exact h
  | hub v =>
    simp only [step]; split
    · exact h
    · rename_i m rest _
      cases m with
      | register q => exact h
      | unregister i => cases i <;> exact h
  | pong v t => simp only [step]; split <;> exact h
  | beat dt => exact h
  | note =>
    simp only [step]; split
    · exact h
    · rename_i n _
      cases n <;> exact h
  | stall v => exact h

theorem run_gone (max : Nat) (s : Sys) (evs : List Ev) (u : Uuid) (h : (s.proc u).phase = .gone) : ((run max s evs).proc u).phase = .gone := by
  induction evs generalizing s with
  | nil => exact h
  | cons x r ih => exact ih _ (step_gone max s x u h)

/-- on its way into the list -/
def Coming (s : Sys) (u : Uuid) (e : Eid) (beaten : Bool) : Prop :=
  .registered u e ∈ s.notes ∨ (u, e) ∈ s.reg.incoming ∧ ((beaten = false ∧ u ∈ s.hm.responses) ∨ Heart.Note.new u ∈ s.hm.notes.drop s.handled)

def isBeat : Ev → Bool
  | .beat _ => true
  | _ => false

theorem coming_step (max : Nat) (evs : List Ev) (u : Uuid) (e : Eid) (ha : Spec.AutoIds evs) (b : Bool) (h : Coming (run max init evs) u e b) (x : Ev) (hst : x ≠ .stall u)
    (hg : ((run max init (evs ++ [x])).proc u).phase ≠ .gone) : Coming (run max init (evs ++ [x])) u e (b || isBeat x) := by
  have hf := Fresh.init.run max evs
  have hi := hf.inv
  rw [run_append] at hg ⊢
  have hgo : ((run max init evs).proc u).phase ≠ .gone := fun hc => hg (run_gone max _ [x] u hc)
  have hgood : ∀ v rest, (run max init evs).toHub v = .unregister (some e) :: rest → (run max init evs).reply u = some (some e) → False := by
    intro v rest hv hu
    exact hgo (Auto.sender (max := max) ha (v := v) (e := e) (u := u) (by rw [hv]; simp) hu).2
  show Coming (step max (run max init evs) x) u e (b || isBeat x)
  generalize run max init evs = s at *
  rcases h with h | ⟨h1, h2⟩
  · obtain ⟨t, ht⟩ := step_notes_prefix max s x
    exact Or.inl (by rw [ht]; simp [h])
  have keep : ∀ s' : Sys, s'.reg = s.reg → s'.hm = s.hm → s'.handled = s.handled → Coming s' u e b := by
    intro s' e1 e2 e3
    exact Or.inr ⟨by rw [e1]; exact h1, by rw [e2, e3]; exact h2⟩
  cases x with
  | start v r => simp only [isBeat, Bool.or_false, step]; split <;> exact keep _ rfl rfl rfl
  | timeout v => simp only [isBeat, Bool.or_false, step]; split <;> exact keep _ rfl rfl rfl
  | reply v =>
    simp only [isBeat, Bool.or_false, step]; split
    · split <;> exact keep _ rfl rfl rfl
    · exact keep _ rfl rfl rfl
  | heart v => simp only [isBeat, Bool.or_false, step]; split <;> exact keep _ rfl rfl rfl
  | die v => simp only [isBeat, Bool.or_false, step]; split <;> exact keep _ rfl rfl rfl
  | giveUp v => simp only [isBeat, Bool.or_false, step]; split <;> exact keep _ rfl rfl rfl
  | nanny v => simp only [isBeat, Bool.or_false, step]; split <;> exact keep _ rfl rfl rfl
  | hub v =>
    simp only [isBeat, Bool.or_false, step]
    split
    · exact keep _ rfl rfl rfl
    · rename_i m rest hq
      cases m with
      | register q =>
        refine Or.inr ⟨?_, h2⟩
        show (u, e) ∈ (Hub.register s.reg v q).1.incoming
        obtain ⟨-, ⟨id, a, -, h3, -⟩ | ⟨-, h3⟩⟩ := register_eff hi.reg v q
        · rw [h3]; simp [h1]
        · rw [h3]; exact h1
      | unregister i =>
        cases i with
        | none => exact keep _ rfl rfl rfl
        | some i =>
          refine Or.inr ⟨?_, h2⟩
          show (u, e) ∈ (Hub.unregister s.reg i).1.incoming
          rcases unregister_eff hi.reg i with ⟨w, -, -, h3, -⟩ | ⟨-, -, h3, -⟩
          · rw [h3]; exact h1
          · refine (h3 _).2 ⟨h1, ?_⟩
            rintro rfl
            exact hgood v rest hq (hi.known u _ (Or.inl h1))
  | pong v t =>
    simp only [isBeat, Bool.or_false, step]
    split
    · obtain ⟨h3, -, -, -⟩ := pong_rest s.hm v t
      refine Or.inr ⟨h1, ?_⟩
      show b = false ∧ u ∈ (Heart.handlePong s.hm v t).responses ∨ Heart.Note.new u ∈ (Heart.handlePong s.hm v t).notes.drop s.handled
      rw [h3]
      refine h2.imp (fun h => ⟨h.1, ?_⟩) id
      unfold Heart.handlePong
      split
      · exact Heart.mem_add.2 (Or.inr h.2)
      · split
        · exact Heart.mem_add.2 (Or.inr h.2)
        · exact h.2
    · exact keep _ rfl rfl rfl
  | beat dt =>
    refine Or.inr ⟨h1, Or.inr ?_⟩
    show Heart.Note.new u ∈ (Heart.beat max s.hm dt).notes.drop s.handled
    rw [Heart.beat_notes, drop_append_le _ _ _ hi.bound]
    rcases h2 with ⟨-, h2⟩ | h2
    · by_cases hh : u ∈ s.hm.hearts
      · have hk := hf.known u hh
        rw [← List.take_append_drop s.handled s.hm.notes] at hk
        rcases List.mem_append.1 hk with hk | hk
        · exact absurd hk (hf.unread u e h1)
        · simp [hk]
      · have : u ∈ Heart.newAt s.hm := by simp [Heart.newAt, List.mem_filter, h2, hh]
        simp [this]
    · simp [h2]
  | note =>
    simp only [isBeat, Bool.or_false, step]
    cases hn : s.hm.notes[s.handled]? with
    | none => exact keep _ rfl rfl rfl
    | some n =>
      have hlt : s.handled < s.hm.notes.length := by
        rcases Nat.lt_or_ge s.handled s.hm.notes.length with hl | hl
        · exact hl
        · rw [List.getElem?_eq_none hl] at hn; cases hn
      have hget : s.hm.notes[s.handled] = n := by rw [List.getElem?_eq_getElem hlt] at hn; exact Option.some.inj hn
      have hdrop : s.hm.notes.drop s.handled = n :: s.hm.notes.drop (s.handled + 1) := by
        rw [List.drop_eq_getElem_cons hlt, hget]
      rw [hdrop] at h2
      cases n with
      | new v =>
        by_cases hv : u = v
        · subst hv
          rcases newHeart_eff hi.reg u with ⟨i, h3, -, -, h4⟩ | ⟨-, h3⟩
          · have := incoming_once hi.reg h1 h3
            subst this
            left
            show _ ∈ s.notes ++ (Hub.step s.reg (.newHeart u)).2
            rw [h4]; simp
          · exact absurd h1 (h3 e)
        · refine Or.inr ⟨?_, ?_⟩
          · show (u, e) ∈ (Hub.step s.reg (.newHeart v)).1.incoming
            rcases newHeart_eff hi.reg v with ⟨i, -, -, h3, -⟩ | ⟨h3, -⟩
            · rw [h3]; exact Hub.mem_delKey.2 ⟨h1, hv⟩
            · rw [h3]; exact h1
          · refine h2.imp id (fun h => ?_)
            simp [hv] at h
            exact h
      | stopped v =>
        refine Or.inr ⟨?_, ?_⟩
        · show (u, e) ∈ (Hub.step s.reg (.stoppedHeart v)).1.incoming
          rcases stopped_eff hi.reg v with ⟨i, -, -, h3, -⟩ | ⟨h3, -⟩
          · rw [h3]; exact h1
          · rw [h3]; exact h1
        · refine h2.imp id (fun h => ?_)
          simp at h
          exact h
  | stall v =>
    have hv : u ≠ v := by rintro rfl; exact hst rfl
    refine Or.inr ⟨Hub.mem_delKey.2 ⟨h1, hv⟩, ?_⟩
    rw [show (b || isBeat (.stall v)) = b by simp [isBeat]]
    exact h2

theorem coming_run (max : Nat) (u : Uuid) (e : Eid) (more : List Ev) : ∀ (evs : List Ev) (b : Bool), Spec.AutoIds (evs ++ more) → Coming (run max init evs) u e b → Ev.stall u ∉ more →
    ((run max init (evs ++ more)).proc u).phase ≠ .gone → Coming (run max init (evs ++ more)) u e (b || decide (0 < Spec.beats more)) := by
  induction more with
  | nil => intro evs b _ h _ _; simpa [Spec.beats] using h
  | cons x r ih =>
    intro evs b ha h hst hg
    have he : evs ++ x :: r = (evs ++ [x]) ++ r := by simp
    rw [he] at ha hg ⊢
    have hx := coming_step max evs u e (fun v q hq => ha v q (by simp [hq])) b h x (by rintro rfl; exact hst (by simp))
      (fun hc => hg (by rw [run_append]; exact run_gone max _ r u hc))
    have := ih (evs ++ [x]) _ ha hx (fun hc => hst (by simp [hc])) hg
    have hb : (b || isBeat x || decide (0 < Spec.beats r)) = (b || decide (0 < Spec.beats (x :: r))) := by
      cases x with
      | beat dt => simp [isBeat, Spec.beats]
      | _ => exact congrArg (· || decide (0 < Spec.beats r)) (Bool.or_false b)
    rw [← hb]; exact this

/-- **C80 (a responsive engine is announced).** No engine asks for a particular id. Once the hub has granted an engine an id and the engine answers a current ping, then after the next beat and once the hub has read what the heart monitor reported — whatever else happens meanwhile, in whatever order — clients have been told of that engine under that id, provided only that the hub's registration timeout does not strike and the process is still there. -/
theorem responsive_announced (max : Nat) (evs more : List Ev) (u : Uuid) (e : Eid) (t : Nat) (ha : Spec.AutoIds (evs ++ .pong u t :: more)) (hp : Spec.Pending (run max init evs) u e)
    (hh : ((run max init evs).proc u).heart = true) (ht : t = (run max init evs).hm.lifetime ∨ t = (run max init evs).hm.lastPing) (hst : Ev.stall u ∉ more) (hb : 0 < Spec.beats more)
    (hc : Spec.Caught (run max init (evs ++ .pong u t :: more))) (hg : ((run max init (evs ++ .pong u t :: more)).proc u).phase ≠ .gone) :
    .registered u e ∈ (run max init (evs ++ .pong u t :: more)).notes := by
  have hcome : Coming (run max init (evs ++ [.pong u t])) u e false := by
    rw [run_append]
    show Coming (step max (run max init evs) (.pong u t)) u e false
    simp only [step, if_pos hh]
    refine Or.inr ⟨hp, Or.inl ⟨rfl, ?_⟩⟩
    show u ∈ (Heart.handlePong _ u t).responses
    unfold Heart.handlePong
    split
    · exact Heart.mem_add.2 (Or.inl rfl)
    · rename_i h1
      rw [if_pos (ht.resolve_left h1)]
      exact Heart.mem_add.2 (Or.inl rfl)
  have he : evs ++ .pong u t :: more = (evs ++ [.pong u t]) ++ more := by simp
  rw [he] at ha hc hg ⊢
  rcases coming_run max u e more _ false ha hcome hst hg with h | ⟨-, h⟩
  · exact h
  · rcases h with ⟨h, -⟩ | h
    · simp [hb] at h
    · unfold Spec.Caught at hc
      rw [hc, List.drop_length] at h
      cases h

/-- **C80 (… and stays listed while it is alive and its heart is heard).** … and it is still listed, unless the hub has been told that its heart stopped. -/
theorem responsive_listed (max : Nat) (evs more : List Ev) (u : Uuid) (e : Eid) (t : Nat) (ha : Spec.AutoIds (evs ++ .pong u t :: more)) (hp : Spec.Pending (run max init evs) u e)
    (hh : ((run max init evs).proc u).heart = true) (ht : t = (run max init evs).hm.lifetime ∨ t = (run max init evs).hm.lastPing) (hst : Ev.stall u ∉ more) (hb : 0 < Spec.beats more)
    (hc : Spec.Caught (run max init (evs ++ .pong u t :: more))) (hg : ((run max init (evs ++ .pong u t :: more)).proc u).phase ≠ .gone)
    (hns : Heart.Note.stopped u ∉ (run max init (evs ++ .pong u t :: more)).hm.notes) : Spec.Listed (run max init (evs ++ .pong u t :: more)) u e := by
  have hreg := responsive_announced max evs more u e t ha hp hh ht hst hb hc hg
  generalize evs ++ .pong u t :: more = l at *
  -- it can only have been removed by its own death
  have hmono : ∀ (a b : List Ev), ∃ t, (run max init (a ++ b)).hm.notes = (run max init a).hm.notes ++ t := by
    intro a b
    rw [run_append]
    generalize run max init a = s
    induction b generalizing s with
    | nil => exact ⟨[], by simp [run]⟩
    | cons x b ih =>
      obtain ⟨t, ht⟩ := ih (step max s x)
      have hs : ∃ t', (step max s x).hm.notes = s.hm.notes ++ t' := by
        rw [step_hm]
        cases x with
        | pong v t =>
          simp only
          split
          · exact ⟨[], by simp [(pong_rest s.hm v t).1]⟩
          · exact ⟨[], by simp⟩
        | beat dt => exact ⟨_, Heart.beat_notes max s.hm dt⟩
        | _ => exact ⟨[], by simp⟩
      obtain ⟨t', ht'⟩ := hs
      refine ⟨t' ++ t, ?_⟩
      show (run max (step max s x) b).hm.notes = _
      rw [ht, ht', List.append_assoc]
  have key : ∀ (n : Nat), n ≤ l.length → .registered u e ∈ (run max init (l.take n)).notes → Spec.Listed (run max init (l.take n)) u e := by
    intro n
    induction n with
    | zero => intro _ h; simp [run, init] at h
    | succ n ih =>
      intro hn h
      have hlt : n < l.length := by omega
      have htk : l.take (n + 1) = l.take n ++ [l[n]] := by rw [List.take_add_one, List.getElem?_eq_getElem hlt]; rfl
      by_cases hold : .registered u e ∈ (run max init (l.take n)).notes
      · have hl := ih (by omega) hold
        apply Classical.byContradiction
        intro hnot
        rw [htk] at hnot
        rcases removed_only_by_own_death max (l.take n) l[n] u e (fun v q hq => ha v q (List.mem_of_mem_take hq)) hl hnot with ⟨-, h1⟩ | ⟨-, -, h1⟩
        · apply hns
          obtain ⟨t', ht'⟩ := hmono (l.take n) (l.drop n)
          rw [List.take_append_drop] at ht'
          rw [ht']
          exact List.mem_append.2 (Or.inl (List.mem_of_getElem? h1))
        · apply hg
          have := run_gone max (run max init (l.take n)) (l.drop n) u h1
          rw [← run_append, List.take_append_drop] at this
          exact this
      · -- it has just been announced
        rcases announced_once max (l.take (n + 1)) u with ⟨h1, -⟩ | ⟨e', h1, h2⟩ | ⟨e', h1, -⟩
        · have : Hub.Note.registered u e ∈ Spec.notices u (run max init (l.take (n + 1))).notes := by simp [Spec.notices, h]
          rw [h1] at this; cases this
        · have : Hub.Note.registered u e ∈ Spec.notices u (run max init (l.take (n + 1))).notes := by simp [Spec.notices, h]
          rw [h1] at this; simp at this; subst this; exact h2
        · exfalso
          -- one step adds at most one notice
          have hne : Spec.notices u (run max init (l.take n)).notes = [] := by
            have hsub : ∀ x ∈ Spec.notices u (run max init (l.take n)).notes, x ∈ Spec.notices u (run max init (l.take (n + 1))).notes := by
              intro x hx
              obtain ⟨t', ht'⟩ := step_notes_prefix max (run max init (l.take n)) l[n]
              rw [htk, run_append]
              show x ∈ Spec.notices u (step max (run max init (l.take n)) l[n]).notes
              rw [ht', notices_append]
              exact List.mem_append.2 (Or.inl hx)
            rcases announced_once max (l.take n) u with ⟨h3, -⟩ | ⟨e'', h3, -⟩ | ⟨e'', h3, -⟩
            · exact h3
            · have h4 := hsub (.registered u e'') (by rw [h3]; simp)
              have h5 : Hub.Note.registered u e ∈ Spec.notices u (run max init (l.take (n + 1))).notes := by simp [Spec.notices, h]
              rw [h1] at h4 h5
              simp at h4 h5
              subst h4; subst h5
              exact absurd (List.mem_filter.1 (by rw [← Spec.notices, h3]; simp)).1 hold
            · have h4 := hsub (.registered u e'') (by rw [h3]; simp)
              have h5 : Hub.Note.registered u e ∈ Spec.notices u (run max init (l.take (n + 1))).notes := by simp [Spec.notices, h]
              rw [h1] at h4 h5
              simp at h4 h5
              subst h4; subst h5
              exact absurd (List.mem_filter.1 (by rw [← Spec.notices, h3]; simp)).1 hold
          -- but the two notices come from two steps
          have hone : ∀ s : Sys, ∀ x, ((step max s x).notes.length ≤ s.notes.length + 1) := by
            intro s x
            have hl1 : ∀ r : Reg, ∀ i, (Hub.unregister r i).2.length ≤ 1 := by
              intro r i; unfold Hub.unregister; split
              · split <;> simp
              · simp
            have hl2 : ∀ r : Reg, ∀ v q, (Hub.register r v q).2.length ≤ 1 := by
              intro r v q; unfold Hub.register; simp only; split
              · simp
              · split <;> simp
            have hl3 : ∀ r : Reg, ∀ v, (Hub.step r (.newHeart v)).2.length ≤ 1 := by
              intro r v; unfold Hub.step; simp only; split
              · unfold Hub.finish; split <;> simp
              · simp
            have hl4 : ∀ r : Reg, ∀ v, (Hub.step r (.stoppedHeart v)).2.length ≤ 1 := by
              intro r v; unfold Hub.step; simp only; split
              · simp
              · exact hl1 _ _
            cases x with
            | start v r => simp only [step]; split <;> simp
            | timeout v => simp only [step]; split <;> simp
            | reply v =>
              simp only [step]; split
              · split <;> simp
              · simp
            | heart v => simp only [step]; split <;> simp
            | die v => simp only [step]; split <;> simp
            | giveUp v => simp only [step]; split <;> simp
            | nanny v => simp only [step]; split <;> simp
            | hub v =>
              simp only [step]; split
              · simp
              · rename_i m r _
                cases m with
                | register q => simp only [hubMsg, hubStep, List.length_append]; exact Nat.add_le_add_left (hl2 _ _ _) _
                | unregister i => cases i with
                  | none => simp [hubMsg]
                  | some i => simp only [hubMsg, hubStep, List.length_append]; exact Nat.add_le_add_left (hl1 _ _) _
            | pong v t => simp only [step]; split <;> simp
            | beat dt => simp [step]
            | note =>
              simp only [step]; split
              · simp
              · rename_i n _
                cases n with
                | new v => simp only [hubNote, hubStep, List.length_append]; exact Nat.add_le_add_left (hl3 _ _) _
                | stopped v => simp only [hubNote, hubStep, List.length_append]; exact Nat.add_le_add_left (hl4 _ _) _
            | stall v => simp [step, hubStep, Hub.step]
          obtain ⟨t', ht'⟩ := step_notes_prefix max (run max init (l.take n)) l[n]
          have hlen := hone (run max init (l.take n)) l[n]
          rw [ht', List.length_append] at hlen
          have hfin : Spec.notices u (run max init (l.take (n + 1))).notes = Spec.notices u t' := by
            rw [htk, run_append]
            show Spec.notices u (step max (run max init (l.take n)) l[n]).notes = _
            rw [ht', notices_append, hne, List.nil_append]
          rw [hfin] at h1
          have : (Spec.notices u t').length ≤ t'.length := List.length_filter_le _ _
          rw [h1] at this
          simp at this
          omega
  have := key l.length (Nat.le_refl _)
  rw [List.take_length] at this
  exact this hreg

/-! ## what the heart monitor hears -/

namespace Spec

/-- the pongs and beats of a history, in order -/
def heard : List Ev → List Heart.Ev
  | [] => []
  | .pong u t :: r => .pong u t :: heard r
  | .beat dt :: r => .beat dt :: heard r
  | _ :: r => heard r

/-- pongs come only from engines that have started their heart -/
def RealPongs (max : Nat) (evs : List Ev) : Prop := ∀ p u t q, evs = p ++ .pong u t :: q → ((run max init p).proc u).heart = true

end Spec

theorem heard_append (a b : List Ev) : Spec.heard (a ++ b) = Spec.heard a ++ Spec.heard b := by
  induction a with
  | nil => rfl
  | cons x a ih => cases x <;> simp [Spec.heard, ih]

theorem heard_run (max : Nat) (evs : List Ev) (hr : Spec.RealPongs max evs) : (run max init evs).hm = Heart.run max (Spec.heard evs) := by
  have key : ∀ n, n ≤ evs.length → (run max init (evs.take n)).hm = Heart.run max (Spec.heard (evs.take n)) := by
    intro n
    induction n with
    | zero => intro _; rfl
    | succ n ih =>
      intro hn
      have hlt : n < evs.length := by omega
      have htk : evs.take (n + 1) = evs.take n ++ [evs[n]] := by rw [List.take_add_one, List.getElem?_eq_getElem hlt]; rfl
      have hsplit : evs = evs.take n ++ evs[n] :: evs.drop (n + 1) := by
        rw [← List.drop_eq_getElem_cons hlt, List.take_append_drop]
      rw [htk, run_append, heard_append]
      show (step max (run max init (evs.take n)) evs[n]).hm = _
      rw [step_hm, ih (by omega)]
      cases hx : evs[n] with
      | pong u t =>
        have := hr (evs.take n) u t (evs.drop (n + 1)) (by rw [← hx]; exact hsplit)
        simp only [this, if_true]
        simp [Spec.heard, Heart.run, Heart.step]
      | beat dt => simp [Spec.heard, Heart.run, Heart.step]
      | _ => simp [Spec.heard]
  have := key evs.length (Nat.le_refl _)
  rw [List.take_length] at this
  exact this

/-- **C80 (only silence stops a heart).** If the heart monitor ever reported that an engine's heart stopped, then at some beat before, that engine had answered none of the last `max_heartmonitor_misses + 1` pings. So an engine that answers at least one ping in every `max + 1` beats, and whose process does not end, stays listed (`responsive_listed`, `removed_only_by_own_death`). -/
theorem stopped_means_silent (max : Nat) (evs : List Ev) (hr : Spec.RealPongs max evs) (u : Uuid) (h : .stopped u ∈ (run max init evs).hm.notes) :
    ∃ hevs dt, hevs ++ [.beat dt] <+: Spec.heard evs ∧ Heart.SilentFor u (max + 1) (hevs ++ [.beat dt]) := by
  rw [heard_run max evs hr] at h
  generalize Spec.heard evs = l at h
  have key : ∀ n, n ≤ l.length → .stopped u ∈ (Heart.run max (l.take n)).notes → ∃ hevs dt, hevs ++ [Heart.Ev.beat dt] <+: l ∧ Heart.SilentFor u (max + 1) (hevs ++ [.beat dt]) := by
    intro n
    induction n with
    | zero => intro _ h; simp [Heart.run] at h
    | succ n ih =>
      intro hn h
      have hlt : n < l.length := by omega
      have htk : l.take (n + 1) = l.take n ++ [l[n]] := by rw [List.take_add_one, List.getElem?_eq_getElem hlt]; rfl
      cases hx : l[n] with
      | pong v t =>
        rw [htk, hx, Heart.pong_notes] at h
        exact ih (by omega) h
      | beat dt =>
        rw [htk, hx] at h
        obtain ⟨news, h1, h2⟩ := Heart.stopped_iff max (l.take n) dt
        rw [h1] at h
        rcases List.mem_append.1 h with h | h
        · exact ih (by omega) h
        · refine ⟨l.take n, dt, ?_, ((h2 u).1 h).2⟩
          rw [← hx, ← htk]
          exact List.take_prefix _ _
  have := key l.length (Nat.le_refl _)
  rw [List.take_length] at this
  exact this h

/-! ## the id that was asked for -/

/-- the first message of an engine waits until the hub handles it -/
theorem head_waits (max : Nat) (mid : List Ev) (u : Uuid) (hno : Ev.hub u ∉ mid) : ∀ (s : Sys) (m : Msg) (rest : List Msg), s.toHub u = m :: rest → (s.proc u).phase ≠ .absent →
    ∃ rest', (run max s mid).toHub u = m :: rest' ∧ ((run max s mid).proc u).phase ≠ .absent := by
  induction mid with
  | nil => intro s m rest h hp; exact ⟨rest, h, hp⟩
  | cons x l ih =>
    intro s m rest h hp
    have hx : ∃ rest', (step max s x).toHub u = m :: rest' ∧ ((step max s x).proc u).phase ≠ .absent := by
      have hproc : ∀ (v : Uuid) (p : Proc) (q : List Msg), p.phase ≠ .absent → (v = u → ∃ r', q = m :: r') → ∃ rest', upd s.toHub v q u = m :: rest' ∧ (upd s.proc v p u).phase ≠ .absent := by
        intro v p q hpp hq
        by_cases hv : u = v
        · subst hv; simpa using ⟨hq rfl, hpp⟩
        · rw [upd_other _ _ hv, upd_other _ _ hv]; exact ⟨rest, h, hp⟩
      have hp' : ∀ (v : Uuid) (p : Proc), p.phase ≠ .absent → ∃ rest', s.toHub u = m :: rest' ∧ (upd s.proc v p u).phase ≠ .absent := by
        intro v p hpp
        obtain ⟨r', h1, h2⟩ := hproc v p (s.toHub v) hpp (by rintro rfl; exact ⟨rest, h⟩)
        exact ⟨rest, h, h2⟩
      have hsame : ∃ rest', s.toHub u = m :: rest' ∧ (s.proc u).phase ≠ .absent := ⟨rest, h, hp⟩
      cases x with
      | start v r =>
        simp only [step]; split
        · rename_i ha
          exact hproc v _ _ (by simp) (by rintro rfl; exact absurd ha hp)
        · exact hsame
      | timeout v =>
        simp only [step]; split
        · exact hproc v _ _ (by simp) (by rintro rfl; exact ⟨rest ++ [.unregister (s.proc v).id], by rw [h]; rfl⟩)
        · exact hsame
      | reply v =>
        simp only [step]; split
        · split
          · exact hsame
          · exact hp' v _ (by simp)
          · exact hp' v _ (by simp)
        · exact hsame
      | heart v =>
        simp only [step]; split
        · exact hp' v _ (by simp)
        · exact hsame
      | die v =>
        simp only [step]; split
        · exact hsame
        · exact hp' v _ (by simp)
      | giveUp v =>
        simp only [step]; split
        · exact hproc v _ _ (by simp) (by rintro rfl; exact ⟨rest ++ [.unregister (s.proc v).id], by rw [h]; rfl⟩)
        · exact hsame
      | nanny v =>
        simp only [step]; split
        · rename_i ha
          have := hproc v (s.proc v) (s.toHub v ++ [.unregister (s.proc v).id]) (by rw [ha.1]; simp) (by rintro rfl; exact ⟨rest ++ [.unregister (s.proc v).id], by rw [h]; rfl⟩)
          rw [upd_id] at this; exact this
        · exact hsame
      | hub v =>
        have hv : u ≠ v := by rintro rfl; exact hno (by simp)
        simp only [step]; split
        · exact hsame
        · rename_i m' r' _
          have h1 : upd s.toHub v r' u = m :: rest := by rw [upd_other _ _ hv]; exact h
          cases m' with
          | register q => exact ⟨rest, h1, hp⟩
          | unregister i => cases i <;> exact ⟨rest, h1, hp⟩
      | pong v t => simp only [step]; split <;> exact hsame
      | beat dt => exact hsame
      | note =>
        simp only [step]; split
        · exact hsame
        · rename_i n _
          cases n <;> exact hsame
      | stall v => exact hsame
    obtain ⟨r', h1, h2⟩ := hx
    exact ih (fun hc => hno (by simp [hc])) _ m r' h1 h2

/-- **C80 (the id that was asked for).** An engine that asks for an id which is neither listed nor pending when the hub comes to its request is granted exactly that id, whatever happened between. -/
theorem requested_granted (max : Nat) (evs mid : List Ev) (u : Uuid) (r : Eid) (hstart : ((run max init evs).proc u).phase = .absent) (hno : Ev.hub u ∉ mid)
    (h1 : ∀ v, ¬ Spec.Listed (run max init (evs ++ .start u (some r) :: mid)) v r) (h2 : ∀ v, ¬ Spec.Pending (run max init (evs ++ .start u (some r) :: mid)) v r) :
    Spec.Pending (run max init (evs ++ .start u (some r) :: mid ++ [.hub u])) u r := by
  have hs : (step max (run max init evs) (.start u (some r))).toHub u = [.register (some r)] ∧ ((step max (run max init evs) (.start u (some r))).proc u).phase ≠ .absent := by
    simp [step, hstart]
  obtain ⟨rest, h3, -⟩ := head_waits max mid u hno _ _ _ hs.1 hs.2
  have h3 : (run max init (evs ++ .start u (some r) :: mid)).toHub u = .register (some r) :: rest := by
    rw [run_append]; exact h3
  rw [run_append]
  have hi := Inv.init.run max (evs ++ .start u (some r) :: mid)
  generalize run max init (evs ++ .start u (some r) :: mid) = s at *
  show (u, r) ∈ (step max s (.hub u)).reg.incoming
  simp only [step, h3]
  show (u, r) ∈ (Hub.register s.reg u (some r)).1.incoming
  have hrep := (hi.lp u).head _ (by rw [h3]; exact List.mem_cons_self ..)
  have hn1 : u ∉ s.reg.byIdent.map Prod.fst := by
    rw [hi.reg.ident, Hub.flip_fst]
    intro hc
    obtain ⟨x, hx, rfl⟩ := List.mem_map.1 hc
    have := hi.known x.2 x.1 (Or.inr hx)
    rw [hrep] at this; cases this
  have hn2 : u ∉ s.reg.incoming.map Prod.fst := by
    intro hc
    obtain ⟨x, hx, rfl⟩ := List.mem_map.1 hc
    have := hi.known x.1 x.2 (Or.inl hx)
    rw [hrep] at this; cases this
  have hf1 : r ∉ s.reg.engines.map Prod.fst := by
    intro hc
    obtain ⟨x, hx, rfl⟩ := List.mem_map.1 hc
    exact h1 x.2 hx
  have hf2 : r ∉ s.reg.incoming.map Prod.snd := by
    intro hc
    obtain ⟨x, hx, rfl⟩ := List.mem_map.1 hc
    exact h2 x.1 hx
  unfold Hub.register
  simp only [Hub.newEngineId, if_neg hf1, if_neg hf2, if_neg hn1, if_neg hn2]
  rw [Hub.setKey_fresh hn2]
  simp

end IPP.Life
