import Verif.Connect.Files

/-! # C95: connection files are read whole, in time, and from the controller that runs -/
namespace IPP.ConnFiles

/-! ## Specification vocabulary -/

/-- at some moment since the call of `get_connection_info` the world was like this -/
def Seen (t : Option Nat) (w : World) (evs : List Ev) (P : World → Prop) : Prop := ∃ pre, pre <+: evs ∧ P (runL t w pre).w

/-- both files are there -/
def Both (w : World) : Prop := ∀ k, (w.get k).there = true

/-- a file is being written -/
def File.isPart (f : File) : Prop := ∃ g t, f = .part g t

/-- One controller is starting up (or is up): it writes each file once, none is removed meanwhile, and writing one takes less than half a second; it does not end. -/
structure Steady (t : Option Nat) (w : World) (evs : List Ev) : Prop where
  once : ∀ pre g k, pre ++ [.env (.openW g k)] <+: evs → (runL t w pre).w.get k = .absent
  stays : ∀ k, Ev.env (.remove k) ∉ evs
  quick : ∀ pre, pre <+: evs → ∀ k g t', (runL t w pre).w.get k = .part g t' → (runL t w pre).w.now < t' + 500
  past : ∀ k g t', w.get k = .part g t' → t' ≤ w.now
  lives : w.status = none ∧ ∀ c, Ev.env (.die c) ∉ evs

/-- Everything in the files, at the beginning and later, is from controller `g`. -/
structure Only (g : Gen) (w : World) (evs : List Ev) : Prop where
  before : ∀ k, w.get k = .absent ∨ (∃ t, w.get k = .part g t) ∨ w.get k = .full g
  later : ∀ h k, Ev.env (.openW h k) ∈ evs → h = g

/-! ## Basic facts -/

theorem runL_snoc (t : Option Nat) (w : World) (evs : List Ev) (e : Ev) : runL t w (evs ++ [e]) = stepL (t.map (w.now + ·)) (runL t w evs) e := by
  simp [runL]

theorem snoc_induction {α : Type} {P : List α → Prop} (h0 : P []) (h1 : ∀ l a, P l → P (l ++ [a])) : ∀ l, P l := by
  intro l
  rw [← List.reverse_reverse l]
  induction l.reverse with
  | nil => exact h0
  | cons a l ih => rw [List.reverse_cons]; exact h1 _ a ih

theorem Seen.mono {t : Option Nat} {w : World} {evs : List Ev} {P : World → Prop} (e : Ev) (h : Seen t w evs P) : Seen t w (evs ++ [e]) P := by
  obtain ⟨pre, h1, h2⟩ := h
  exact ⟨pre, h1.trans (List.prefix_append _ _), h2⟩

theorem Seen.now {t : Option Nat} {w : World} {evs : List Ev} {P : World → Prop} (h : P (runL t w evs).w) : Seen t w evs P := ⟨evs, List.prefix_refl _, h⟩

theorem wake_get (w : World) (t : Nat) (k : Kind) : (w.wake t).get k = w.get k := by cases k <;> rfl
theorem wake_status (w : World) (t : Nat) : (w.wake t).status = w.status := rfl
theorem wake_now (w : World) (t : Nat) : (w.wake t).now = max w.now t := rfl
theorem put_get (w : World) (k k' : Kind) (f : File) : (w.put k f).get k' = if k' = k then f else w.get k' := by cases k <;> cases k' <;> rfl
theorem put_now (w : World) (k : Kind) (f : File) : (w.put k f).now = w.now := by cases k <;> rfl
theorem put_status (w : World) (k : Kind) (f : File) : (w.put k f).status = w.status := by cases k <;> rfl

/-- a step of the reader changes the clock only -/
theorem lstep_world (d : Option Nat) (s : St) : (∀ k, (lstep d s).w.get k = s.w.get k) ∧ (lstep d s).w.status = s.w.status ∧ s.w.now ≤ (lstep d s).w.now := by
  obtain ⟨w, pc⟩ := s
  cases pc with
  | check =>
    simp only [lstep]
    by_cases hc : w.client.there ∧ w.engine.there
    · rw [if_pos hc]; exact ⟨fun _ => rfl, rfl, Nat.le_refl _⟩
    · rw [if_neg hc]
      cases d with
      | none => exact ⟨fun _ => rfl, rfl, Nat.le_refl _⟩
      | some d =>
        by_cases hd : w.now > d
        · simp [hd]
        · simp [hd]
  | asleep t =>
    cases hst : w.status with
    | none =>
      have : lstep d ⟨w, .asleep t⟩ = ⟨w.wake t, .check⟩ := by simp [lstep, hst]
      rw [this]
      exact ⟨fun k => wake_get w t k, hst ▸ wake_status w t, by simp only [wake_now]; omega⟩
    | some c =>
      have : lstep d ⟨w, .asleep t⟩ = ⟨w.wake t, .done (.stopped c)⟩ := by simp [lstep, hst]
      rw [this]
      exact ⟨fun k => wake_get w t k, hst ▸ wake_status w t, by simp only [wake_now]; omega⟩
  | cnap t => exact ⟨fun k => wake_get w t k, rfl, by simp only [lstep, wake_now]; omega⟩
  | enap g t => exact ⟨fun k => wake_get w t k, rfl, by simp only [lstep, wake_now]; omega⟩
  | c1 => simp only [lstep]; cases w.client <;> exact ⟨fun _ => rfl, rfl, Nat.le_refl _⟩
  | c2 => simp only [lstep]; cases w.client <;> exact ⟨fun _ => rfl, rfl, Nat.le_refl _⟩
  | e1 g => simp only [lstep]; cases w.engine <;> exact ⟨fun _ => rfl, rfl, Nat.le_refl _⟩
  | e2 g => simp only [lstep]; cases w.engine <;> exact ⟨fun _ => rfl, rfl, Nat.le_refl _⟩
  | done o => exact ⟨fun _ => rfl, rfl, Nat.le_refl _⟩

theorem env_now (w : World) (e : Env) : w.now ≤ (env w e).now := by
  cases e with
  | openW g k => simp [env, put_now]
  | close k => simp only [env]; cases w.get k <;> simp [put_now]
  | remove k => simp [env, put_now]
  | die c => simp [env]
  | tick d => simp [env]

theorem now_mono (t : Option Nat) (w : World) (evs : List Ev) (e : Ev) : (runL t w evs).w.now ≤ (runL t w (evs ++ [e])).w.now := by
  rw [runL_snoc]
  cases e with
  | step => exact (lstep_world _ _).2.2
  | env e => exact env_now _ e

theorem there_both (w : World) : (w.client.there = true ∧ w.engine.there = true) ↔ Both w := by
  unfold Both
  constructor
  · rintro ⟨h1, h2⟩ k
    cases k
    · exact h1
    · exact h2
  · intro h
    exact ⟨h .client, h .engine⟩

/-! ## What is known at each point of the call -/

/-- `p` was a moment at which the file was being written, half a second or more before `n` -/
def WasPart (t : Option Nat) (w : World) (evs : List Ev) (k : Kind) (n : Nat) : Prop :=
  ∃ pre, pre <+: evs ∧ ((runL t w pre).w.get k).isPart ∧ (runL t w pre).w.now + 500 ≤ n

theorem WasPart.mono {t : Option Nat} {w : World} {evs : List Ev} {k : Kind} {n n' : Nat} (e : Ev) (h : WasPart t w evs k n) (hn : n ≤ n') : WasPart t w (evs ++ [e]) k n' := by
  obtain ⟨pre, h1, h2, h3⟩ := h
  exact ⟨pre, h1.trans (List.prefix_append _ _), h2, Nat.le_trans h3 hn⟩

/-- a file was there and then was not -/
def Vanished (t : Option Nat) (w : World) (evs : List Ev) : Prop :=
  ∃ p1 p2, p1 <+: p2 ∧ p2 <+: evs ∧ Both (runL t w p1).w ∧ ¬ Both (runL t w p2).w

/-- a file was being written at two moments half a second apart -/
def Slow (t : Option Nat) (w : World) (evs : List Ev) : Prop :=
  ∃ k p1 p2, p1 <+: p2 ∧ p2 <+: evs ∧ ((runL t w p1).w.get k).isPart ∧ ((runL t w p2).w.get k).isPart ∧ (runL t w p1).w.now + 500 ≤ (runL t w p2).w.now

theorem Vanished.mono {t : Option Nat} {w : World} {evs : List Ev} (e : Ev) (h : Vanished t w evs) : Vanished t w (evs ++ [e]) := by
  obtain ⟨p1, p2, h1, h2, h3⟩ := h
  exact ⟨p1, p2, h1, h2.trans (List.prefix_append _ _), h3⟩

theorem Slow.mono {t : Option Nat} {w : World} {evs : List Ev} (e : Ev) (h : Slow t w evs) : Slow t w (evs ++ [e]) := by
  obtain ⟨k, p1, p2, h1, h2, h3⟩ := h
  exact ⟨k, p1, p2, h1, h2.trans (List.prefix_append _ _), h3⟩

/-- the invariant of the call -/
def Inv (t : Option Nat) (w : World) (evs : List Ev) : PC → Prop
  | .check => True
  | .asleep _ => True
  | .c1 => Seen t w evs Both
  | .cnap n => Seen t w evs Both ∧ WasPart t w evs .client n
  | .c2 => Seen t w evs Both ∧ WasPart t w evs .client (runL t w evs).w.now
  | .e1 g => Seen t w evs Both ∧ Seen t w evs (fun w => w.client = .full g)
  | .enap g n => Seen t w evs Both ∧ Seen t w evs (fun w => w.client = .full g) ∧ WasPart t w evs .engine n
  | .e2 g => Seen t w evs Both ∧ Seen t w evs (fun w => w.client = .full g) ∧ WasPart t w evs .engine (runL t w evs).w.now
  | .done (.ok g h) => Seen t w evs (fun w => w.client = .full g) ∧ Seen t w evs (fun w => w.engine = .full h)
  | .done .timeout => ∃ d, t = some d ∧ Seen t w evs (fun w' => w'.now > w.now + d ∧ ¬ Both w')
  | .done (.stopped c) => Seen t w evs (fun w => w.status = some c)
  | .done .badJson => Slow t w evs
  | .done .notFound => Vanished t w evs

theorem Inv.mono {t : Option Nat} {w : World} {evs : List Ev} {pc : PC} (e : Ev) (h : Inv t w evs pc) : Inv t w (evs ++ [e]) pc := by
  have hn := now_mono t w evs e
  cases pc with
  | check => trivial
  | asleep n => trivial
  | c1 => exact Seen.mono e h
  | cnap n => exact ⟨h.1.mono e, h.2.mono e (Nat.le_refl _)⟩
  | c2 => exact ⟨h.1.mono e, h.2.mono e hn⟩
  | e1 g => exact ⟨h.1.mono e, h.2.mono e⟩
  | enap g n => exact ⟨h.1.mono e, h.2.1.mono e, h.2.2.mono e (Nat.le_refl _)⟩
  | e2 g => exact ⟨h.1.mono e, h.2.1.mono e, h.2.2.mono e hn⟩
  | done o =>
    cases o with
    | ok g h' => exact ⟨h.1.mono e, h.2.mono e⟩
    | timeout => obtain ⟨d, h1, h2⟩ := h; exact ⟨d, h1, h2.mono e⟩
    | stopped c => exact Seen.mono (P := fun w => w.status = some c) e h
    | badJson => exact Slow.mono e h
    | notFound => exact Vanished.mono e h

theorem inv_run (t : Option Nat) (w : World) (evs : List Ev) : Inv t w evs (runL t w evs).pc := by
  induction evs using snoc_induction with
  | h0 => trivial
  | h1 evs e ih =>
    cases e with
    | env e =>
      have : (runL t w (evs ++ [.env e])).pc = (runL t w evs).pc := by rw [runL_snoc]; rfl
      rw [this]
      exact ih.mono _
    | step =>
      have ih' := ih.mono (e := .step)
      have hw := lstep_world (t.map (w.now + ·)) (runL t w evs)
      have hs : runL t w (evs ++ [.step]) = lstep (t.map (w.now + ·)) (runL t w evs) := by rw [runL_snoc]; rfl
      have hpre : evs <+: evs ++ [Ev.step] := List.prefix_append _ _
      have both : Seen t w evs Both → ∃ p1, p1 <+: evs ∧ Both (runL t w p1).w := fun h => h
      have vanish : Seen t w evs Both → ∀ k, (runL t w evs).w.get k = .absent → Vanished t w (evs ++ [.step]) := by
        rintro ⟨p1, h1, h2⟩ k hk
        refine ⟨p1, evs, h1, hpre, h2, fun hb => ?_⟩
        have := hb k
        rw [hk] at this
        cases this
      have slow : ∀ k, WasPart t w evs k (runL t w evs).w.now → ((runL t w evs).w.get k).isPart → Slow t w (evs ++ [.step]) := by
        rintro k ⟨p1, h1, h2, h3⟩ hp
        exact ⟨k, p1, evs, h1, hpre, h2, hp, h3⟩
      cases hpc : (runL t w evs).pc with
      | check =>
        by_cases hc : (runL t w evs).w.client.there ∧ (runL t w evs).w.engine.there
        · have e1 : (runL t w (evs ++ [.step])).pc = .c1 := by rw [hs]; simp only [lstep, hpc]; rw [if_pos hc]
          rw [e1]
          exact ⟨evs, hpre, (there_both _).1 hc⟩
        · cases t with
          | none =>
            have e1 : (runL none w (evs ++ [.step])).pc = .asleep ((runL none w evs).w.now + 100) := by rw [hs]; simp only [lstep, hpc, Option.map]; rw [if_neg hc]
            rw [e1]; trivial
          | some d =>
            by_cases hd : (runL (some d) w evs).w.now > w.now + d
            · have e1 : (runL (some d) w (evs ++ [.step])).pc = .done .timeout := by
                rw [hs]; simp only [lstep, hpc, Option.map]; rw [if_neg hc]; simp [hd]
              rw [e1]
              exact ⟨d, rfl, evs, hpre, hd, fun hb => hc ((there_both _).2 hb)⟩
            · have e1 : (runL (some d) w (evs ++ [.step])).pc = .asleep ((runL (some d) w evs).w.now + 100) := by
                rw [hs]; simp only [lstep, hpc, Option.map]; rw [if_neg hc]; simp [hd]
              rw [e1]; trivial
      | asleep n =>
        cases hst : (runL t w evs).w.status with
        | none =>
          have e1 : (runL t w (evs ++ [.step])).pc = .check := by rw [hs]; simp only [lstep, hpc, hst]
          rw [e1]; trivial
        | some c =>
          have e1 : (runL t w (evs ++ [.step])).pc = .done (.stopped c) := by rw [hs]; simp only [lstep, hpc, hst]
          rw [e1]
          exact ⟨evs, hpre, hst⟩
      | c1 =>
        rw [hpc] at ih ih'
        cases hf : (runL t w evs).w.client with
        | full g =>
          have e1 : (runL t w (evs ++ [.step])).pc = .e1 g := by rw [hs]; simp only [lstep, hpc, hf]
          rw [e1]
          exact ⟨ih', evs, hpre, hf⟩
        | part g t' =>
          have e1 : (runL t w (evs ++ [.step])).pc = .cnap ((runL t w evs).w.now + 500) := by rw [hs]; simp only [lstep, hpc, hf]
          rw [e1]
          exact ⟨ih', evs, hpre, ⟨g, t', hf⟩, Nat.le_refl _⟩
        | absent =>
          have e1 : (runL t w (evs ++ [.step])).pc = .done .notFound := by rw [hs]; simp only [lstep, hpc, hf]
          rw [e1]
          exact vanish ih .client hf
      | cnap n =>
        rw [hpc] at ih ih'
        have e1 : (runL t w (evs ++ [.step])).pc = .c2 := by rw [hs]; simp only [lstep, hpc]
        have e2 : n ≤ (runL t w (evs ++ [.step])).w.now := by rw [hs]; simp only [lstep, hpc, wake_now]; omega
        rw [e1]
        exact ⟨ih'.1, ih.2.mono _ e2⟩
      | c2 =>
        rw [hpc] at ih ih'
        cases hf : (runL t w evs).w.client with
        | full g =>
          have e1 : (runL t w (evs ++ [.step])).pc = .e1 g := by rw [hs]; simp only [lstep, hpc, hf]
          rw [e1]
          exact ⟨ih'.1, evs, hpre, hf⟩
        | part g t' =>
          have e1 : (runL t w (evs ++ [.step])).pc = .done .badJson := by rw [hs]; simp only [lstep, hpc, hf]
          rw [e1]
          exact slow .client ih.2 ⟨g, t', hf⟩
        | absent =>
          have e1 : (runL t w (evs ++ [.step])).pc = .done .notFound := by rw [hs]; simp only [lstep, hpc, hf]
          rw [e1]
          exact vanish ih.1 .client hf
      | e1 g =>
        rw [hpc] at ih ih'
        cases hf : (runL t w evs).w.engine with
        | full h =>
          have e1 : (runL t w (evs ++ [.step])).pc = .done (.ok g h) := by rw [hs]; simp only [lstep, hpc, hf]
          rw [e1]
          exact ⟨ih'.2, evs, hpre, hf⟩
        | part h t' =>
          have e1 : (runL t w (evs ++ [.step])).pc = .enap g ((runL t w evs).w.now + 500) := by rw [hs]; simp only [lstep, hpc, hf]
          rw [e1]
          exact ⟨ih'.1, ih'.2, evs, hpre, ⟨h, t', hf⟩, Nat.le_refl _⟩
        | absent =>
          have e1 : (runL t w (evs ++ [.step])).pc = .done .notFound := by rw [hs]; simp only [lstep, hpc, hf]
          rw [e1]
          exact vanish ih.1 .engine hf
      | enap g n =>
        rw [hpc] at ih ih'
        have e1 : (runL t w (evs ++ [.step])).pc = .e2 g := by rw [hs]; simp only [lstep, hpc]
        have e2 : n ≤ (runL t w (evs ++ [.step])).w.now := by rw [hs]; simp only [lstep, hpc, wake_now]; omega
        rw [e1]
        exact ⟨ih'.1, ih'.2.1, ih.2.2.mono _ e2⟩
      | e2 g =>
        rw [hpc] at ih ih'
        cases hf : (runL t w evs).w.engine with
        | full h =>
          have e1 : (runL t w (evs ++ [.step])).pc = .done (.ok g h) := by rw [hs]; simp only [lstep, hpc, hf]
          rw [e1]
          exact ⟨ih'.2.1, evs, hpre, hf⟩
        | part h t' =>
          have e1 : (runL t w (evs ++ [.step])).pc = .done .badJson := by rw [hs]; simp only [lstep, hpc, hf]
          rw [e1]
          exact slow .engine ih.2.2 ⟨h, t', hf⟩
        | absent =>
          have e1 : (runL t w (evs ++ [.step])).pc = .done .notFound := by rw [hs]; simp only [lstep, hpc, hf]
          rw [e1]
          exact vanish ih.1 .engine hf
      | done o =>
        have e1 : (runL t w (evs ++ [.step])).pc = .done o := by rw [hs]; simp only [lstep, hpc]
        rw [e1, ← hpc]
        exact ih'

/-! ## Results -/

/-- **C95**: what `get_connection_info` returns was, since it was called, the whole contents of the two files. -/
theorem info_whole (t : Option Nat) (w : World) (evs : List Ev) (g h : Gen) (hd : (runL t w evs).pc = .done (.ok g h)) :
    Seen t w evs (fun w => w.get .client = .full g) ∧ Seen t w evs (fun w => w.get .engine = .full h) := by
  have := inv_run t w evs
  rw [hd] at this
  exact this

/-- **C95**: TimeoutError only after the time limit, and if a file was not there then. -/
theorem timeout_means_missing (t : Option Nat) (w : World) (evs : List Ev) (hd : (runL t w evs).pc = .done .timeout) :
    ∃ d, t = some d ∧ Seen t w evs (fun w' => w'.now > w.now + d ∧ ∃ k, w'.get k = .absent) := by
  have := inv_run t w evs
  rw [hd] at this
  obtain ⟨d, h1, pre, h2, h3, h4⟩ := this
  refine ⟨d, h1, pre, h2, h3, ?_⟩
  have key : ∀ f : File, f.there = true ∨ f = .absent := by intro f; cases f <;> simp [File.there]
  rcases key ((runL t w pre).w.get .client) with hc | hc
  · rcases key ((runL t w pre).w.get .engine) with he | he
    · exact absurd (fun k => by cases k <;> assumption) h4
    · exact ⟨.engine, he⟩
  · exact ⟨.client, hc⟩

/-- **C95**: RuntimeError only if the controller has ended, with its status. -/
theorem stopped_means_ended (t : Option Nat) (w : World) (evs : List Ev) (c : Int) (hd : (runL t w evs).pc = .done (.stopped c)) :
    Seen t w evs (fun w => w.status = some c) := by
  have := inv_run t w evs
  rw [hd] at this
  exact this

/-! ## A controller that starts normally -/

theorem part_stays {t : Option Nat} {w : World} {evs : List Ev} (S : Steady t w evs) (k : Kind) (g : Gen) (t' : Nat) (p1 : List Ev) (hp : (runL t w p1).w.get k = .part g t') :
    ∀ l, p1 ++ l <+: evs → (runL t w (p1 ++ l)).w.get k = .part g t' ∨ (runL t w (p1 ++ l)).w.get k = .full g := by
  intro l
  induction l using snoc_induction with
  | h0 => intro _; simp only [List.append_nil]; exact .inl hp
  | h1 l e ih =>
    intro hl
    rw [← List.append_assoc] at hl ⊢
    have hl' : p1 ++ l <+: evs := (List.prefix_append _ _).trans hl
    have ih := ih hl'
    rw [runL_snoc]
    have hmem : e ∈ evs := hl.subset (by simp)
    cases e with
    | step => simp only [stepL]; rw [(lstep_world _ _).1]; exact ih
    | env e =>
      simp only [stepL]
      cases e with
      | openW g' k' =>
        by_cases hk : k = k'
        · subst hk
          have := S.once (p1 ++ l) g' k hl
          rcases ih with h | h <;> (rw [h] at this; cases this)
        · simp only [env]; rw [put_get, if_neg hk]; exact ih
      | close k' =>
        by_cases hk : k = k'
        · subst hk
          rcases ih with h | h
          · right; simp only [env]; rw [h]; simp only; rw [put_get, if_pos rfl]
          · right; simp only [env]; rw [h]; exact h
        · simp only [env]
          cases hf : (runL t w (p1 ++ l)).w.get k' with
          | part a b => simp only; rw [put_get, if_neg hk]; exact ih
          | absent => exact ih
          | full a => exact ih
      | remove k' => exact absurd hmem (S.stays k')
      | die c => exact ih
      | tick d => exact ih

theorem there_stays {t : Option Nat} {w : World} {evs : List Ev} (S : ∀ k, Ev.env (.remove k) ∉ evs) (k : Kind) (p1 : List Ev) (hp : ((runL t w p1).w.get k).there = true) :
    ∀ l, p1 ++ l <+: evs → ((runL t w (p1 ++ l)).w.get k).there = true := by
  intro l
  induction l using snoc_induction with
  | h0 => intro _; simp only [List.append_nil]; exact hp
  | h1 l e ih =>
    intro hl
    rw [← List.append_assoc] at hl ⊢
    have hl' : p1 ++ l <+: evs := (List.prefix_append _ _).trans hl
    have ih := ih hl'
    rw [runL_snoc]
    have hmem : e ∈ evs := hl.subset (by simp)
    cases e with
    | step => simp only [stepL]; rw [(lstep_world _ _).1]; exact ih
    | env e =>
      simp only [stepL]
      cases e with
      | openW g' k' =>
        simp only [env]; rw [put_get]
        by_cases hk : k = k'
        · rw [if_pos hk]; rfl
        · rw [if_neg hk]; exact ih
      | close k' =>
        simp only [env]
        cases hf : (runL t w (p1 ++ l)).w.get k' with
        | part a b =>
          simp only; rw [put_get]
          by_cases hk : k = k'
          · rw [if_pos hk]; rfl
          · rw [if_neg hk]; exact ih
        | absent => exact ih
        | full a => exact ih
      | remove k' => exact absurd hmem (S k')
      | die c => exact ih
      | tick d => exact ih

theorem opened_before {t : Option Nat} {w : World} (hp : ∀ k g t', w.get k = .part g t' → t' ≤ w.now) (k : Kind) (evs : List Ev) (g : Gen) (t' : Nat)
    (h : (runL t w evs).w.get k = .part g t') : t' ≤ (runL t w evs).w.now := by
  induction evs using snoc_induction with
  | h0 => exact hp k g t' h
  | h1 evs e ih =>
    have hn := now_mono t w evs e
    have old : (runL t w evs).w.get k = .part g t' → t' ≤ (runL t w (evs ++ [e])).w.now := fun h => Nat.le_trans (ih h) hn
    rw [runL_snoc] at h
    cases e with
    | step => simp only [stepL] at h; rw [(lstep_world _ _).1] at h; exact old h
    | env e =>
      simp only [stepL] at h
      cases e with
      | openW g' k' =>
        simp only [env] at h
        rw [put_get] at h
        by_cases hk : k = k'
        · rw [if_pos hk] at h
          cases h
          exact hn
        · rw [if_neg hk] at h; exact old h
      | close k' =>
        simp only [env] at h
        cases hf : (runL t w evs).w.get k' with
        | part a b =>
          rw [hf] at h; simp only at h; rw [put_get] at h
          by_cases hk : k = k'
          · rw [if_pos hk] at h; cases h
          · rw [if_neg hk] at h; exact old h
        | absent => rw [hf] at h; exact old h
        | full a => rw [hf] at h; exact old h
      | remove k' =>
        simp only [env] at h; rw [put_get] at h
        by_cases hk : k = k'
        · rw [if_pos hk] at h; cases h
        · rw [if_neg hk] at h; exact old h
      | die c => exact old h
      | tick d => exact old h

theorem status_none {t : Option Nat} {w : World} (evs : List Ev) (h0 : w.status = none) (h : ∀ c, Ev.env (.die c) ∉ evs) : (runL t w evs).w.status = none := by
  induction evs using snoc_induction with
  | h0 => exact h0
  | h1 evs e ih =>
    have ih := ih (fun c hc => h c (by simp [hc]))
    rw [runL_snoc]
    cases e with
    | step => simp only [stepL]; rw [(lstep_world _ _).2.1]; exact ih
    | env e =>
      simp only [stepL]
      cases e with
      | openW g k => simp only [env, put_status]; exact ih
      | close k => simp only [env]; cases (runL t w evs).w.get k <;> simp only [put_status] <;> exact ih
      | remove k => simp only [env, put_status]; exact ih
      | die c => exact absurd (by simp) (h c)
      | tick d => exact ih

/-- **C95**: with a controller that starts normally (`Steady`) the call succeeds, or its time is up. -/
theorem steady_ok_partial (t : Option Nat) (w : World) (evs : List Ev) (S : Steady t w evs) (o : Out) (hd : (runL t w evs).pc = .done o) :
    (∃ g h, o = .ok g h) ∨ o = .timeout := by
  have I := inv_run t w evs
  rw [hd] at I
  cases o with
  | ok g h => exact .inl ⟨g, h, rfl⟩
  | timeout => exact .inr rfl
  | stopped c =>
    exfalso
    obtain ⟨pre, h1, h2⟩ := I
    have := status_none (t := t) pre S.lives.1 (fun c hc => S.lives.2 c (h1.subset hc))
    rw [h2] at this
    cases this
  | badJson =>
    exfalso
    obtain ⟨k, p1, p2, h1, h2, ⟨g, t', h3⟩, ⟨g', t'', h4⟩, h5⟩ := I
    obtain ⟨l, rfl⟩ := h1
    have h6 := S.quick _ h2 k g' t'' h4
    rcases part_stays S k g t' p1 h3 l h2 with h | h
    · rw [h] at h4
      cases h4
      have := opened_before S.past k p1 g t' h3
      omega
    · rw [h] at h4; cases h4
  | notFound =>
    exfalso
    obtain ⟨p1, p2, h1, h2, h3, h4⟩ := I
    obtain ⟨l, rfl⟩ := h1
    exact h4 (fun k => there_stays S.stays k p1 (h3 k) l h2)

theorem only_file {g : Gen} {t : Option Nat} {w : World} (evs : List Ev) (O : Only g w evs) (k : Kind) :
    (runL t w evs).w.get k = .absent ∨ (∃ t', (runL t w evs).w.get k = .part g t') ∨ (runL t w evs).w.get k = .full g := by
  induction evs using snoc_induction generalizing k with
  | h0 => exact O.before k
  | h1 evs e ih =>
    have ih := ih ⟨O.before, fun h k hm => O.later h k (by simp [hm])⟩
    rw [runL_snoc]
    cases e with
    | step => simp only [stepL]; rw [(lstep_world _ _).1]; exact ih k
    | env e =>
      simp only [stepL]
      cases e with
      | openW g' k' =>
        simp only [env]; rw [put_get]
        by_cases hk : k = k'
        · rw [if_pos hk, O.later g' k' (by simp)]
          exact .inr (.inl ⟨_, rfl⟩)
        · rw [if_neg hk]; exact ih k
      | close k' =>
        simp only [env]
        cases hf : (runL t w evs).w.get k' with
        | part a b =>
          simp only; rw [put_get]
          by_cases hk : k = k'
          · rw [if_pos hk]
            rcases ih k' with h | ⟨t', h⟩ | h
            · rw [h] at hf; cases hf
            · rw [h] at hf; cases hf; exact .inr (.inr rfl)
            · rw [h] at hf; cases hf
          · rw [if_neg hk]; exact ih k
        | absent => exact ih k
        | full a => exact ih k
      | remove k' =>
        simp only [env]; rw [put_get]
        by_cases hk : k = k'
        · rw [if_pos hk]; exact .inl rfl
        · rw [if_neg hk]; exact ih k
      | die c => exact ih k
      | tick d => exact ih k

/-- **C95**: if nothing of an earlier controller is in the files, what is returned is from the controller that runs. -/
theorem info_current_partial (g : Gen) (t : Option Nat) (w : World) (evs : List Ev) (O : Only g w evs) (a b : Gen) (hd : (runL t w evs).pc = .done (.ok a b)) : a = g ∧ b = g := by
  obtain ⟨⟨p1, h1, h2⟩, ⟨p2, h3, h4⟩⟩ := info_whole t w evs a b hd
  have o1 : Only g w p1 := ⟨O.before, fun h k hm => O.later h k (h1.subset hm)⟩
  have o2 : Only g w p2 := ⟨O.before, fun h k hm => O.later h k (h3.subset hm)⟩
  constructor
  · rcases only_file (t := t) p1 o1 .client with h | ⟨_, h⟩ | h <;> (rw [h] at h2; cases h2)
    rfl
  · rcases only_file (t := t) p2 o2 .engine with h | ⟨_, h⟩ | h <;> (rw [h] at h4; cases h4)
    rfl

/-! ## It ends -/

/-- how many steps are left once the time is up -/
def rank : PC → Nat
  | .asleep _ => 8
  | .check => 7
  | .c1 => 6
  | .cnap _ => 5
  | .c2 => 4
  | .e1 _ => 3
  | .enap _ _ => 2
  | .e2 _ => 1
  | .done _ => 0

theorem rank_step (d : Nat) (s : St) (h : s.w.now > d) : rank (lstep (some d) s).pc ≤ rank s.pc - 1 := by
  obtain ⟨w, pc⟩ := s
  cases pc with
  | check =>
    simp only [lstep]
    by_cases hc : w.client.there ∧ w.engine.there
    · rw [if_pos hc]; simp [rank]
    · rw [if_neg hc]
      have : w.now > d := h
      simp only [if_pos this]; simp [rank]
  | asleep t => simp only [lstep]; cases w.status <;> simp [rank]
  | cnap t => simp [lstep, rank]
  | enap g t => simp [lstep, rank]
  | c1 => simp only [lstep]; cases w.client <;> simp [rank]
  | c2 => simp only [lstep]; cases w.client <;> simp [rank]
  | e1 g => simp only [lstep]; cases w.engine <;> simp [rank]
  | e2 g => simp only [lstep]; cases w.engine <;> simp [rank]
  | done o => simp [lstep, rank]

/-- **C95**: with a time limit the call ends: at most eight steps after the limit. -/
theorem ends (d : Nat) (w : World) (pre post : List Ev) (hp : (runL (some d) w pre).w.now > w.now + d) (hs : 8 ≤ post.count .step) :
    ∃ o, (runL (some d) w (pre ++ post)).pc = .done o := by
  have key : ∀ post : List Ev, (runL (some d) w (pre ++ post)).w.now > w.now + d ∧ rank (runL (some d) w (pre ++ post)).pc ≤ 8 - post.count .step := by
    intro post
    induction post using snoc_induction with
    | h0 =>
      refine ⟨by simpa using hp, ?_⟩
      simp only [List.append_nil, List.count_nil]
      cases (runL (some d) w pre).pc <;> simp [rank]
    | h1 post e ih =>
      rw [← List.append_assoc]
      have hn := now_mono (some d) w (pre ++ post) e
      refine ⟨by omega, ?_⟩
      rw [runL_snoc, List.count_append]
      cases e with
      | step =>
        have := rank_step (w.now + d) (runL (some d) w (pre ++ post)) ih.1
        have hc : List.count Ev.step [Ev.step] = 1 := rfl
        simp only [stepL, Option.map_some, hc]
        omega
      | env e =>
        have hc : List.count Ev.step [Ev.env e] = 0 := rfl
        simp only [stepL, hc]
        omega
  have := (key post).2
  cases hpc : (runL (some d) w (pre ++ post)).pc with
  | done o => exact ⟨o, rfl⟩
  | _ => rw [hpc] at this; simp only [rank] at this; omega

/-- what is left to do once the controller has ended -/
def rankD : PC → Nat
  | .check => 7
  | .asleep _ => 1
  | .c1 => 6
  | .cnap _ => 5
  | .c2 => 4
  | .e1 _ => 3
  | .enap _ _ => 2
  | .e2 _ => 1
  | .done _ => 0

theorem rankD_step (d : Option Nat) (s : St) (c : Int) (h : s.w.status = some c) : rankD (lstep d s).pc ≤ rankD s.pc - 1 := by
  obtain ⟨w, pc⟩ := s
  simp only at h
  cases pc with
  | check =>
    simp only [lstep]
    by_cases hc : w.client.there ∧ w.engine.there
    · rw [if_pos hc]; simp [rankD]
    · rw [if_neg hc]
      cases d with
      | none => simp [rankD]
      | some d => by_cases hd : w.now > d <;> simp [hd, rankD]
  | asleep t => simp [lstep, h, rankD]
  | cnap t => simp [lstep, rankD]
  | enap g t => simp [lstep, rankD]
  | c1 => simp only [lstep]; cases w.client <;> simp [rankD]
  | c2 => simp only [lstep]; cases w.client <;> simp [rankD]
  | e1 g => simp only [lstep]; cases w.engine <;> simp [rankD]
  | e2 g => simp only [lstep]; cases w.engine <;> simp [rankD]
  | done o => simp [lstep, rankD]

theorem status_stays (t : Option Nat) (w : World) (evs : List Ev) (e : Ev) (c : Int) (h : (runL t w evs).w.status = some c) : ∃ c', (runL t w (evs ++ [e])).w.status = some c' := by
  rw [runL_snoc]
  cases e with
  | step => exact ⟨c, by simp only [stepL]; rw [(lstep_world _ _).2.1, h]⟩
  | env e =>
    cases e with
    | openW g k => exact ⟨c, by simp [stepL, env, put_status, h]⟩
    | close k => exact ⟨c, by simp only [stepL, env]; cases (runL t w evs).w.get k <;> simp [put_status, h]⟩
    | remove k => exact ⟨c, by simp [stepL, env, put_status, h]⟩
    | die c' => exact ⟨c', rfl⟩
    | tick d => exact ⟨c, h⟩

/-- **C95**: once the controller has ended, the call ends within seven steps, with or without a time limit. -/
theorem dead_ends (t : Option Nat) (w : World) (pre post : List Ev) (c : Int) (hp : (runL t w pre).w.status = some c) (hs : 7 ≤ post.count .step) :
    ∃ o, (runL t w (pre ++ post)).pc = .done o := by
  have key : ∀ post : List Ev, (∃ c, (runL t w (pre ++ post)).w.status = some c) ∧ rankD (runL t w (pre ++ post)).pc ≤ 7 - post.count .step := by
    intro post
    induction post using snoc_induction with
    | h0 =>
      refine ⟨⟨c, by simpa using hp⟩, ?_⟩
      simp only [List.append_nil, List.count_nil]
      cases (runL t w pre).pc <;> simp [rankD]
    | h1 post e ih =>
      rw [← List.append_assoc]
      obtain ⟨⟨c', hc'⟩, ih⟩ := ih
      refine ⟨status_stays _ _ _ _ _ hc', ?_⟩
      rw [runL_snoc, List.count_append]
      cases e with
      | step =>
        have := rankD_step (t.map (w.now + ·)) (runL t w (pre ++ post)) c' hc'
        have hc : List.count Ev.step [Ev.step] = 1 := rfl
        simp only [stepL, hc]
        omega
      | env e =>
        have hc : List.count Ev.step [Ev.env e] = 0 := rfl
        simp only [stepL, hc]
        omega
  have := (key post).2
  cases hpc : (runL t w (pre ++ post)).pc with
  | done o => exact ⟨o, rfl⟩
  | _ => rw [hpc] at this; simp only [rankD] at this; omega

/-- **C95**: and if the files never were both there, what it raises then says so: the controller has ended, or the time is up. -/
theorem dead_reported (t : Option Nat) (w : World) (evs : List Ev) (o : Out) (hm : ∀ pre, pre <+: evs → ¬ Both (runL t w pre).w) (hd : (runL t w evs).pc = .done o) :
    o = .timeout ∨ ∃ c, o = .stopped c := by
  have key : (runL t w evs).pc = .check ∨ (∃ n, (runL t w evs).pc = .asleep n) ∨ (runL t w evs).pc = .done .timeout ∨ ∃ c, (runL t w evs).pc = .done (.stopped c) := by
    clear hd
    induction evs using snoc_induction with
    | h0 => exact .inl rfl
    | h1 evs e ih =>
      have hpre : evs <+: evs ++ [e] := List.prefix_append _ _
      have ih := ih (fun p hp => hm p (hp.trans hpre))
      have hb := hm evs hpre
      rw [← there_both] at hb
      rw [runL_snoc]
      cases e with
      | env e => exact ih
      | step =>
        simp only [stepL]
        rcases ih with h | ⟨n, h⟩ | h | ⟨c, h⟩
        · simp only [lstep, h]
          rw [if_neg hb]
          cases t with
          | none => exact .inr (.inl ⟨_, rfl⟩)
          | some d =>
            simp only [Option.map_some]
            by_cases hd : (runL (some d) w evs).w.now > w.now + d
            · rw [if_pos hd]; exact .inr (.inr (.inl rfl))
            · rw [if_neg hd]; exact .inr (.inl ⟨_, rfl⟩)
        · simp only [lstep, h]
          cases (runL t w evs).w.status with
          | none => exact .inl rfl
          | some c => exact .inr (.inr (.inr ⟨c, rfl⟩))
        · simp only [lstep, h]; exact .inr (.inr (.inl trivial))
        · simp only [lstep, h]; exact .inr (.inr (.inr ⟨c, rfl⟩))
  rcases key with h | ⟨n, h⟩ | h | ⟨c, h⟩ <;> rw [hd] at h <;> cases h
  · exact .inl rfl
  · exact .inr ⟨c, rfl⟩

/-! ## What does not hold -/

/-- **C95, violated**: files left over by an earlier controller are taken at once — also if the controller of this launcher has already ended, or has not yet started to write. -/
theorem stale_violated (t : Option Nat) (now : Nat) (g h : Gen) (st : Option Int) :
    (runL t ⟨now, .full g, .full h, st⟩ [.step, .step, .step]).pc = .done (.ok g h) := by
  simp [runL, stepL, lstep, File.there]

/-- and the two files may be from different controllers -/
theorem mixed_violated : (runL (some 60000) ⟨0, .full 0, .full 0, none⟩
    [.step, .step, .env (.openW 1 .client), .env (.close .client), .env (.openW 1 .engine), .env (.close .engine), .step]).pc = .done (.ok 0 1) := by decide

/-- **C95, violated**: a controller that takes longer than half a second to write a file makes the call fail, whatever the time limit. -/
theorem slow_writer_violated (t : Option Nat) (now d : Nat) (g : Gen) :
    (runL t ⟨now, .absent, .absent, none⟩ [.env (.openW g .client), .env (.close .client), .env (.openW g .engine), .step, .step, .step, .env (.tick d), .step, .step]).pc
      = .done .badJson := by
  simp [runL, stepL, lstep, env, World.put, World.get, File.there, World.wake]

/-- without a time limit, and with a controller that lives but never writes, the call does not end -/
theorem no_limit_waits (w : World) (evs : List Ev) (hm : ∀ pre, pre <+: evs → ∃ k, (runL none w pre).w.get k = .absent)
    (hl : ∀ pre, pre <+: evs → (runL none w pre).w.status = none) : (runL none w evs).pc = .check ∨ ∃ n, (runL none w evs).pc = .asleep n := by
  induction evs using snoc_induction with
  | h0 => exact .inl rfl
  | h1 evs e ih =>
    have hpre : evs <+: evs ++ [e] := List.prefix_append _ _
    have ih := ih (fun p hp => hm p (hp.trans hpre)) (fun p hp => hl p (hp.trans hpre))
    obtain ⟨k, hk⟩ := hm evs hpre
    have hs := hl evs hpre
    rw [runL_snoc]
    cases e with
    | env e => exact ih
    | step =>
      simp only [stepL, Option.map_none]
      rcases ih with h | ⟨n, h⟩
      · right
        have hc : ¬ ((runL none w evs).w.client.there = true ∧ (runL none w evs).w.engine.there = true) := by
          rintro ⟨h1, h2⟩
          cases k
          · have : (runL none w evs).w.client = .absent := hk
            rw [this] at h1; cases h1
          · have : (runL none w evs).w.engine = .absent := hk
            rw [this] at h2; cases h2
        exact ⟨(runL none w evs).w.now + 100, by simp only [lstep, h]; rw [if_neg hc]⟩
      · left
        simp only [lstep, h, hs]

/-! ## Engines and clients -/

theorem runS_snoc (who : Who) (w : World) (evs : List Ev) (e : Ev) : runS who w (evs ++ [e]) = stepS who (runS who w evs) e := by simp [runS]

/-- at some moment since it started -/
def SeenS (who : Who) (w : World) (evs : List Ev) (P : World → Prop) : Prop := ∃ pre, pre <+: evs ∧ P (runS who w pre).w

def Who.limit : Who → Nat
  | .engine l => l
  | .client l => l

/-- how long it has waited, at least -/
def SInv (who : Who) (w : World) (s : SSt) : Prop := w.now ≤ s.w.now ∧ match s.pc, who with
  | .wait a, .engine _ => a = w.now
  | .wait a, .client l => w.now + min a l ≤ s.w.now
  | _, _ => True

theorem sinv_run (who : Who) (w : World) (evs : List Ev) : SInv who w (runS who w evs) := by
  induction evs using snoc_induction with
  | h0 => cases who <;> simp [SInv, runS, startS]
  | h1 evs e ih =>
    rw [runS_snoc]
    generalize runS who w evs = s at ih
    obtain ⟨w', pc⟩ := s
    obtain ⟨h1, h2⟩ := ih
    cases e with
    | env e =>
      have hn := env_now w' e
      refine ⟨Nat.le_trans h1 hn, ?_⟩
      cases pc <;> cases who <;> simp only [stepS] at h2 ⊢
      · exact h2
      · omega
    | step =>
      cases pc with
      | wait a =>
        simp only [stepS, sstep]
        by_cases ht : (w'.get who.kind).there = true
        · rw [if_pos ht]; exact ⟨h1, by cases who <;> trivial⟩
        · rw [if_neg ht]
          cases who with
          | engine l =>
            simp only at h2 ⊢
            by_cases hl : w'.now - a ≥ l
            · rw [if_pos hl]; exact ⟨h1, trivial⟩
            · rw [if_neg hl]
              exact ⟨by simp only [wake_now] at *; omega, h2⟩
          | client l =>
            simp only at h2 ⊢
            by_cases hl : a ≥ l
            · rw [if_pos hl]; exact ⟨h1, trivial⟩
            · rw [if_neg hl]
              refine ⟨by simp only [wake_now] at *; omega, ?_⟩
              simp only [wake_now] at h1 h2 ⊢
              omega
      | load => simp only [stepS, sstep]; cases w'.get who.kind <;> exact ⟨h1, by cases who <;> trivial⟩
      | done o => exact ⟨h1, by cases who <;> trivial⟩

/-- **C95**: an engine or client that reads the file has read it whole; one that gives up has waited as long as it was told and did not find it. -/
theorem single_sound (who : Who) (w : World) (evs : List Ev) :
    (∀ g, (runS who w evs).pc = .done (.ok g) → SeenS who w evs (fun w => w.get who.kind = .full g)) ∧
    ((runS who w evs).pc = .done .missing → SeenS who w evs (fun w' => w'.get who.kind = .absent ∧ w.now + who.limit ≤ w'.now)) ∧
    ((runS who w evs).pc = .done .badJson → SeenS who w evs (fun w => (w.get who.kind).isPart)) := by
  induction evs using snoc_induction with
  | h0 => refine ⟨fun g h => ?_, fun h => ?_, fun h => ?_⟩ <;> (simp [runS, startS] at h)
  | h1 evs e ih =>
    have hpre : evs <+: evs ++ [e] := List.prefix_append _ _
    have up : ∀ P, SeenS who w evs P → SeenS who w (evs ++ [e]) P := fun P ⟨p, h1, h2⟩ => ⟨p, h1.trans hpre, h2⟩
    have hi := sinv_run who w evs
    have abs : ∀ f : File, ¬ f.there = true → f = .absent := by intro f; cases f <;> simp [File.there]
    cases e with
    | env e =>
      have hpc : (runS who w (evs ++ [.env e])).pc = (runS who w evs).pc := by rw [runS_snoc]; rfl
      rw [hpc]
      exact ⟨fun g h => up _ (ih.1 g h), fun h => up _ (ih.2.1 h), fun h => up _ (ih.2.2 h)⟩
    | step =>
      have hs : runS who w (evs ++ [.step]) = sstep who (runS who w evs) := by rw [runS_snoc]; rfl
      cases hpc : (runS who w evs).pc with
      | done o =>
        have : (runS who w (evs ++ [.step])).pc = (runS who w evs).pc := by rw [hs]; simp only [sstep, hpc]
        rw [this]
        exact ⟨fun g h => up _ (ih.1 g h), fun h => up _ (ih.2.1 h), fun h => up _ (ih.2.2 h)⟩
      | load =>
        cases hf : (runS who w evs).w.get who.kind with
        | full g' =>
          have : (runS who w (evs ++ [.step])).pc = .done (.ok g') := by rw [hs]; simp only [sstep, hpc, hf]
          rw [this]
          exact ⟨fun g h => (by cases h; exact ⟨evs, hpre, hf⟩), fun h => (by cases h), fun h => (by cases h)⟩
        | part g' t' =>
          have : (runS who w (evs ++ [.step])).pc = .done .badJson := by rw [hs]; simp only [sstep, hpc, hf]
          rw [this]
          exact ⟨fun g h => (by cases h), fun h => (by cases h), fun _ => ⟨evs, hpre, g', t', hf⟩⟩
        | absent =>
          have : (runS who w (evs ++ [.step])).pc = .done .notFound := by rw [hs]; simp only [sstep, hpc, hf]
          rw [this]
          exact ⟨fun g h => (by cases h), fun h => (by cases h), fun h => (by cases h)⟩
      | wait a =>
        obtain ⟨hi1, hi2⟩ := hi
        by_cases ht : ((runS who w evs).w.get who.kind).there = true
        · have : (runS who w (evs ++ [.step])).pc = .load := by rw [hs]; simp only [sstep, hpc]; rw [if_pos ht]
          rw [this]
          exact ⟨fun g h => (by cases h), fun h => (by cases h), fun h => (by cases h)⟩
        · cases who with
          | engine l =>
            rw [hpc] at hi2
            by_cases hl : (runS (.engine l) w evs).w.now - a ≥ l
            · have : (runS (.engine l) w (evs ++ [.step])).pc = .done .missing := by rw [hs]; simp only [sstep, hpc]; rw [if_neg ht, if_pos hl]
              rw [this]
              refine ⟨fun g h => (by cases h), fun _ => ⟨evs, hpre, abs _ ht, ?_⟩, fun h => (by cases h)⟩
              simp only [Who.limit] at *
              omega
            · have : (runS (.engine l) w (evs ++ [.step])).pc = .wait a := by rw [hs]; simp only [sstep, hpc]; rw [if_neg ht, if_neg hl]
              rw [this]
              exact ⟨fun g h => (by cases h), fun h => (by cases h), fun h => (by cases h)⟩
          | client l =>
            rw [hpc] at hi2
            by_cases hl : a ≥ l
            · have : (runS (.client l) w (evs ++ [.step])).pc = .done .missing := by rw [hs]; simp only [sstep, hpc]; rw [if_neg ht, if_pos hl]
              rw [this]
              refine ⟨fun g h => (by cases h), fun _ => ⟨evs, hpre, abs _ ht, ?_⟩, fun h => (by cases h)⟩
              simp only [Who.limit] at *
              omega
            · have : (runS (.client l) w (evs ++ [.step])).pc = .wait (a + 1000) := by rw [hs]; simp only [sstep, hpc]; rw [if_neg ht, if_neg hl]
              rw [this]
              exact ⟨fun g h => (by cases h), fun h => (by cases h), fun h => (by cases h)⟩

/-- **C95**: engines read the engine file, clients the client file. -/
theorem single_files (l : Nat) (w : World) (evs : List Ev) (g : Gen) :
    ((runS (.engine l) w evs).pc = .done (.ok g) → ∃ pre, pre <+: evs ∧ (runS (.engine l) w pre).w.engine = .full g) ∧
    ((runS (.client l) w evs).pc = .done (.ok g) → ∃ pre, pre <+: evs ∧ (runS (.client l) w pre).w.client = .full g) :=
  ⟨(single_sound (.engine l) w evs).1 g, (single_sound (.client l) w evs).1 g⟩

/-- what is left to do -/
def srank (who : Who) (s : SSt) : Nat := match s.pc, who with
  | .wait a, .engine l => (l - (s.w.now - a)) + 2
  | .wait a, .client l => (l - a) + 2
  | .load, _ => 1
  | .done _, _ => 0

/-- **C95**: it ends, after a number of steps that its limit bounds. -/
theorem single_ends (who : Who) (w : World) (evs : List Ev) (h : who.limit + 2 ≤ evs.count .step) : ∃ o, (runS who w evs).pc = .done o := by
  have key : ∀ evs, srank who (runS who w evs) ≤ (who.limit + 2) - evs.count .step := by
    intro evs
    induction evs using snoc_induction with
    | h0 => cases who <;> simp [srank, runS, startS, Who.limit]
    | h1 evs e ih =>
      rw [runS_snoc, List.count_append]
      have hi := sinv_run who w evs
      generalize runS who w evs = s at ih hi
      obtain ⟨w', pc⟩ := s
      cases e with
      | env e =>
        have hc : List.count Ev.step [Ev.env e] = 0 := rfl
        have hn := env_now w' e
        rw [hc]
        refine Nat.le_trans ?_ ih
        cases pc <;> cases who <;> simp only [stepS, srank] <;> omega
      | step =>
        have hc : List.count Ev.step [Ev.step] = 1 := rfl
        rw [hc]
        suffices hh : srank who (sstep who ⟨w', pc⟩) ≤ srank who ⟨w', pc⟩ - 1 by simp only [stepS]; omega
        cases pc with
        | done o => simp [sstep, srank]
        | load => simp only [sstep]; cases w'.get who.kind <;> simp [srank]
        | wait a =>
          simp only [sstep]
          by_cases ht : (w'.get who.kind).there = true
          · rw [if_pos ht]; cases who <;> simp only [srank] <;> omega
          · rw [if_neg ht]
            obtain ⟨hi1, hi2⟩ := hi
            cases who with
            | engine l =>
              simp only at hi2 hi1 ⊢
              by_cases hl : w'.now - a ≥ l
              · rw [if_pos hl]; simp only [srank]; omega
              · rw [if_neg hl]; simp only [srank, wake_now]; omega
            | client l =>
              simp only at hi2 hi1 ⊢
              by_cases hl : a ≥ l
              · rw [if_pos hl]; simp only [srank]; omega
              · rw [if_neg hl]; simp only [srank]; omega
  have := key evs
  cases hpc : (runS who w evs).pc with
  | done o => exact ⟨o, rfl⟩
  | load => simp only [srank, hpc] at this; omega
  | wait a => cases who <;> simp only [srank, hpc] at this <;> omega

/-- **C95, violated**: an engine or client that comes while the controller is writing the file fails, however long it was told to wait. -/
theorem single_partial_violated (who : Who) (w : World) (g : Gen) (t : Nat) (h : w.get who.kind = .part g t) : (runS who w [.step, .step]).pc = .done .badJson := by
  simp [runS, startS, stepS, sstep, h, File.there]

/-- **C95, violated**: and one that comes while there is a file of an earlier controller takes that. -/
theorem single_stale_violated (who : Who) (w : World) (g : Gen) (h : w.get who.kind = .full g) : (runS who w [.step, .step]).pc = .done (.ok g) := by
  simp [runS, startS, stepS, sstep, h, File.there]

/-! ## Non-trivial cases -/

/-- a controller that starts normally: the files appear after a while, one is being written when the launcher first looks -/
def ex : List Ev := [.step, .env (.tick 50), .step, .env (.openW 3 .client), .env (.tick 5), .env (.close .client), .env (.openW 3 .engine), .step, .step, .step, .env (.tick 20),
  .env (.close .engine), .step, .step]

example : (runL (some 60000) ⟨1000, .absent, .absent, none⟩ ex).pc = .done (.ok 3 3) ∧ (runL (some 60000) ⟨1000, .absent, .absent, none⟩ (ex.take 10)).pc = .enap 3 1605 := by decide

example : Only 3 ⟨1000, .absent, .absent, none⟩ ex := ⟨fun k => by cases k <;> exact .inl rfl, fun h k hm => by
  simp only [ex, List.mem_cons, List.not_mem_nil, or_false, reduceCtorEq, false_or, Ev.env.injEq, Env.openW.injEq] at hm
  rcases hm with ⟨rfl, -⟩ | ⟨rfl, -⟩ <;> rfl⟩

theorem prefix_take {α : Type} (p l : List α) (h : p <+: l) : ∃ n, n ≤ l.length ∧ p = l.take n := ⟨p.length, h.length_le, (List.prefix_iff_eq_take.1 h)⟩

theorem prefix_cases (P : List Ev → Prop) (h : ∀ n ∈ List.range (ex.length + 1), P (ex.take n)) (p : List Ev) (hp : p <+: ex) : P p := by
  obtain ⟨n, hn, rfl⟩ := prefix_take p ex hp
  exact h n (List.mem_range.2 (by omega))

/-- the case meets the hypotheses of `steady_ok_partial` -/
example : Steady (some 60000) ⟨1000, .absent, .absent, none⟩ ex := by
  refine ⟨fun pre g k hp => ?_, fun k hm => ?_, fun pre hp k g t' h => ?_, fun k g t' h => ?_, rfl, fun c hm => ?_⟩
  · have hl := hp.length_le
    have hget : ex[pre.length]? = some (.env (.openW g k)) := by
      obtain ⟨r, hr⟩ := hp
      rw [← hr]; simp
    have hpe : pre = ex.take pre.length := List.prefix_iff_eq_take.1 ((List.prefix_append _ _).trans hp)
    have hlt : pre.length < 14 := by simp [ex] at hl; omega
    rw [hpe]
    generalize pre.length = n at hget hlt
    match n, hlt with
    | 0, _ | 1, _ | 2, _ | 4, _ | 5, _ | 7, _ | 8, _ | 9, _ | 10, _ | 11, _ | 12, _ | 13, _ => simp [ex] at hget
    | 3, _ => simp [ex] at hget; obtain ⟨rfl, rfl⟩ := hget; decide
    | 6, _ => simp [ex] at hget; obtain ⟨rfl, rfl⟩ := hget; decide
  · simp [ex] at hm
  · revert h
    have : ∀ n ∈ List.range (ex.length + 1), ∀ k, match (runL (some 60000) ⟨1000, .absent, .absent, none⟩ (ex.take n)).w.get k with
        | .part _ t' => (runL (some 60000) ⟨1000, .absent, .absent, none⟩ (ex.take n)).w.now < t' + 500
        | _ => True := by
      intro n hn k
      have hlt : n < 15 := by simpa [ex] using List.mem_range.1 hn
      match n, hlt with
      | 0, _ | 1, _ | 2, _ | 3, _ | 4, _ | 5, _ | 6, _ | 7, _ | 8, _ | 9, _ | 10, _ | 11, _ | 12, _ | 13, _ | 14, _ => cases k <;> simp [ex, runL, stepL, lstep, env, World.put, World.get, World.wake, File.there]
    obtain ⟨n, hn, rfl⟩ := prefix_take pre ex hp
    intro h
    have := this n (List.mem_range.2 (by omega)) k
    rw [h] at this
    exact this
  · cases k <;> cases h
  · simp [ex] at hm

end IPP.ConnFiles
