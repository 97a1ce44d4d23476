import Verif.Cluster.AppEngines
/-!
# `ipcluster engines`, `--daemonize` and the exit code (property C86)
-/
namespace IPP.Ipcluster

/-- induction over the life of the process, for a statement about the state and all entries that are still to be run -/
theorem run_pending (cf : Conf) (K : App → List Cb → Prop)
    (hc : ∀ b d rest, b.ended = none → K b (d :: rest ++ b.queue) → K (callback cf b d) (rest ++ (callback cf b d).queue))
    (hd : ∀ b d q, b.ended.isSome → K b (d :: q) → K b q) (hq : ∀ b q l, K b q → K { b with queue := l } q) (he : ∀ b q, b.ended = none → b.flag = true → K b q → K { b with ended := some 0 } q)
    (h0 : K (init cf) [.callStart]) (h : List Ev) (hp : ∀ g e c, g ++ [e] <+: h → e.post cf = some c → K (run cf g) (run cf g).queue → K (run cf g) ((run cf g).queue ++ [c])) :
    K (run cf h) (run cf h).queue := by
  have fold : ∀ (l : List Cb) (b : App), K b (l ++ b.queue) → K (l.foldl (handle cf) b) (l.foldl (handle cf) b).queue := by
    intro l
    induction l with
    | nil => intro b hb; simpa using hb
    | cons d t ih =>
      intro b hb
      simp only [List.foldl_cons]
      apply ih
      cases hen : b.ended with
      | none =>
        rw [show handle cf b d = callback cf b d from by simp [handle, hen]]
        exact hc b d t hen hb
      | some n =>
        rw [show handle cf b d = b from by simp [handle, hen]]
        exact hd b d _ (by simp [hen]) hb
  have gen : ∀ n (g : List Ev), g.length = n → g <+: h → K (run cf g) (run cf g).queue := by
    intro n
    induction n with
    | zero =>
      intro g hl _
      have : g = [] := List.eq_nil_of_length_eq_zero hl
      subst this
      exact h0
    | succ n ih =>
      intro g hl hg
      have hne : g ≠ [] := by intro hx; subst hx; simp at hl
      have hdc := List.dropLast_concat_getLast hne
      generalize g.dropLast = g' at hdc
      generalize g.getLast hne = e at hdc
      subst hdc
      have hi := ih g' (by simp at hl; omega) ((List.prefix_append g' [e]).trans hg)
      rw [run_snoc, step_post]
      cases hpe : e.post cf with
      | some c => exact hq _ _ _ (hp g' e c hg hpe hi)
      | none =>
        simp only
        unfold iter
        split
        · exact hi
        · have := fold (run cf g').queue { (run cf g') with queue := [] } (by show K _ ((run cf g').queue ++ []); rw [List.append_nil]; exact hq _ _ _ hi)
          simp only
          split
          · exact this
          · rename_i hs
            split
            · rename_i hf
              exact he _ _ (by simpa using hs) hf this
            · exact this
  exact gen h.length h rfl (List.prefix_refl h)

/-- if the loop is about to be left, the next iteration is the last -/
theorem over_ends (cf : Conf) (g : List Ev) (ho : Over (run cf g) (run cf g).queue) : (run cf (g ++ [.iter])).ended.isSome := by
  rw [run_snoc]
  simp only [step]
  cases hn : (run cf g).ended with
  | some n => unfold iter; simp [hn]
  | none =>
    have hf := flag_off cf g hn
    have key : ∀ b d rest, b.ended = none → (b.ended.isSome ∨ b.flag = true ∨ Cb.loopStop ∈ d :: rest) → ((callback cf b d).ended.isSome ∨ (callback cf b d).flag = true ∨ Cb.loopStop ∈ rest) := by
      intro b d rest hb hk
      rcases hk with h | h | h
      · rw [hb] at h; cases h
      · exact .inr (.inl ((callback_keeps cf b d).2.1 h))
      · rcases List.mem_cons.1 h with h | h
        · subst h; exact .inr (.inl rfl)
        · exact .inr (.inr h)
    rcases iter_ind cf (fun b rest => b.ended.isSome ∨ b.flag = true ∨ Cb.loopStop ∈ rest) key (run cf g) ho hn with h | ⟨-, h1, h2⟩
    · exact h
    · rcases h2 with h | h | h
      · exact h
      · rw [h1] at h; cases h
      · cases h

/-- `loop.stop()`, once asked for, is not forgotten -/
theorem over_callback (cf : Conf) (b : App) (d : Cb) (rest : List Cb) (h : Over b (d :: rest ++ b.queue)) (hb : b.ended = none) : Over (callback cf b d) (rest ++ (callback cf b d).queue) := by
  rcases (callback_keeps cf b d).1 with ⟨l, hl⟩
  rcases h with h | h | h
  · rw [hb] at h; cases h
  · exact .inr (.inl ((callback_keeps cf b d).2.1 h))
  · simp only [List.cons_append, List.mem_cons, List.mem_append] at h
    rcases h with h | h | h
    · subst h; exact .inr (.inl rfl)
    · exact .inr (.inr (List.mem_append_left _ h))
    · exact .inr (.inr (List.mem_append_right _ (by rw [hl]; exact List.mem_append_left _ h)))

/-- **C86 (exit code)** The exit code is 0, or 1 if the engines of `ipcluster engines` could not be started. -/
theorem exit_code (cf : Conf) (h : List Ev) (n : Nat) (he : (run cf h).ended = some n) : n = 0 ∨ n = 1 ∧ cf.kind = .engines ∧ (run cf h).phase = .failed ∧ ∃ x y, .startDone false x y ∈ h := by
  have := (run_ind cf (fun a => ∀ n, a.ended = some n → n = 0 ∨ n = 1 ∧ cf.kind = .engines ∧ a.phase = .failed ∧ ∃ x y, Ev.startDone false x y ∈ h) (fun _ c => ∀ x y, c = .startDone false x y → .startDone false x y ∈ h) ?_ ?_ ?_ ?_ ?_ ?_ ?_ h ?_).1 n he
  · exact this
  · intro a c hn ha hj
    have same : ∀ b : App, b.ended = none → (∀ x ∈ b.queue, x ∈ a.queue ∨ ∀ p q, x ≠ .startDone false p q) → (∀ n, b.ended = some n → n = 0 ∨ n = 1 ∧ cf.kind = .engines ∧ b.phase = .failed ∧ ∃ x y, Ev.startDone false x y ∈ h) ∧
        (∀ x : Cb, (∀ p q, x = .startDone false p q → Ev.startDone false p q ∈ h) → ∀ p q, x = .startDone false p q → Ev.startDone false p q ∈ h) ∧
        (∀ x ∈ b.queue, x ∈ a.queue ∨ ∀ p q, x = .startDone false p q → Ev.startDone false p q ∈ h) :=
      fun b hb hq => ⟨fun n hx => (by rw [hb] at hx; cases hx), fun _ h => h, fun x hx => (hq x hx).imp id (fun hy p q hz => absurd hz (hy p q))⟩
    rcases callback_cases cf a c with ⟨-, e⟩ | ⟨-, e⟩ | ⟨-, hs, e⟩ | ⟨ok, -, hi, e⟩ | ⟨hc, e⟩ | ⟨-, -, e⟩ | ⟨-, e⟩ | ⟨x, y, hc, hx, e⟩ | ⟨hm, -⟩
    · rw [e]; exact same _ hn (fun x hx => by simp [App.push] at hx; rcases hx with hx | rfl <;> simp_all)
    · rw [e]; exact same _ hn (fun x hx => by simp [App.push] at hx; rcases hx with hx | rfl <;> simp_all)
    · rw [e]; exact same _ hn (fun x hx => .inl hx)
    · rw [e]
      cases ok
      · exact same _ hn (fun x hx => .inl hx)
      · exact same _ hn (fun x hx => by simp [App.push] at hx; rcases hx with hx | rfl <;> simp_all)
    · rw [e]; exact same _ hn (fun x hx => .inl hx)
    · rw [e]; exact same _ hn (fun x hx => .inl hx)
    · rw [e]; exact same _ hn (fun x hx => .inl hx)
    · rw [e]
      exact ⟨fun n hx' => .inr ⟨by simp at hx'; exact hx'.symm, hx, rfl, x, y, hj x y hc⟩, fun _ h => h, fun x hx => .inl hx⟩
    · refine same _ (hm.ended.trans hn) (fun x hx => ?_)
      rcases hm.queue with ⟨l, hl, hl1, hl2⟩
      rw [hl] at hx
      rcases List.mem_append.1 hx with hx | hx
      · exact .inl hx
      · rcases hl2 x hx with rfl | ⟨rfl, -⟩ <;> exact .inr (by simp)
  · exact fun _ _ h => h
  · exact fun a _ _ _ n hx => .inl (by simp at hx; exact hx.symm)
  · exact fun _ _ _ h => h
  · exact fun _ _ h => h
  · exact fun n hx => by simp [init] at hx
  · simp
  · intro g e c hg hc x y hx
    subst hx
    cases e <;> simp [Ev.post] at hc
    · split at hc <;> cases hc
    · rcases hc with ⟨rfl, rfl, rfl⟩; exact prefix_mem hg

/-- **C86 (`ipcluster engines` goes on)** `ipcluster engines` without `--daemonize` goes on until its engines stop or cannot be started: signals do not end it (they are passed on to the engines, `signals_relayed`). -/
theorem engines_goes_on (cf : Conf) (hk : cf.kind = .engines) (hd : cf.daemonize = false) (h : List Ev) (h1 : .enginesStop ∉ h) (h2 : ∀ x y, .startDone false x y ∉ h) : (run cf h).ended = none := by
  have := (run_ind cf (fun a => a.ended = none ∧ a.flag = false ∧ a.inStop = false ∧ a.ctlWatch = false ∧ a.enginesAfter = false)
    (fun _ x => x ≠ .callStop ∧ x ≠ .stop ∧ x ≠ .loopStop ∧ x ≠ .enginesStop ∧ ∀ p q, x ≠ .startDone false p q) ?_ ?_ ?_ ?_ ?_ ?_ ?_ h ?_).1
  · exact this.1
  · intro a c hn ha ⟨j1, j2, j3, j4, j5⟩
    rcases callback_cases cf a c with ⟨-, e⟩ | ⟨hc, e⟩ | ⟨hc, hs, e⟩ | ⟨ok, -, hi, e⟩ | ⟨hc, e⟩ | ⟨-, -, e⟩ | ⟨-, e⟩ | ⟨x, y, hc, hx, e⟩ | ⟨hm, -, -, -, -, hca, hea⟩
    · rw [e]; exact ⟨ha, fun _ h => h, fun x hx => by simp [App.push] at hx; rcases hx with hx | rfl <;> simp_all⟩
    · exact absurd hc j1
    · exact absurd hc j2
    · rw [ha.2.2.1] at hi; cases hi
    · exact absurd hc j3
    · rw [e]; exact ⟨ha, fun _ h => h, fun x hx => .inl hx⟩
    · rw [e]; exact ⟨ha, fun _ h => h, fun x hx => .inl hx⟩
    · exact absurd hc (j5 x y)
    · have e2 : (callback cf a c).enginesAfter = false := by
        cases hx : (callback cf a c).enginesAfter with
        | false => rfl
        | true => exact (hea hx).elim (fun hy => by rw [ha.2.2.2.2] at hy; cases hy) (fun hy => absurd hy j4)
      have e3 := hm.ctlw hk ha.2.2.2.1
      refine ⟨⟨hm.ended.trans hn, ?_, hm.inStop.trans ha.2.2.1, e3, e2⟩, fun _ h => h, fun x hx => ?_⟩
      · cases hf : (callback cf a c).flag with
        | false => rfl
        | true => exact (hm.flag' hf).elim (fun hy => by rw [ha.2.1] at hy; cases hy) (fun ⟨_, hx⟩ => by rw [e2] at hx; cases hx)
      · rcases hm.queue with ⟨l, hl, hl1, hl2⟩
        rw [hl] at hx
        rcases List.mem_append.1 hx with hx | hx
        · exact .inl hx
        · rcases hl2 x hx with rfl | ⟨-, -, ⟨-, hy⟩ | ⟨hy, -⟩⟩
          · rw [hd] at hl1; cases hl1 hx
          · rw [e3] at hy; cases hy
          · rw [e2] at hy; cases hy
  · exact fun _ _ h => h
  · exact fun a h hn hf => by rw [h.2.1] at hf; cases hf
  · exact fun _ _ _ h => h
  · exact fun _ _ h => h
  · exact ⟨rfl, rfl, rfl, rfl, rfl⟩
  · simp
  · intro g e c hg hc
    have hm := prefix_mem hg
    cases e <;> simp [Ev.post] at hc <;> subst hc
    · simp [hk]
    · exact ⟨by simp, by simp, by simp, by simp, fun p q hx => by cases hx; exact h2 _ _ hm⟩
    · simp
    · simp
    · exact absurd hm h1
    · simp

theorem relay_callback (cf : Conf) (hk : cf.kind = .engines) (b : App) (d : Cb) : (callback cf b d).relayed + (callback cf b d).queue.count .relay = b.relayed + b.queue.count .relay + (if d = .relay then 1 else 0) := by
  rcases callback_cases cf b d with ⟨hc, e⟩ | ⟨hc, e⟩ | ⟨hc, hs, e⟩ | ⟨ok, hc, hi, e⟩ | ⟨hc, e⟩ | ⟨hc, -, e⟩ | ⟨hc, e⟩ | ⟨x, y, hc, hx, e⟩ | ⟨hm, -⟩
  · rw [e, hc]; simp [App.push, List.count_append]
  · rw [e, hc]; simp [App.push, List.count_append]
  · rw [e, hc]; simp
  · rw [e, hc]; cases ok <;> simp [App.push, List.count_append]
  · rw [e, hc]; simp
  · rw [e, hc]; simp
  · rw [e, hc]; simp; omega
  · rw [e, hc]; simp
  · rcases hm.queue with ⟨l, hl, -, hl2⟩
    have hd : d ≠ .relay := by
      intro hx
      subst hx
      have := hm.relayed
      simp [callback] at this
    have : l.count .relay = 0 := by
      rw [List.count_eq_zero]
      intro hx
      rcases hl2 _ hx with h | ⟨h, -⟩ <;> cases h
    rw [hl, List.count_append, hm.relayed, this, if_neg hd]
    omega

/-- **C86 (signals)** `ipcluster engines` passes every SIGINT and SIGTERM on to its engines, exactly once, with the next iteration of its loop. -/
theorem signals_relayed (cf : Conf) (hk : cf.kind = .engines) (g : List Ev) (he : (run cf (g ++ [.iter])).ended = none) : (run cf (g ++ [.iter])).relayed = g.count .signal := by
  have inv : ∀ h : List Ev, (run cf h).ended = none → (run cf h).relayed + (run cf h).queue.count .relay = h.count .signal ∧ ∀ g e, h = g ++ [e] → e = .iter → (run cf h).queue.count .relay = 0 := by
    intro h
    induction hn : h.length generalizing h with
    | zero =>
      have : h = [] := List.eq_nil_of_length_eq_zero hn
      subst this
      intro _
      exact ⟨by simp [run, init], fun g e hx => by simp at hx⟩
    | succ n ih =>
      have hne : h ≠ [] := by intro hx; subst hx; simp at hn
      have hdc := List.dropLast_concat_getLast hne
      generalize h.dropLast = g at hdc
      generalize h.getLast hne = e at hdc
      subst hdc
      intro hen
      have hge : (run cf g).ended = none := by
        cases hx : (run cf g).ended with
        | none => rfl
        | some m =>
          have := ended_stays cf (run cf g) e (by simp [hx])
          rw [← run_snoc, hen] at this
          cases this
      have hi := (ih g (by simp at hn; omega) hge).1
      rw [run_snoc, step_post] at hen ⊢
      have hpost : e.post cf = some .relay ↔ e = .signal := by cases e <;> simp [Ev.post, hk]
      cases hp : e.post cf with
      | some c =>
        rw [hp] at hen
        have hne : e ≠ .iter := by rintro rfl; simp [Ev.post] at hp
        refine ⟨?_, fun g' e' hx hy => ?_⟩
        · simp only [App.push, List.count_append, ← Nat.add_assoc, hi]
          congr 1
          by_cases hs : e = .signal
          · have := hpost.2 hs
            rw [hp] at this
            cases this
            simp [hs]
          · have hc : c ≠ .relay := fun hx => hs (hpost.1 (hx ▸ hp))
            simp [List.count_singleton, hs, hc]
        · have := List.append_inj_right' hx rfl
          simp at this
          exact absurd (this.trans hy) hne
      | none =>
        have hei : e = .iter := by cases e <;> simp [Ev.post] at hp ⊢
        simp only [hp] at hen ⊢
        have key : ∀ b d rest, b.ended = none → (b.relayed + b.queue.count .relay + (d :: rest).count .relay = g.count .signal ∧ b.queue.count .relay = 0) →
            ((callback cf b d).relayed + (callback cf b d).queue.count .relay + rest.count .relay = g.count .signal ∧ (callback cf b d).queue.count .relay = 0) := by
          intro b d rest hb hkk
          have := relay_callback cf hk b d
          have hz : (callback cf b d).queue.count .relay = 0 := by
            rcases callback_cases cf b d with ⟨hc, e⟩ | ⟨hc, e⟩ | ⟨hc, hs, e⟩ | ⟨ok, hc, hi, e⟩ | ⟨hc, e⟩ | ⟨hc, -, e⟩ | ⟨hc, e⟩ | ⟨x, y, hc, hx, e⟩ | ⟨hm, -⟩
            · rw [e]; simp [App.push, List.count_append, hkk.2]
            · rw [e]; simp [App.push, List.count_append, hkk.2]
            · rw [e]; exact hkk.2
            · rw [e]; cases ok <;> simp [App.push, List.count_append, hkk.2]
            · rw [e]; exact hkk.2
            · rw [e]; exact hkk.2
            · rw [e]; exact hkk.2
            · rw [e]; exact hkk.2
            · rcases hm.queue with ⟨l, hl, -, hl2⟩
              have : l.count .relay = 0 := by
                rw [List.count_eq_zero]
                intro hx
                rcases hl2 _ hx with h | ⟨h, -⟩ <;> cases h
              rw [hl, List.count_append, this, hkk.2]
          refine ⟨?_, hz⟩
          have h1 := hkk.1
          rw [List.count_cons] at h1
          have hb : (if (d == Cb.relay) = true then 1 else 0) = (if d = .relay then 1 else 0) := by simp
          rw [hb] at h1
          omega
        rcases iter_ind cf (fun b rest => b.relayed + b.queue.count .relay + rest.count .relay = g.count .signal ∧ b.queue.count .relay = 0) key (run cf g) ⟨by simpa using hi, rfl⟩ hge with h | ⟨-, -, h⟩
        · rw [hen] at h; cases h
        · simp only [List.count_nil, Nat.add_zero] at h
          subst hei
          exact ⟨by simpa [List.count_append] using h.1, fun _ _ _ _ => h.2⟩
  have := inv _ he
  have h2 := this.2 g .iter rfl rfl
  have h1 := this.1
  rw [h2, List.count_append] at h1
  simpa using h1

/-- **C86 (`ipcluster engines` does not stop its cluster)** The loop of `ipcluster engines` never calls `stop_cluster`: `engines_stopped_early` asks for it, but ends the loop in the same breath.
(Its `Cluster` object is stopped at the exit of the process, by `atexit`, unless `daemonize`: cluster.py:53-72.) -/
theorem engines_never_stops (cf : Conf) (hk : cf.kind = .engines) (h : List Ev) : (run cf h).begun = 0 := by
  have cb : ∀ b d, b.begun = 0 → b.inStop = false → b.ctlWatch = false → d ≠ .callStop → d ≠ .stop → .stop ∉ b.queue → (.callStop ∈ b.queue → b.flag = true) →
      (callback cf b d).begun = 0 ∧ (callback cf b d).inStop = false ∧ (callback cf b d).ctlWatch = false ∧ .stop ∉ (callback cf b d).queue ∧ (.callStop ∈ (callback cf b d).queue → (callback cf b d).flag = true) := by
    intro b d h1 h2 h3 h4 h5 h6 h7
    rcases callback_cases cf b d with ⟨hc, e⟩ | ⟨hc, e⟩ | ⟨hc, hs, e⟩ | ⟨ok, hc, hi, e⟩ | ⟨hc, e⟩ | ⟨hc, -, e⟩ | ⟨hc, e⟩ | ⟨x, y, hc, hx, e⟩ | ⟨hm, -⟩
    · rw [e]; exact ⟨h1, h2, h3, by simpa [App.push] using h6, by simpa [App.push] using h7⟩
    · exact absurd hc h4
    · exact absurd hc h5
    · rw [h2] at hi; cases hi
    · rw [e]; exact ⟨h1, h2, h3, h6, fun _ => rfl⟩
    · rw [e]; exact ⟨h1, h2, h3, h6, h7⟩
    · rw [e]; exact ⟨h1, h2, h3, h6, h7⟩
    · rw [e]; exact ⟨h1, h2, h3, h6, h7⟩
    · refine ⟨hm.begun.trans h1, hm.inStop.trans h2, hm.ctlw hk h3, ?_, fun hx => ?_⟩
      · rcases hm.queue with ⟨l, hl, -, hl2⟩
        rw [hl]
        intro hx
        rcases List.mem_append.1 hx with hx | hx
        · exact h6 hx
        · rcases hl2 _ hx with h | ⟨h, -⟩ <;> cases h
      · exact (hm.stop_flag hk h3 hx).elim (fun hy => hm.flag (h7 hy)) id
  have fold : ∀ (l : List Cb) (b : App), .callStop ∉ l → .stop ∉ l → b.begun = 0 ∧ b.inStop = false ∧ b.ctlWatch = false ∧ .stop ∉ b.queue ∧ (.callStop ∈ b.queue → b.flag = true) →
      (l.foldl (handle cf) b).begun = 0 ∧ (l.foldl (handle cf) b).inStop = false ∧ (l.foldl (handle cf) b).ctlWatch = false ∧ .stop ∉ (l.foldl (handle cf) b).queue ∧ (.callStop ∈ (l.foldl (handle cf) b).queue → (l.foldl (handle cf) b).flag = true) := by
    intro l
    induction l with
    | nil => exact fun _ _ _ h => h
    | cons d t ih =>
      intro b k1 k2 hb
      simp only [List.foldl_cons]
      refine ih _ (fun hx => k1 (List.mem_cons_of_mem _ hx)) (fun hx => k2 (List.mem_cons_of_mem _ hx)) ?_
      unfold handle
      split
      · exact hb
      · exact cb b d hb.1 hb.2.1 hb.2.2.1 (fun hx => k1 (hx ▸ List.mem_cons_self ..)) (fun hx => k2 (hx ▸ List.mem_cons_self ..)) hb.2.2.2.1 hb.2.2.2.2
  have gen : ∀ n (h : List Ev), h.length = n → (run cf h).begun = 0 ∧ (run cf h).inStop = false ∧ (run cf h).ctlWatch = false ∧ .stop ∉ (run cf h).queue ∧ (.callStop ∈ (run cf h).queue → (run cf h).flag = true) := by
    intro n
    induction n with
    | zero =>
      intro h hl
      have : h = [] := List.eq_nil_of_length_eq_zero hl
      subst this
      exact ⟨rfl, rfl, rfl, by simp [run, init], by simp [run, init]⟩
    | succ n ih =>
      intro h hl
      have hne : h ≠ [] := by intro hx; subst hx; simp at hl
      have hdc := List.dropLast_concat_getLast hne
      generalize h.dropLast = g at hdc
      generalize h.getLast hne = e at hdc
      subst hdc
      have hi := ih g (by simp at hl; omega)
      rw [run_snoc, step_post]
      cases hp : e.post cf with
      | some c =>
        have hc : c ≠ .callStop ∧ c ≠ .stop := by cases e <;> simp [Ev.post, hk] at hp <;> subst hp <;> simp
        exact ⟨hi.1, hi.2.1, hi.2.2.1, by simpa [App.push] using ⟨hi.2.2.2.1, fun hx => hc.2 hx.symm⟩, fun hx => hi.2.2.2.2 (by simp [App.push] at hx; exact hx.resolve_right (fun hy => hc.1 hy.symm))⟩
      | none =>
        simp only
        unfold iter
        split
        · exact hi
        · rename_i hen
          have hf := flag_off cf g (by simpa using hen)
          have := fold (run cf g).queue { (run cf g) with queue := [] } (fun hx => by have := hi.2.2.2.2 hx; rw [hf] at this; cases this) hi.2.2.2.1 ⟨hi.1, hi.2.1, hi.2.2.1, by simp, by simp⟩
          simp only
          split
          · exact this
          · split <;> exact this
  exact (gen h.length h rfl).1

/-- what `ipcluster engines` knows of its engines -/
def Seen (cf : Conf) (a : App) (q : List Cb) : Prop := (a.phase = .ok → cf.daemonize = false → a.watch ≠ .no) ∧ (a.watch ≠ .no → a.enginesAfter = true → a.ended.isSome ∨ a.flag = true) ∧ (a.phase = .ok → cf.daemonize = true → Over a q)

theorem onEnginesStop_flag (cf : Conf) (hk : cf.kind = .engines) (a : App) (h : a.watch ≠ .no) : (onEnginesStop cf a).flag = true := by
  unfold onEnginesStop
  split
  · rename_i hw; exact absurd hw h
  · simp [enginesStopped, hk]
  · simp [enginesStoppedEarly, enginesStopped, hk]

theorem watchEngines_flag (cf : Conf) (hk : cf.kind = .engines) (a : App) (h : a.enginesAfter = true) : (watchEngines cf a).flag = true := by
  unfold watchEngines
  simp only
  split
  · exact onEnginesStop_flag cf hk _ (by simp)
  · exact onEnginesStop_flag cf hk _ (by simp)

theorem watchEngines_watch (cf : Conf) (a : App) : (watchEngines cf a).watch ≠ .no := by
  rw [(after_watchEngines cf a).2.2.2.2.1]; split <;> simp

theorem seen_run (cf : Conf) (hk : cf.kind = .engines) (h : List Ev) : Seen cf (run cf h) (run cf h).queue := by
  refine run_pending cf (Seen cf) ?_ ?_ (fun _ _ _ h => h) (fun b q _ _ h => ⟨h.1, fun _ _ => .inl rfl, fun _ _ => .inl rfl⟩) ⟨by simp [init], by simp [init], by simp [init]⟩ h (fun g e c _ _ hx => ?_)
  · intro b d rest hb hs
    have hf : b.ended.isSome ∨ b.flag = true → (callback cf b d).ended.isSome ∨ (callback cf b d).flag = true := by
      rintro (h | h)
      · rw [hb] at h; cases h
      · exact .inr ((callback_keeps cf b d).2.1 h)
    have ho := fun hx => over_callback cf b d rest hx hb
    have hsame : (callback cf b d).phase = b.phase ∨ d = .start → (callback cf b d).watch = b.watch → (callback cf b d).enginesAfter = b.enginesAfter → Seen cf (callback cf b d) (rest ++ (callback cf b d).queue) := by
      intro h1 h2 h3
      refine ⟨fun x y => ?_, fun x y => hf (hs.2.1 (h2 ▸ x) (h3 ▸ y)), fun x y => ?_⟩
      · rcases h1 with h1 | rfl
        · rw [h2]; exact hs.1 (h1 ▸ x) y
        · simp [callback] at x
      · rcases h1 with h1 | rfl
        · exact ho (hs.2.2 (h1 ▸ x) y)
        · simp [callback] at x
    cases d with
    | callStart => exact hsame (.inl rfl) rfl rfl
    | start => exact hsame (.inr rfl) rfl rfl
    | callStop => exact hsame (.inl rfl) rfl rfl
    | loopStop => exact hsame (.inl rfl) rfl rfl
    | relay => exact hsame (.inl rfl) rfl rfl
    | stop => apply hsame <;> (simp only [callback]; split <;> first | rfl | exact .inl rfl)
    | stopDone ok => apply hsame <;> (simp only [callback]; split <;> first | rfl | exact .inl rfl | (split <;> first | rfl | exact .inl rfl))
    | timer => apply hsame <;> (simp only [callback]; split <;> first | rfl | exact .inl rfl)
    | controllerStop =>
      have := watch_callback cf b .controllerStop (by simp)
      refine hsame (phase_callback cf b .controllerStop (by simp)) this.1 ?_
      simp only [callback]
      split
      · rfl
      · split
        · exact (after_controllerStopped { b with ctlAfter := true }).1
        · rfl
    | enginesStop =>
      by_cases he : b.enginesAfter = true
      · have e : callback cf b .enginesStop = b := by simp [callback, he]
        rw [e] at hsame ⊢
        exact hsame (.inl rfl) rfl rfl
      · have e : callback cf b .enginesStop = onEnginesStop cf { b with enginesAfter := true } := by simp [callback, he]
        have ha := after_onEnginesStop cf { b with enginesAfter := true }
        rw [e] at ho ⊢
        refine ⟨fun x y => ?_, fun x _ => ?_, fun x y => ?_⟩
        · rw [ha.2.2.2.2.1]; exact hs.1 (ha.2.2.2.1 ▸ x) y
        · exact .inr (onEnginesStop_flag cf hk _ (by rw [ha.2.2.2.2.1] at x; exact x))
        · exact ho (hs.2.2 (ha.2.2.2.1 ▸ x) y)
    | startDone ok x y =>
      by_cases hp : b.phase = .running
      · cases ok with
        | false =>
          have e : callback cf b (.startDone false x y) = { b with phase := .failed, ended := some 1 } := by simp [callback, hp, hk]
          rw [e]
          exact ⟨fun h => (by cases h), fun _ _ => .inl rfl, fun _ _ => .inl rfl⟩
        | true =>
          have e : callback cf b (.startDone true x y) = afterStartEngines cf y b := by simp [callback, hp, hk]
          rw [e] at ho hf ⊢
          unfold afterStartEngines at ho hf ⊢
          by_cases hd : cf.daemonize = true
          · rw [if_pos hd] at ho hf ⊢
            exact ⟨fun _ h => (by rw [hd] at h; cases h), fun h1 h2 => hf (hs.2.1 h1 h2), fun _ _ => .inr (.inr (List.mem_append_right _ (by simp [App.push])))⟩
          · rw [if_neg hd] at ho hf ⊢
            by_cases hy : y = true
            · rw [if_pos hy] at ho hf ⊢
              refine ⟨fun _ _ => watchEngines_watch cf _, fun _ h2 => ?_, fun _ h => absurd h hd⟩
              rw [(after_watchEngines cf _).1] at h2
              exact .inr (watchEngines_flag cf hk _ h2)
            · rw [if_neg hy] at ho hf ⊢
              exact ⟨fun h => (by cases h), fun h1 h2 => hf (hs.2.1 h1 h2), fun h => (by cases h)⟩
      · have e : callback cf b (.startDone ok x y) = b := by simp [callback, hp]
        rw [e] at hsame ⊢
        exact hsame (.inl rfl) rfl rfl
  · exact fun b d q he hs => ⟨hs.1, hs.2.1, fun _ _ => .inl he⟩
  · exact ⟨hx.1, hx.2.1, fun h1 h2 => Over.mono (fun _ h => List.mem_append_left _ h) (hx.2.2 h1 h2)⟩

/-- an ended process has ended, whatever comes -/
theorem ended_run (cf : Conf) (g : List Ev) : ∀ l : List Ev, (run cf g).ended.isSome → (run cf (g ++ l)).ended.isSome := by
  intro l
  induction l generalizing g with
  | nil => intro h; simpa using h
  | cons e t ih =>
    intro h
    have : g ++ e :: t = (g ++ [e]) ++ t := by simp
    rw [this]
    exact ih _ (by rw [run_snoc]; exact ended_stays cf _ e h)

/-- **C86 (the engines stop)** When `start_engines` has completed and the engines have stopped — before or after that —, `ipcluster engines` has ended. -/
theorem engines_stop_ends (cf : Conf) (hk : cf.kind = .engines) (hd : cf.daemonize = false) (g : List Ev) (hp : (run cf g).phase = .ok) (ha : (run cf g).enginesAfter = true) : (run cf g).ended.isSome := by
  have hs := seen_run cf hk g
  rcases hs.2.1 (hs.1 hp hd) ha with h | h
  · exact h
  · cases he : (run cf g).ended with
    | some => rfl
    | none => rw [flag_off cf g he] at h; cases h

theorem watch_stays (cf : Conf) (hk : cf.kind = .engines) (b : App) (d : Cb) (h : b.watch ≠ .no) : (callback cf b d).watch ≠ .no := by
  by_cases hc : ∃ ok x y, d = .startDone ok x y
  · rcases hc with ⟨ok, x, y, rfl⟩
    simp only [callback, hk]
    split
    · cases ok
      · exact h
      · simp only [afterStartEngines]
        split
        · exact h
        · split
          · exact watchEngines_watch cf _
          · exact h
    · exact h
  · rw [(watch_callback cf b d (fun ok x y hx => hc ⟨ok, x, y, hx⟩)).1]; exact h

/-- **C86 (the engines stop)** `ipcluster engines` ends with the next iteration when the engines stop after `start_engines` has completed. -/
theorem engines_notice_ends (cf : Conf) (hk : cf.kind = .engines) (hd : cf.daemonize = false) (g l : List Ev) (hp : (run cf g).phase = .ok) (hl : .iter ∈ l) : (run cf (g ++ .enginesStop :: l)).ended.isSome := by
  have main : ∀ (l g : List Ev), (run cf g).watch ≠ .no → ((run cf g).enginesAfter = true ∨ .enginesStop ∈ (run cf g).queue) → .iter ∈ l → (run cf (g ++ l)).ended.isSome := by
    intro l
    induction l with
    | nil => intro _ _ _ h; cases h
    | cons e t ih =>
      intro g h1 h2 h3
      have e' : g ++ e :: t = (g ++ [e]) ++ t := by simp
      rw [e']
      cases hp' : e.post cf with
      | some c =>
        have hne : e ≠ .iter := by rintro rfl; simp [Ev.post] at hp'
        have hi : .iter ∈ t := (List.mem_cons.1 h3).resolve_left (fun h => hne h.symm)
        have er : run cf (g ++ [e]) = (run cf g).push c := by rw [run_snoc, step_post, hp']
        exact ih _ (by rw [er]; exact h1) (by rw [er]; exact h2.imp id (List.mem_append_left _)) hi
      | none =>
        have he : e = .iter := by cases e <;> simp [Ev.post] at hp' ⊢
        subst he
        apply ended_run
        cases hen : (run cf g).ended with
        | some n => exact ended_run cf g [.iter] (by simp [hen])
        | none =>
          have key : ∀ b d rest, b.ended = none → (b.watch ≠ .no ∧ (b.enginesAfter = true ∨ Cb.enginesStop ∈ d :: rest)) → ((callback cf b d).watch ≠ .no ∧ ((callback cf b d).enginesAfter = true ∨ Cb.enginesStop ∈ rest)) := by
            intro b d rest _ ⟨k1, k2⟩
            refine ⟨watch_stays cf hk b d k1, ?_⟩
            have hkeep : b.enginesAfter = true → (callback cf b d).enginesAfter = true := by
              intro ha
              cases d with
              | startDone ok x y =>
                simp only [callback, hk]
                split
                · cases ok
                  · exact ha
                  · exact (mild_afterStartEngines cf y b).2.1.trans ha
                · exact ha
              | enginesStop => simp [callback, ha]
              | controllerStop =>
                simp only [callback]
                split
                · exact ha
                · split
                  · exact (after_controllerStopped { b with ctlAfter := true }).1.trans ha
                  · exact ha
              | stop => simp only [callback]; split <;> exact ha
              | stopDone ok => simp only [callback]; split <;> first | exact ha | (split <;> exact ha)
              | timer => simp only [callback]; split <;> exact ha
              | _ => exact ha
            rcases k2 with k2 | k2
            · exact .inl (hkeep k2)
            · rcases List.mem_cons.1 k2 with rfl | k2
              · left
                by_cases ha : b.enginesAfter = true
                · exact hkeep ha
                · simp only [callback, ha, Bool.false_eq_true, if_false]
                  exact (after_onEnginesStop cf _).1
              · exact .inr k2
          have er : run cf (g ++ [.iter]) = iter cf (run cf g) := by rw [run_snoc]; rfl
          rcases iter_ind cf (fun b rest => b.watch ≠ .no ∧ (b.enginesAfter = true ∨ Cb.enginesStop ∈ rest)) key (run cf g) ⟨h1, h2⟩ hen with h | ⟨h, h', h''⟩
          · rw [er]; exact h
          · have hs := seen_run cf hk (g ++ [.iter])
            rw [er] at hs ⊢
            rcases hs.2.1 h''.1 (h''.2.resolve_right (by simp)) with hx | hx
            · exact hx
            · rw [h'] at hx; cases hx
  have hs := seen_run cf hk g
  have e' : g ++ .enginesStop :: l = (g ++ [.enginesStop]) ++ l := by simp
  rw [e']
  have er : run cf (g ++ [.enginesStop]) = (run cf g).push .enginesStop := by rw [run_snoc]; rfl
  exact main l _ (by rw [er]; exact hs.1 hp hd) (by rw [er]; exact .inr (by simp [App.push])) hl

/-- `--daemonize`: `loop.stop()` has been asked for -/
theorem daemonize_over (cf : Conf) (hd : cf.daemonize = true) (h : List Ev) (hp : (run cf h).phase = .ok) : Over (run cf h) (run cf h).queue := by
  cases hk : cf.kind with
  | engines => exact (seen_run cf hk h).2.2 hp hd
  | start =>
    have := run_pending cf (fun a q => a.phase = .ok → Over a q) ?_ (fun b d q he hs hp => .inl he) (fun _ _ _ h => h) (fun b q _ _ _ _ => .inl rfl) (fun hx => by simp [init] at hx) h
      (fun g e c _ _ hx hp => Over.mono (fun _ h => List.mem_append_left _ h) (hx hp))
    · exact this hp
    · intro b d rest hb hs hp
      by_cases hc : ∃ ok x y, d = .startDone ok x y
      · rcases hc with ⟨ok, x, y, rfl⟩
        by_cases hr : b.phase = .running
        · cases ok with
          | false => simp [callback, hr, hk] at hp
          | true =>
            have e : callback cf b (.startDone true x y) = afterStart cf x y b := by simp [callback, hr, hk]
            have hm := (mild_afterStart cf x y b hk).1
            have hq : Cb.loopStop ∈ (afterStart cf x y b).queue := by
              unfold afterStart
              simp only [hd, if_true]
              have hb' : Cb.loopStop ∈ (b.push .loopStop).queue := by simp [App.push]
              have hcs : ∀ a : App, Cb.loopStop ∈ a.queue → Cb.loopStop ∈ (controllerStopped a).queue := by
                intro a ha
                unfold controllerStopped
                split
                · exact ha
                · exact List.mem_append_left _ ha
              cases x with
              | false => exact hb'
              | true =>
                simp only [if_true]
                have hc' : Cb.loopStop ∈ (if (b.push .loopStop).ctlAfter = true then controllerStopped { (b.push .loopStop) with ctlWatch := true } else { (b.push .loopStop) with ctlWatch := true }).queue := by
                  split
                  · exact hcs _ hb'
                  · exact hb'
                cases y with
                | false => exact hc'
                | true =>
                  simp only [if_true]
                  rcases (mild_watchEngines cf { (if (b.push .loopStop).ctlAfter = true then controllerStopped { (b.push .loopStop) with ctlWatch := true } else { (b.push .loopStop) with ctlWatch := true }) with phase := .ok }).queue with ⟨l, hl, -⟩
                  rw [hl]
                  exact List.mem_append_left _ hc'
            rw [e]
            exact .inr (.inr (List.mem_append_right _ hq))
        · have e : callback cf b (.startDone ok x y) = b := by simp [callback, hr]
          exact over_callback cf b _ rest (hs (by rw [e] at hp; exact hp)) hb
      · rcases phase_callback cf b d (fun ok x y hx => hc ⟨ok, x, y, hx⟩) with h | rfl
        · exact over_callback cf b d rest (hs (h ▸ hp)) hb
        · simp [callback] at hp

/-- the process ends with the next iteration -/
theorem over_run (cf : Conf) : ∀ (l g : List Ev), Over (run cf g) (run cf g).queue → .iter ∈ l → (run cf (g ++ l)).ended.isSome := by
  intro l
  induction l with
  | nil => intro _ _ h; cases h
  | cons e t ih =>
    intro g h1 h3
    have e' : g ++ e :: t = (g ++ [e]) ++ t := by simp
    rw [e']
    cases hp' : e.post cf with
    | some c =>
      have hne : e ≠ .iter := by rintro rfl; simp [Ev.post] at hp'
      have er : run cf (g ++ [e]) = (run cf g).push c := by rw [run_snoc, step_post, hp']
      exact ih _ (by rw [er]; exact Over.mono (a := run cf g) (fun _ hx => List.mem_append_left _ hx) h1) ((List.mem_cons.1 h3).resolve_left (fun h => hne h.symm))
    | none =>
      have he : e = .iter := by cases e <;> simp [Ev.post] at hp' ⊢
      subst he
      exact ended_run cf _ t (over_ends cf g h1)

/-- **C86 (daemonize)** With `--daemonize`, both commands exit with the iteration after the one in which the cluster (the engines) has been started, and the exit code is 0. -/
theorem daemonize_ends (cf : Conf) (hd : cf.daemonize = true) (g l : List Ev) (hp : (run cf g).phase = .ok) (hl : .iter ∈ l) (hf : ∀ x y, .startDone false x y ∉ g ++ l) : (run cf (g ++ l)).ended = some 0 := by
  have := over_run cf l g (daemonize_over cf hd g hp) hl
  cases he : (run cf (g ++ l)).ended with
  | none => rw [he] at this; cases this
  | some n =>
    rcases exit_code cf _ n he with rfl | ⟨-, -, -, x, y, hx⟩
    · rfl
    · exact absurd hx (hf x y)

/-! ### Concrete lives -/

/-- the start of either command -/
def began : List Ev := [.iter, .iter, .startDone true true true, .iter]

/-- the hypotheses of the theorems above are met: the cluster has been started -/
example : (run ⟨.start, false, true⟩ began).phase = .ok ∧ (run ⟨.engines, false, true⟩ began).phase = .ok ∧ (run ⟨.start, true, true⟩ began).phase = .ok ∧ (run ⟨.start, false, true⟩ began).early = true ∧
    (run ⟨.start, false, true⟩ (began ++ [.controllerStop, .iter])).ctlAfter = true ∧ (run ⟨.start, false, true⟩ (began ++ [.enginesStop, .iter])).enginesAfter = true := by decide

/-- a signal: two iterations, the stop, two iterations -/
example : Ending [.iter, .iter, .stopDone true, .iter, .iter] := ⟨[], [], [], [], [], [], rfl⟩
example : (run ⟨.start, false, true⟩ (began ++ [.signal, .iter, .iter, .stopDone true, .iter, .iter])).ended = some 0 ∧ (run ⟨.start, false, true⟩ (began ++ [.signal, .iter, .iter, .stopDone true, .iter, .iter])).begun = 1 := by decide

/-- the same after a failed stop: two more signals change nothing -/
example : (run ⟨.start, false, true⟩ (began ++ [.signal, .iter, .iter, .stopDone false, .iter, .signal, .iter, .iter, .iter, .signal, .iter, .iter, .iter])).ended = none := by decide

/-- engines that stop after the `early_shutdown` time leave `ipcluster start` running; before, they end it -/
example : (run ⟨.start, false, true⟩ (began ++ [.timer, .iter, .enginesStop, .iter, .iter, .iter])).begun = 0 ∧ (run ⟨.start, false, true⟩ (began ++ [.enginesStop, .iter, .iter, .iter])).begun = 1 := by decide

/-- `ipcluster engines`: two signals are relayed, then the engines stop -/
example : (run ⟨.engines, false, true⟩ (began ++ [.signal, .signal, .iter])).relayed = 2 ∧ (run ⟨.engines, false, true⟩ (began ++ [.signal, .signal, .iter])).ended = none ∧
    (run ⟨.engines, false, true⟩ (began ++ [.signal, .signal, .iter, .enginesStop, .iter])).ended = some 0 ∧ (run ⟨.engines, false, true⟩ [.iter, .iter, .startDone false true true, .iter]).ended = some 1 := by decide

/-- `--daemonize` -/
example : (run ⟨.start, true, true⟩ (began ++ [.iter])).ended = some 0 ∧ (run ⟨.start, true, true⟩ (began ++ [.iter])).begun = 0 ∧ (run ⟨.engines, true, true⟩ (began ++ [.iter])).ended = some 0 := by decide

end IPP.Ipcluster
