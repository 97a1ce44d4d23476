import Verif.Cluster.AppMain
/-!
# `ipcluster start` and `ipcluster engines`: the process does end (property C86), and what `ipcluster engines` does
-/
namespace IPP.Ipcluster

/-- what a callback leaves in place -/
theorem callback_keeps (cf : Conf) (a : App) (c : Cb) : (∃ l, (callback cf a c).queue = a.queue ++ l) ∧ (a.flag = true → (callback cf a c).flag = true) ∧ (a.stopping = true → (callback cf a c).stopping = true) := by
  rcases callback_cases cf a c with ⟨-, e⟩ | ⟨-, e⟩ | ⟨-, hs, e⟩ | ⟨ok, -, hi, e⟩ | ⟨hc, e⟩ | ⟨-, -, e⟩ | ⟨-, e⟩ | ⟨x, y, -, hx, e⟩ | ⟨hm, -⟩
  · rw [e]; exact ⟨⟨_, rfl⟩, id, id⟩
  · rw [e]; exact ⟨⟨_, rfl⟩, id, id⟩
  · rw [e]; exact ⟨⟨[], by simp⟩, id, fun _ => rfl⟩
  · rw [e]
    cases ok
    · exact ⟨⟨[], by simp⟩, id, id⟩
    · exact ⟨⟨[.loopStop], rfl⟩, id, id⟩
  · rw [e]; exact ⟨⟨[], by simp⟩, fun _ => rfl, id⟩
  · rw [e]; exact ⟨⟨[], by simp⟩, id, id⟩
  · rw [e]; exact ⟨⟨[], by simp⟩, id, id⟩
  · rw [e]; exact ⟨⟨[], by simp⟩, id, id⟩
  · rcases hm.queue with ⟨l, hl, -⟩
    exact ⟨⟨l, hl⟩, hm.flag, fun h => hm.stopping.trans h⟩

/-- induction over the entries of one iteration: `K b rest` speaks of the state and of the entries that are still to be run -/
theorem iter_ind (cf : Conf) (K : App → List Cb → Prop) (hK : ∀ b d rest, b.ended = none → K b (d :: rest) → K (callback cf b d) rest) (a : App) (h0 : K { a with queue := [] } a.queue) (hn : a.ended = none) :
    (iter cf a).ended.isSome ∨ ((iter cf a).ended = none ∧ (iter cf a).flag = false ∧ K (iter cf a) []) := by
  have gen : ∀ (l : List Cb) (b : App), K b l → (l.foldl (handle cf) b).ended.isSome ∨ ((l.foldl (handle cf) b).ended = none ∧ K (l.foldl (handle cf) b) []) := by
    intro l
    induction l with
    | nil =>
      intro b hb
      cases he : b.ended with
      | none => exact .inr ⟨by simpa using he, hb⟩
      | some => exact .inl (by simp [he])
    | cons d t ih =>
      intro b hb
      simp only [List.foldl_cons]
      cases he : b.ended with
      | some n =>
        have : ∀ (l : List Cb), l.foldl (handle cf) b = b := by
          intro l
          induction l with
          | nil => rfl
          | cons x t ih' => simp only [List.foldl_cons]; rw [show handle cf b x = b from by simp [handle, he]]; exact ih'
        left
        rw [show handle cf b d = b from by simp [handle, he], this]
        simp [he]
      | none =>
        rw [show handle cf b d = callback cf b d from by simp [handle, he]]
        exact ih _ (hK b d t he hb)
  have := gen a.queue { a with queue := [] } h0
  unfold iter
  rw [if_neg (by simp [hn])]
  simp only
  rcases this with h | ⟨h1, h2⟩
  · left; rw [if_pos h]; exact h
  · rw [if_neg (by simp [h1])]
    split
    · exact .inl rfl
    · rename_i hf
      exact .inr ⟨h1, by simpa using hf, h2⟩

/-- outside of an iteration, `loop.stop()` has not been called or the process is over -/
theorem flag_off (cf : Conf) (h : List Ev) : (run cf h).ended = none → (run cf h).flag = false := by
  have gen : ∀ (h : List Ev) (a : App), (a.ended = none → a.flag = false) → ((h.foldl (step cf) a).ended = none → (h.foldl (step cf) a).flag = false) := by
    intro h
    induction h with
    | nil => intro a ha; exact ha
    | cons e t ih =>
      intro a ha
      apply ih
      rw [step_post]
      cases e.post cf with
      | some c => exact ha
      | none =>
        simp only
        unfold iter
        split
        · exact ha
        · simp only
          split
          · rename_i hs; intro hx; rw [hx] at hs; simp at hs
          · split
            · intro hx; cases hx
            · rename_i hf; intro _; simpa using hf
  exact gen h _ (fun _ => rfl)

/-- the process, once over, stays so -/
theorem ended_stays (cf : Conf) (a : App) (e : Ev) (h : a.ended.isSome) : (step cf a e).ended.isSome := by
  rw [step_post]
  cases e.post cf with
  | some c => exact h
  | none => simp only; unfold iter; rw [if_pos h]; exact h

/-! ### towards the end, stage by stage -/

/-- the loop is about to be left; `q`: the entries that are still to be run -/
def Over (a : App) (q : List Cb) : Prop := a.ended.isSome ∨ a.flag = true ∨ .loopStop ∈ q
/-- … or the cluster is being stopped -/
def InStop (a : App) (q : List Cb) : Prop := Over a q ∨ a.inStop = true
/-- … or about to be stopped -/
def Soon (a : App) (q : List Cb) : Prop := InStop a q ∨ .stop ∈ q
/-- … or that has been asked for -/
def Asked (a : App) (q : List Cb) : Prop := Soon a q ∨ .callStop ∈ q

/-- if no stop fails, a stop that has begun goes on to the end of the process -/
def Sane (a : App) (q : List Cb) : Prop := (a.stopping = true → InStop a q) ∧ .stopDone false ∉ q

theorem Over.mono {a : App} {q q' : List Cb} (h : ∀ x ∈ q, x ∈ q') : Over a q → Over a q' := Or.imp id (Or.imp id (h _))
theorem InStop.mono {a : App} {q q' : List Cb} (h : ∀ x ∈ q, x ∈ q') : InStop a q → InStop a q' := Or.imp (Over.mono h) id
theorem Soon.mono {a : App} {q q' : List Cb} (h : ∀ x ∈ q, x ∈ q') : Soon a q → Soon a q' := Or.imp (InStop.mono h) (h _)
theorem Asked.mono {a : App} {q q' : List Cb} (h : ∀ x ∈ q, x ∈ q') : Asked a q → Asked a q' := Or.imp (Soon.mono h) (h _)

theorem callback_fine (cf : Conf) (a : App) (c : Cb) : .stopDone false ∈ (callback cf a c).queue → .stopDone false ∈ a.queue := by
  rcases callback_cases cf a c with ⟨-, e⟩ | ⟨-, e⟩ | ⟨-, hs, e⟩ | ⟨ok, -, hi, e⟩ | ⟨hc, e⟩ | ⟨-, -, e⟩ | ⟨-, e⟩ | ⟨x, y, -, hx, e⟩ | ⟨hm, -⟩
  · rw [e]; simp [App.push]
  · rw [e]; simp [App.push]
  · rw [e]; exact id
  · rw [e]; cases ok <;> simp [App.push]
  · rw [e]; exact id
  · rw [e]; exact id
  · rw [e]; exact id
  · rw [e]; exact id
  · rcases hm.queue with ⟨l, hl, -, h2⟩
    rw [hl]
    intro hx
    rcases List.mem_append.1 hx with hx | hx
    · exact hx
    · rcases h2 _ hx with h | ⟨h, -⟩ <;> cases h

/-- one entry is run: no stage is lost -/
theorem callback_stages (cf : Conf) (b : App) (d : Cb) (rest : List Cb) (hn : b.ended = none) (hs : Sane b (d :: rest ++ b.queue)) :
    (Over b (d :: rest ++ b.queue) → Over (callback cf b d) (rest ++ (callback cf b d).queue)) ∧ (InStop b (d :: rest ++ b.queue) → InStop (callback cf b d) (rest ++ (callback cf b d).queue)) ∧
    (Soon b (d :: rest ++ b.queue) → Soon (callback cf b d) (rest ++ (callback cf b d).queue)) ∧ (Asked b (d :: rest ++ b.queue) → Asked (callback cf b d) (rest ++ (callback cf b d).queue)) ∧
    Sane (callback cf b d) (rest ++ (callback cf b d).queue) := by
  have hf : d ≠ .stopDone false := fun h => hs.2 (by simp [h])
  rcases (callback_keeps cf b d).1 with ⟨l, hl⟩
  have k1 : ∀ x, x ∈ d :: rest ++ b.queue → x = d ∨ x ∈ rest ++ (callback cf b d).queue := by
    intro x hx
    rw [hl]
    simp only [List.cons_append, List.mem_cons, List.mem_append] at hx ⊢
    rcases hx with h | h | h
    · exact .inl h
    · exact .inr (.inl h)
    · exact .inr (.inr (.inl h))
  have h1 : Over b (d :: rest ++ b.queue) → Over (callback cf b d) (rest ++ (callback cf b d).queue) := by
    rintro (h | h | h)
    · rw [hn] at h; cases h
    · exact .inr (.inl ((callback_keeps cf b d).2.1 h))
    · rcases k1 _ h with rfl | h
      · exact .inr (.inl rfl)
      · exact .inr (.inr h)
  have hi : b.inStop = true → InStop (callback cf b d) (rest ++ (callback cf b d).queue) := by
    intro hi
    rcases callback_cases cf b d with ⟨-, e⟩ | ⟨-, e⟩ | ⟨-, hs, e⟩ | ⟨ok, hc, _, e⟩ | ⟨hc, e⟩ | ⟨-, -, e⟩ | ⟨-, e⟩ | ⟨x, y, -, hx, e⟩ | ⟨hm, -⟩
    · rw [e]; exact .inr hi
    · rw [e]; exact .inr hi
    · rw [e]; exact .inr rfl
    · cases ok
      · exact absurd hc hf
      · rw [e]; exact .inl (.inr (.inr (by simp [App.push])))
    · rw [e]; exact .inl (.inr (.inl rfl))
    · rw [e]; exact .inr hi
    · rw [e]; exact .inr hi
    · rw [e]; exact .inl (.inl rfl)
    · exact .inr (hm.inStop.trans hi)
  have h2 : InStop b (d :: rest ++ b.queue) → InStop (callback cf b d) (rest ++ (callback cf b d).queue) := fun h => h.elim (fun h => .inl (h1 h)) hi
  have h3 : Soon b (d :: rest ++ b.queue) → Soon (callback cf b d) (rest ++ (callback cf b d).queue) := by
    rintro (h | h)
    · exact .inl (h2 h)
    · rcases k1 _ h with rfl | h
      · cases hst : b.stopping with
        | true => exact .inl (h2 (hs.1 hst))
        | false => exact .inl (.inr (by simp [callback, hst]))
      · exact .inr h
  refine ⟨h1, h2, h3, ?_, ?_, ?_⟩
  · rintro (h | h)
    · exact .inl (h3 h)
    · rcases k1 _ h with rfl | h
      · exact .inl (.inr (by simp [callback, App.push]))
      · exact .inr h
  · intro hst
    cases hsa : b.stopping with
    | true => exact h2 (hs.1 hsa)
    | false =>
      rcases callback_cases cf b d with ⟨-, e⟩ | ⟨-, e⟩ | ⟨-, -, e⟩ | ⟨ok, hc, hii, e⟩ | ⟨hc, e⟩ | ⟨-, -, e⟩ | ⟨-, e⟩ | ⟨x, y, -, hx, e⟩ | ⟨hm, -⟩
      · rw [e] at hst; rw [show (b.push Cb.start).stopping = b.stopping from rfl, hsa] at hst; cases hst
      · rw [e] at hst; rw [show (b.push Cb.stop).stopping = b.stopping from rfl, hsa] at hst; cases hst
      · rw [e]; exact .inr rfl
      · exact h2 (.inr hii)
      · rw [e]; exact .inl (.inr (.inl rfl))
      · rw [e] at hst; rw [show ({ b with early := false } : App).stopping = b.stopping from rfl, hsa] at hst; cases hst
      · rw [e] at hst; rw [show ({ b with relayed := b.relayed + 1 } : App).stopping = b.stopping from rfl, hsa] at hst; cases hst
      · rw [e]; exact .inl (.inl rfl)
      · rw [hm.stopping, hsa] at hst; cases hst
  · intro hx
    rcases List.mem_append.1 hx with hx | hx
    · exact hs.2 (by simp [hx])
    · exact hs.2 (by simp [callback_fine cf b d hx])

/-- a stage is kept by every event -/
theorem step_stages (cf : Conf) (a : App) (e : Ev) (hs : Sane a a.queue) (he : e ≠ .stopDone false) :
    Sane (step cf a e) (step cf a e).queue ∧ (Over a a.queue → Over (step cf a e) (step cf a e).queue) ∧ (InStop a a.queue → InStop (step cf a e) (step cf a e).queue) ∧
    (Soon a a.queue → Soon (step cf a e) (step cf a e).queue) ∧ (Asked a a.queue → Asked (step cf a e) (step cf a e).queue) := by
  rw [step_post]
  cases hp : e.post cf with
  | some c =>
    have hm : ∀ x ∈ a.queue, x ∈ (a.push c).queue := fun x hx => List.mem_append_left _ hx
    refine ⟨⟨fun h => InStop.mono (a := a) hm (hs.1 h), ?_⟩, Over.mono hm, InStop.mono hm, Soon.mono hm, Asked.mono hm⟩
    simp only [App.push, List.mem_append, List.mem_singleton]
    rintro (h | rfl)
    · exact hs.2 h
    · cases e <;> simp [Ev.post] at hp
      · split at hp <;> cases hp
      · subst hp; exact he rfl
  | none =>
    simp only
    cases hn : a.ended with
    | some n =>
      have : iter cf a = a := by unfold iter; simp [hn]
      rw [this]; exact ⟨hs, id, id, id, id⟩
    | none =>
      have key : ∀ S : App → List Cb → Prop, (∀ b : App, ∀ q, b.ended.isSome → S b q) → (∀ b d rest, b.ended = none → Sane b (d :: rest ++ b.queue) → S b (d :: rest ++ b.queue) → S (callback cf b d) (rest ++ (callback cf b d).queue)) →
          S { a with queue := [] } a.queue → S (iter cf a) (iter cf a).queue := by
        intro S hS hc h0
        rcases iter_ind cf (fun b rest => Sane b (rest ++ b.queue) ∧ S b (rest ++ b.queue)) (fun b d rest hb hk => ⟨(callback_stages cf b d rest hb hk.1).2.2.2.2, hc b d rest hb hk.1 hk.2⟩) a
          ⟨by show Sane _ (a.queue ++ []); rw [List.append_nil]; exact hs, by simpa using h0⟩ hn with h | h
        · exact hS _ _ h
        · simpa using h.2.2.2
      have hsane : Sane (iter cf a) (iter cf a).queue := by
        rcases iter_ind cf (fun b rest => Sane b (rest ++ b.queue)) (fun b d rest hb hk => (callback_stages cf b d rest hb hk).2.2.2.2) a (by show Sane _ (a.queue ++ []); rw [List.append_nil]; exact hs) hn with h | h
        · refine ⟨fun _ => .inl (.inl h), ?_⟩
          -- the queue of a process that has ended during this iteration
          intro hx
          have : ∀ (l : List Cb) (b : App), .stopDone false ∈ (l.foldl (handle cf) b).queue → .stopDone false ∈ b.queue := by
            intro l
            induction l with
            | nil => exact fun _ h => h
            | cons d t ih =>
              intro b h
              have := ih _ h
              unfold handle at this
              split at this
              · exact this
              · exact callback_fine cf b d this
          unfold iter at hx
          rw [if_neg (by simp [hn])] at hx
          simp only at hx
          have hy : Cb.stopDone false ∈ (a.queue.foldl (handle cf) { a with queue := [] }).queue := by
            split at hx
            · exact hx
            · split at hx <;> exact hx
          have := this _ _ hy
          simp at this
        · simpa using h.2.2
      refine ⟨hsane, key Over (fun _ _ h => .inl h) (fun b d rest hb hk => (callback_stages cf b d rest hb hk).1), key InStop (fun _ _ h => .inl (.inl h)) (fun b d rest hb hk => (callback_stages cf b d rest hb hk).2.1),
        key Soon (fun _ _ h => .inl (.inl (.inl h))) (fun b d rest hb hk => (callback_stages cf b d rest hb hk).2.2.1), key Asked (fun _ _ h => .inl (.inl (.inl (.inl h)))) (fun b d rest hb hk => (callback_stages cf b d rest hb hk).2.2.2.1)⟩

/-- an iteration takes the process to the next stage -/
theorem iter_stage (cf : Conf) (a : App) (hs : Sane a a.queue) (hf : a.ended = none → a.flag = false) :
    (Over a a.queue → (iter cf a).ended.isSome) ∧ (InStop a a.queue → .stopDone true ∈ a.queue → Over (iter cf a) (iter cf a).queue) ∧
    (Soon a a.queue → InStop (iter cf a) (iter cf a).queue) ∧ (Asked a a.queue → Soon (iter cf a) (iter cf a).queue) := by
  cases hn : a.ended with
  | some n =>
    have : iter cf a = a := by unfold iter; simp [hn]
    have he : a.ended.isSome := by simp [hn]
    rw [this]
    exact ⟨fun _ => he, fun _ _ => .inl he, fun _ => .inl (.inl he), fun _ => .inl (.inl (.inl he))⟩
  | none =>
    have hfl := hf hn
    have hov : Over a a.queue → Cb.loopStop ∈ a.queue := by
      rintro (h | h | h)
      · rw [hn] at h; cases h
      · rw [hfl] at h; cases h
      · exact h
    -- a general step: something in the queue is run
    have key : ∀ (S : App → List Cb → Prop) (c : Cb) (g : App → Prop), (∀ b : App, ∀ q, b.ended.isSome → S b q) →
        (∀ b d rest, b.ended = none → Sane b (d :: rest ++ b.queue) → S b (d :: rest ++ b.queue) → S (callback cf b d) (rest ++ (callback cf b d).queue)) →
        (∀ b rest, b.ended = none → g b → Sane b (c :: rest ++ b.queue) → S (callback cf b c) (rest ++ (callback cf b c).queue)) →
        (∀ b d rest, b.ended = none → Sane b (d :: rest ++ b.queue) → d ≠ c → g b → g (callback cf b d) ∨ S (callback cf b d) (rest ++ (callback cf b d).queue)) → g { a with queue := [] } → c ∈ a.queue →
        S (iter cf a) (iter cf a).queue := by
      intro S c g hS h1 h2 h3 hg hc
      have hK : ∀ b d rest, b.ended = none → (Sane b (d :: rest ++ b.queue) ∧ (S b (d :: rest ++ b.queue) ∨ (g b ∧ c ∈ d :: rest))) →
          Sane (callback cf b d) (rest ++ (callback cf b d).queue) ∧ (S (callback cf b d) (rest ++ (callback cf b d).queue) ∨ (g (callback cf b d) ∧ c ∈ rest)) := by
        intro b d rest hb ⟨k1, k2⟩
        refine ⟨(callback_stages cf b d rest hb k1).2.2.2.2, ?_⟩
        rcases k2 with k2 | ⟨k2, k3⟩
        · exact .inl (h1 b d rest hb k1 k2)
        · by_cases hdc : d = c
          · subst hdc; exact .inl (h2 b rest hb k2 k1)
          · rcases h3 b d rest hb k1 hdc k2 with h | h
            · exact .inr ⟨h, (List.mem_cons.1 k3).resolve_left (fun h => hdc h.symm)⟩
            · exact .inl h
      rcases iter_ind cf (fun b rest => Sane b (rest ++ b.queue) ∧ (S b (rest ++ b.queue) ∨ (g b ∧ c ∈ rest))) hK a ⟨by show Sane _ (a.queue ++ []); rw [List.append_nil]; exact hs, .inr ⟨hg, hc⟩⟩ hn with h | h
      · exact hS _ _ h
      · rcases h.2.2.2 with h | ⟨-, h⟩
        · simpa using h
        · cases h
    have hOver : ∀ b d rest, b.ended = none → Sane b (d :: rest ++ b.queue) → Over b (d :: rest ++ b.queue) → Over (callback cf b d) (rest ++ (callback cf b d).queue) := fun b d rest hb hk => (callback_stages cf b d rest hb hk).1
    have hIn : ∀ b d rest, b.ended = none → Sane b (d :: rest ++ b.queue) → InStop b (d :: rest ++ b.queue) → InStop (callback cf b d) (rest ++ (callback cf b d).queue) := fun b d rest hb hk => (callback_stages cf b d rest hb hk).2.1
    have hSoon : ∀ b d rest, b.ended = none → Sane b (d :: rest ++ b.queue) → Soon b (d :: rest ++ b.queue) → Soon (callback cf b d) (rest ++ (callback cf b d).queue) := fun b d rest hb hk => (callback_stages cf b d rest hb hk).2.2.1
    have r1 : Over a a.queue → (iter cf a).ended.isSome := by
      intro ho
      have := key (fun b _ => b.ended.isSome ∨ b.flag = true) .loopStop (fun _ => True) (fun b _ h => .inl h) ?_ ?_ (fun _ _ _ _ _ _ _ => .inl trivial) trivial (hov ho)
      · rcases this with h | h
        · exact h
        · rcases iter_ind cf (fun _ _ => True) (fun _ _ _ _ _ => trivial) a trivial hn with h' | ⟨-, h', -⟩
          · exact h'
          · rw [h'] at h; cases h
      · rintro b d rest hb - (h | h)
        · rw [hb] at h; cases h
        · exact .inr ((callback_keeps cf b d).2.1 h)
      · exact fun b rest hb _ _ => .inr rfl
    have keep : ∀ S : App → List Cb → Prop, (∀ b : App, ∀ q, b.ended.isSome → S b q) → (∀ b d rest, b.ended = none → Sane b (d :: rest ++ b.queue) → S b (d :: rest ++ b.queue) → S (callback cf b d) (rest ++ (callback cf b d).queue)) →
        S { a with queue := [] } a.queue → S (iter cf a) (iter cf a).queue := by
      intro S hS hc h0
      rcases iter_ind cf (fun b rest => Sane b (rest ++ b.queue) ∧ S b (rest ++ b.queue)) (fun b d rest hb hk => ⟨(callback_stages cf b d rest hb hk.1).2.2.2.2, hc b d rest hb hk.1 hk.2⟩) a
        ⟨by show Sane _ (a.queue ++ []); rw [List.append_nil]; exact hs, by simpa using h0⟩ hn with h | h
      · exact hS _ _ h
      · simpa using h.2.2.2
    have eOver : ∀ b : App, ∀ q, b.ended.isSome → Over b q := fun _ _ h => .inl h
    have eIn : ∀ b : App, ∀ q, b.ended.isSome → InStop b q := fun _ _ h => .inl (.inl h)
    have eSoon : ∀ b : App, ∀ q, b.ended.isSome → Soon b q := fun _ _ h => .inl (.inl (.inl h))
    refine ⟨r1, ?_, ?_, ?_⟩
    · rintro (h | h) hd
      · exact .inl (r1 h)
      · refine key Over (.stopDone true) (fun b => b.inStop = true) eOver hOver ?_ ?_ h hd
        · intro b rest hb hi _
          exact .inr (.inr (by simp [callback, hi, App.push]))
        · intro b d rest hb hk hne hi
          rcases (callback_stages cf b d rest hb hk).2.1 (.inr hi) with h | h
          · exact .inr h
          · exact .inl h
    · rintro (h | h)
      · exact keep InStop eIn hIn h
      · refine key InStop .stop (fun _ => True) eIn hIn ?_ (fun _ _ _ _ _ _ _ => .inl trivial) trivial h
        intro b rest hb _ hk
        cases hst : b.stopping with
        | true => exact hIn b .stop rest hb hk (hk.1 hst)
        | false => exact .inr (by simp [callback, hst])
    · rintro (h | h)
      · exact keep Soon eSoon hSoon h
      · exact key Soon .callStop (fun _ => True) eSoon hSoon (fun b rest hb _ hk => .inr (by simp [callback, App.push])) (fun _ _ _ _ _ _ _ => .inl trivial) trivial h

end IPP.Ipcluster
