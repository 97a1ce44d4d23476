import Verif.Heart.Spec

/-!
# Heartbeats: lemmas
-/
namespace IPP.Heart

/-! ## Lemmas -/

theorem run_snoc (max : Nat) (evs : List Ev) (e : Ev) : run max (evs ++ [e]) = step max (run max evs) e := by
  simp [run, List.foldl_append]

theorem snoc_inj {α : Type _} {l l' : List α} {a a' : α} (h : l ++ [a] = l' ++ [a']) : l = l' ∧ a = a' := by
  have := List.append_inj' h rfl
  exact ⟨this.1, by simpa using this.2⟩

theorem intervals_beat (evs : List Ev) (dt : Nat) : intervals (evs ++ [.beat dt]) = intervals evs ++ [dt] := by
  simp [intervals, List.filterMap_append]

theorem intervals_pong (evs : List Ev) (h t : Nat) : intervals (evs ++ [.pong h t]) = intervals evs := by
  simp [intervals, List.filterMap_append]

theorem answered_beat (h : Id) (evs : List Ev) (dt : Nat) : ¬ Answered h (evs ++ [.beat dt]) := by
  rintro ⟨p, e, q, hq, ha, hb⟩
  rcases List.eq_nil_or_concat q with rfl | ⟨q', y, rfl⟩
  · obtain ⟨rfl, rfl⟩ := snoc_inj hq
    simp [isAnswer] at ha
  · have : evs ++ [.beat dt] = (p ++ e :: q') ++ [y] := by simpa using hq
    obtain ⟨_, rfl⟩ := snoc_inj this
    exact hb dt (by simp)

theorem answered_pong (h : Id) (evs : List Ev) (h' t : Nat) :
    Answered h (evs ++ [.pong h' t]) ↔ Answered h evs ∨ (h' = h ∧ (t = current evs ∨ t = previous evs)) := by
  constructor
  · rintro ⟨p, e, q, hq, ha, hb⟩
    rcases List.eq_nil_or_concat q with rfl | ⟨q', y, rfl⟩
    · obtain ⟨rfl, rfl⟩ := snoc_inj hq
      right
      simpa [isAnswer] using ha
    · have : evs ++ [.pong h' t] = (p ++ e :: q') ++ [y] := by simpa using hq
      obtain ⟨rfl, rfl⟩ := snoc_inj this
      exact Or.inl ⟨p, e, q', rfl, ha, fun dt hm => hb dt (by simp [hm])⟩
  · rintro (⟨p, e, q, rfl, ha, hb⟩ | ⟨rfl, ht⟩)
    · exact ⟨p, e, q ++ [.pong h' t], by simp, ha, by simpa using hb⟩
    · exact ⟨evs, .pong h' t, [], rfl, by simpa [isAnswer] using ht, by simp⟩

theorem silent_pong (h : Id) (n : Nat) (evs : List Ev) (h' t : Nat) : SilentFor h n (evs ++ [.pong h' t]) ↔ SilentFor h n evs := by
  constructor
  · intro hs
    generalize hl : evs ++ [.pong h' t] = l at hs
    cases hs with
    | zero => exact .zero _
    | pong n evs₂ h₂ t₂ hs => exact (snoc_inj hl).1 ▸ hs
    | beat n evs₂ dt hs => cases (snoc_inj hl).2
  · exact .pong n evs h' t

theorem silent_beat (h : Id) (n : Nat) (evs : List Ev) (dt : Nat) :
    SilentFor h (n + 1) (evs ++ [.beat dt]) ↔ SilentFor h n evs ∧ ¬ Answered h evs := by
  constructor
  · intro hs
    generalize hl : evs ++ [.beat dt] = l at hs
    cases hs with
    | pong n evs₂ h₂ t₂ hs => cases (snoc_inj hl).2
    | beat n evs₂ dt hs ha => rw [(snoc_inj hl).1]; exact ⟨hs, ha⟩
  · rintro ⟨a, b⟩; exact .beat n evs dt a b

theorem silent_mono {h : Id} {n : Nat} {evs : List Ev} (hs : SilentFor h (n + 1) evs) : SilentFor h n evs := by
  generalize hn : n + 1 = k at hs
  induction hs generalizing n with
  | zero => cases hn
  | pong k evs h' t _ ih => exact .pong _ _ _ _ (ih hn)
  | beat k evs dt hs ha ih =>
    cases n with
    | zero => exact .zero _
    | succ n => exact .beat n evs dt (ih (by omega)) ha

theorem mem_add {a h : Id} {l : List Id} : a ∈ add h l ↔ a = h ∨ a ∈ l := by
  unfold add; split
  · constructor
    · exact Or.inr
    · rintro (rfl | h') <;> assumption
  · simp [or_comm]

theorem nodup_add {h : Id} {l : List Id} (hl : l.Nodup) : (add h l).Nodup := by
  unfold add; split
  · exact hl
  · rename_i hn
    rw [List.nodup_append]
    exact ⟨hl, by simp, fun a ha b hb => by simp at hb; subst hb; exact fun h => hn (h ▸ ha)⟩

theorem mem_addAll {a : Id} {hs l : List Id} : a ∈ hs.foldl (fun l h => add h l) l ↔ a ∈ hs ∨ a ∈ l := by
  induction hs generalizing l with
  | nil => simp
  | cons x xs ih => simp [ih, mem_add, or_assoc, or_left_comm]

theorem nodup_addAll {hs l : List Id} (hl : l.Nodup) : (hs.foldl (fun l h => add h l) l).Nodup := by
  induction hs generalizing l with
  | nil => exact hl
  | cons x xs ih => exact ih (nodup_add hl)

theorem about_new {h : Id} {l : List Id} (hl : l.Nodup) : about h (l.map .new) = if h ∈ l then [.new h] else [] := by
  induction l with
  | nil => rfl
  | cons x xs ih =>
    obtain ⟨hx, hxs⟩ := List.nodup_cons.mp hl
    have ih := ih hxs
    have hc : about h (.new x :: xs.map .new) = (if x = h then [.new x] else []) ++ about h (xs.map .new) := by
      by_cases hxh : x = h <;> simp [about, hxh]
    rw [List.map_cons, hc, ih]
    by_cases hxh : x = h
    · subst hxh; simp [hx]
    · simp [hxh, Ne.symm hxh]

theorem about_stopped {h : Id} {l : List Id} (hl : l.Nodup) : about h (l.map .stopped) = if h ∈ l then [.stopped h] else [] := by
  induction l with
  | nil => rfl
  | cons x xs ih =>
    obtain ⟨hx, hxs⟩ := List.nodup_cons.mp hl
    have ih := ih hxs
    have hc : about h (.stopped x :: xs.map .stopped) = (if x = h then [.stopped x] else []) ++ about h (xs.map .stopped) := by
      by_cases hxh : x = h <;> simp [about, hxh]
    rw [List.map_cons, hc, ih]
    by_cases hxh : x = h
    · subst hxh; simp [hx]
    · simp [hxh, Ne.symm hxh]

theorem about_append (h : Id) (a b : List Note) : about h (a ++ b) = about h a ++ about h b := List.filter_append ..

/-- The hearts that appear / fail at a beat. -/
def newAt (s : State) : List Id := s.responses.filter (fun h => h ∉ s.hearts)
def failAt (max : Nat) (s : State) : List Id := s.hearts.filter (fun h => h ∉ s.responses ∧ s.onProbation h + 1 > max)

theorem beat_notes (max : Nat) (s : State) (dt : Nat) :
    (beat max s dt).notes = s.notes ++ ((newAt s).map .new ++ (failAt max s).map .stopped) := by
  have h1 : s.responses.filter (fun h => decide (h ∉ s.hearts.filter (fun h => decide (h ∈ s.responses)))) = newAt s := by
    unfold newAt
    refine List.filter_congr fun x hx => ?_
    simp [List.mem_filter, hx]
  unfold beat
  simp only [checkMissed, h1]
  generalize hf : List.filter (fun h => decide (_ > max)) _ = F
  have hF : F = failAt max s := by
    rw [← hf]
    unfold failAt
    rw [List.filter_filter, List.filter_filter]
    refine List.filter_congr fun x hx => ?_
    have e1 : (if newAt s ≠ [] then handleNew { s with lastPing := s.lifetime, lifetime := s.lifetime + dt } (newAt s) else
      { s with lastPing := s.lifetime, lifetime := s.lifetime + dt }).onProbation = s.onProbation := by split <;> rfl
    have e2 : x ∈ (if newAt s ≠ [] then handleNew { s with lastPing := s.lifetime, lifetime := s.lifetime + dt } (newAt s) else
      { s with lastPing := s.lifetime, lifetime := s.lifetime + dt }).hearts := by
      split
      · exact mem_addAll.mpr (Or.inr hx)
      · exact hx
    rw [e1, Bool.eq_iff_iff]
    simp only [Bool.and_eq_true, decide_eq_true_eq, List.mem_filter, hx, e2, true_and]
    exact ⟨fun ⟨⟨a, _⟩, b⟩ => ⟨b, a⟩, fun ⟨a, b⟩ => ⟨⟨b, trivial⟩, a⟩⟩
  rw [hF]
  by_cases hn : newAt s = [] <;> by_cases hfa : failAt max s = [] <;> simp [hn, hfa, handleNew, handleFailure]

theorem beat_hearts (max : Nat) (s : State) (dt : Nat) (h : Id) :
    h ∈ (beat max s dt).hearts ↔ (h ∈ s.hearts ∧ h ∉ failAt max s) ∨ h ∈ newAt s := by
  have hF : ∀ x ∈ newAt s, x ∉ failAt max s := by
    intro x hx hf
    have h1 := (List.mem_filter.mp hx).2
    have h2 := (List.mem_filter.mp hf).1
    simp at h1
    exact h1 h2
  have h1 : s.responses.filter (fun h => decide (h ∉ s.hearts.filter (fun h => decide (h ∈ s.responses)))) = newAt s := by
    unfold newAt
    refine List.filter_congr fun x hx => ?_
    simp [List.mem_filter, hx]
  unfold beat
  simp only [checkMissed, h1]
  generalize hf : List.filter (fun h => decide (_ > max)) _ = F
  have hF' : F = failAt max s := by
    rw [← hf]
    unfold failAt
    rw [List.filter_filter, List.filter_filter]
    refine List.filter_congr fun x hx => ?_
    have e1 : (if newAt s ≠ [] then handleNew { s with lastPing := s.lifetime, lifetime := s.lifetime + dt } (newAt s) else
      { s with lastPing := s.lifetime, lifetime := s.lifetime + dt }).onProbation = s.onProbation := by split <;> rfl
    have e2 : x ∈ (if newAt s ≠ [] then handleNew { s with lastPing := s.lifetime, lifetime := s.lifetime + dt } (newAt s) else
      { s with lastPing := s.lifetime, lifetime := s.lifetime + dt }).hearts := by
      split
      · exact mem_addAll.mpr (Or.inr hx)
      · exact hx
    rw [e1, Bool.eq_iff_iff]
    simp only [Bool.and_eq_true, decide_eq_true_eq, List.mem_filter, hx, e2, true_and]
    exact ⟨fun ⟨⟨a, _⟩, b⟩ => ⟨b, a⟩, fun ⟨a, b⟩ => ⟨⟨b, trivial⟩, a⟩⟩
  rw [hF']
  have key : ∀ S : State, (∀ x, x ∈ S.hearts ↔ x ∈ newAt s ∨ x ∈ s.hearts) →
      (h ∈ (if failAt max s ≠ [] then handleFailure S (failAt max s) else S).hearts ↔ (h ∈ s.hearts ∧ h ∉ failAt max s) ∨ h ∈ newAt s) := by
    intro S hS
    split
    · simp only [handleFailure, List.mem_filter, hS, decide_eq_true_eq]
      constructor
      · rintro ⟨a | a, b⟩
        · exact Or.inr a
        · exact Or.inl ⟨a, b⟩
      · rintro (⟨a, b⟩ | a)
        · exact ⟨Or.inr a, b⟩
        · exact ⟨Or.inl a, hF h a⟩
    · rename_i hn
      simp only [ne_eq, Classical.not_not] at hn
      rw [hS, hn]
      simp [or_comm]
  refine key _ fun x => ?_
  split
  · simp [handleNew, mem_addAll]
  · rename_i hn
    simp only [ne_eq, Classical.not_not] at hn
    simp [hn]

theorem beat_prob (max : Nat) (s : State) (dt : Nat) (h : Id) :
    (beat max s dt).onProbation h =
      if h ∈ s.hearts ∧ h ∉ s.responses ∧ ¬ (s.onProbation h + 1 > max) then s.onProbation h + 1 else 0 := by
  unfold beat
  simp only [checkMissed]
  generalize hS : (if s.responses.filter _ ≠ [] then _ else _ : State) = S
  have e1 : S.onProbation = s.onProbation := by rw [← hS]; split <;> rfl
  have e2 : ∀ x ∈ s.hearts, x ∈ S.hearts := by
    intro x hx
    rw [← hS]
    split
    · exact mem_addAll.mpr (Or.inr hx)
    · exact hx
  have hc : (h ∈ List.filter (fun b => decide (b ∈ S.hearts)) (List.filter (fun h => decide (h ∉ List.filter (fun h => decide (h ∈ s.responses)) s.hearts)) s.hearts))
      ↔ (h ∈ s.hearts ∧ h ∉ s.responses) := by
    simp only [List.mem_filter, decide_eq_true_eq]
    constructor
    · rintro ⟨⟨a, b⟩, _⟩
      exact ⟨a, fun hr => b ⟨a, hr⟩⟩
    · rintro ⟨a, b⟩
      exact ⟨⟨a, fun hh => b hh.2⟩, e2 h a⟩
  rw [e1]
  by_cases hm : h ∈ s.hearts ∧ h ∉ s.responses
  · have hm' := hc.mpr hm
    by_cases hp : s.onProbation h + 1 > max
    · rw [if_neg (by simp [hp]), if_neg (by simp [hp])]
    · rw [if_pos ⟨hm', hp⟩, if_pos ⟨hm.1, hm.2, hp⟩]
  · rw [if_neg (fun hh => hm (hc.mp hh.1)), if_neg (fun hh => hm ⟨hh.1, hh.2.1⟩)]

theorem beat_hearts_nodup (max : Nat) (s : State) (dt : Nat) (hn : s.hearts.Nodup) : (beat max s dt).hearts.Nodup := by
  unfold beat
  dsimp only
  generalize hS : (if s.responses.filter _ ≠ [] then _ else _ : State) = S
  have : S.hearts.Nodup := by
    rw [← hS]
    split
    · exact nodup_addAll hn
    · exact hn
  split
  · exact this.filter _
  · exact this

/-- Everything that holds after a history. -/
structure Inv (max : Nat) (evs : List Ev) (s : State) : Prop where
  cur : s.lifetime = current evs
  prev : s.lastPing = previous evs
  rnodup : s.responses.Nodup
  resp : ∀ h, h ∈ s.responses ↔ Answered h evs
  hnodup : s.hearts.Nodup
  alive : ∀ h, h ∈ s.hearts ↔ (about h s.notes).length % 2 = 1
  alt : ∀ h i, i < (about h s.notes).length → (about h s.notes)[i]? = some (if i % 2 = 0 then .new h else .stopped h)
  prob : ∀ h ∈ s.hearts, SilentFor h (s.onProbation h) evs ∧ ¬ SilentFor h (s.onProbation h + 1) evs ∧ s.onProbation h ≤ max

theorem answered_nil (h : Id) : ¬ Answered h [] := by
  rintro ⟨p, e, q, hq, _⟩
  simp at hq

theorem inv_init (max : Nat) : Inv max [] {} :=
  ⟨rfl, rfl, List.nodup_nil, fun h => by simp [answered_nil], List.nodup_nil, fun h => by simp [about], fun h i hi => by simp [about] at hi,
   fun h hh => by simp at hh⟩

theorem inv_pong {max : Nat} {evs : List Ev} {s : State} (hi : Inv max evs s) (h t : Nat) :
    Inv max (evs ++ [.pong h t]) (handlePong s h t) := by
  have hcur : current (evs ++ [.pong h t]) = current evs := by rw [current, intervals_pong, current]
  have hprev : previous (evs ++ [.pong h t]) = previous evs := by rw [previous, intervals_pong, previous]
  have base : ∀ R : List Id, R.Nodup → (∀ x, x ∈ R ↔ Answered x (evs ++ [.pong h t])) →
      Inv max (evs ++ [.pong h t]) { s with responses := R } := by
    intro R hR hRa
    refine ⟨by rw [hcur]; exact hi.cur, by rw [hprev]; exact hi.prev, hR, hRa, hi.hnodup, hi.alive, hi.alt, fun x hx => ?_⟩
    obtain ⟨a, b, c⟩ := hi.prob x hx
    exact ⟨(silent_pong ..).mpr a, fun hs => b ((silent_pong ..).mp hs), c⟩
  unfold handlePong
  have hadd : (t = s.lifetime ∨ t = s.lastPing) → Inv max (evs ++ [.pong h t]) { s with responses := add h s.responses } := by
    intro ht
    refine base _ (nodup_add hi.rnodup) fun x => ?_
    rw [mem_add, answered_pong, hi.resp]
    rw [hi.cur, hi.prev] at ht
    constructor
    · rintro (rfl | hx)
      · exact Or.inr ⟨rfl, ht⟩
      · exact Or.inl hx
    · rintro (hx | ⟨rfl, _⟩)
      · exact Or.inr hx
      · exact Or.inl rfl
  split
  · exact hadd (Or.inl ‹_›)
  · split
    · exact hadd (Or.inr ‹_›)
    · rename_i h1 h2
      refine base s.responses hi.rnodup fun x => ?_
      rw [answered_pong, hi.resp]
      constructor
      · exact Or.inl
      · rintro (hx | ⟨_, ht⟩)
        · exact hx
        · rw [← hi.cur, ← hi.prev] at ht
          rcases ht with ht | ht
          · exact absurd ht h1
          · exact absurd ht h2

theorem beat_about {max : Nat} {evs : List Ev} {s : State} (hi : Inv max evs s) (dt : Nat) (h : Id) :
    about h (beat max s dt).notes = about h s.notes ++
      (if h ∈ s.hearts then (if h ∉ s.responses ∧ s.onProbation h + 1 > max then [.stopped h] else [])
       else (if h ∈ s.responses then [.new h] else [])) := by
  rw [beat_notes, about_append, about_append, about_new (l := newAt s) (hi.rnodup.filter _),
    about_stopped (l := failAt max s) (hi.hnodup.filter _)]
  congr 1
  by_cases h1 : h ∈ s.hearts <;> by_cases h2 : h ∈ s.responses <;> by_cases h3 : s.onProbation h + 1 > max <;>
    simp [newAt, failAt, h1, h2, h3]

theorem inv_beat {max : Nat} {evs : List Ev} {s : State} (hi : Inv max evs s) (dt : Nat) :
    Inv max (evs ++ [.beat dt]) (beat max s dt) := by
  have e1 : (beat max s dt).lifetime = s.lifetime + dt := by
    simp only [beat, apply_ite State.lifetime, handleNew, handleFailure, ite_self]
  have e2 : (beat max s dt).lastPing = s.lifetime := by
    simp only [beat, apply_ite State.lastPing, handleNew, handleFailure, ite_self]
  have e3 : (beat max s dt).responses = [] := by
    unfold beat; dsimp only
  have hnew : ∀ h, h ∈ newAt s ↔ h ∈ s.responses ∧ h ∉ s.hearts := by intro h; simp [newAt]
  have hfail : ∀ h, h ∈ failAt max s ↔ h ∈ s.hearts ∧ h ∉ s.responses ∧ s.onProbation h + 1 > max := by intro h; simp [failAt]
  refine ⟨?_, ?_, by rw [e3]; exact List.nodup_nil, ?_, beat_hearts_nodup max s dt hi.hnodup, ?_, ?_, ?_⟩
  · rw [e1, hi.cur, current, current, intervals_beat]; simp
  · rw [e2, hi.cur, previous, intervals_beat]; simp [current]
  · intro h
    rw [e3]
    simp [answered_beat]
  · intro h
    rw [beat_hearts, beat_about hi, List.length_append, hnew, hfail]
    have := hi.alive h
    by_cases h1 : h ∈ s.hearts <;> by_cases h2 : h ∈ s.responses <;> by_cases h3 : s.onProbation h + 1 > max <;>
      simp [h1, h2, h3] at this ⊢ <;> omega
  · intro h i hlt
    rw [beat_about hi] at hlt ⊢
    have hal := hi.alive h
    by_cases hlt' : i < (about h s.notes).length
    · rw [List.getElem?_append_left hlt']; exact hi.alt h i hlt'
    · rw [List.getElem?_append_right (by omega)]
      have hi' : i = (about h s.notes).length ∨ (about h s.notes).length < i := by omega
      by_cases h1 : h ∈ s.hearts <;> by_cases h2 : h ∈ s.responses <;> by_cases h3 : s.onProbation h + 1 > max <;>
        simp only [h1, h2, h3, if_true, if_false, not_true_eq_false, not_false_eq_true, and_true, and_false, and_self, List.append_nil,
          List.length_append, List.length_cons, List.length_nil, Nat.add_zero, true_iff, false_iff] at hlt hal ⊢ <;>
        first
          | omega
          | (have : i = (about h s.notes).length := by omega
             subst this
             simp
             omega)
  · intro h hh
    rw [beat_hearts, hnew, hfail] at hh
    rw [beat_prob]
    rcases hh with ⟨h1, h2⟩ | ⟨h1, h2⟩
    · obtain ⟨a, b, c⟩ := hi.prob h h1
      by_cases hr : h ∈ s.responses
      · rw [if_neg (by simp [hr])]
        refine ⟨.zero _, ?_, Nat.zero_le _⟩
        rw [silent_beat]
        exact fun hs => hs.2 ((hi.resp h).mp hr)
      · have hp : ¬ s.onProbation h + 1 > max := fun hp => h2 ⟨h1, hr, hp⟩
        rw [if_pos ⟨h1, hr, hp⟩]
        refine ⟨(silent_beat ..).mpr ⟨a, fun ha => hr ((hi.resp h).mpr ha)⟩, ?_, by omega⟩
        rw [silent_beat]
        exact fun hs => b hs.1
    · rw [if_neg (by simp [h2])]
      refine ⟨.zero _, ?_, Nat.zero_le _⟩
      rw [silent_beat]
      exact fun hs => hs.2 ((hi.resp h).mp h1)

theorem snoc_induction {α : Type _} {P : List α → Prop} (nil : P []) (snoc : ∀ l a, P l → P (l ++ [a])) (l : List α) : P l := by
  rw [← List.reverse_reverse l]
  induction l.reverse with
  | nil => exact nil
  | cons a l ih => rw [List.reverse_cons]; exact snoc _ _ ih

theorem inv_run (max : Nat) (evs : List Ev) : Inv max evs (run max evs) := by
  induction evs using snoc_induction with
  | nil => exact inv_init max
  | snoc evs e ih =>
    rw [run_snoc]
    cases e with
    | pong h t => exact inv_pong ih h t
    | beat dt => exact inv_beat ih dt

theorem alive_iff {max : Nat} {evs : List Ev} {s : State} (hi : Inv max evs s) (h : Id) : Alive h s.notes ↔ h ∈ s.hearts := by
  rw [hi.alive, Alive, List.getLast?_eq_getElem?]
  by_cases hl : (about h s.notes).length = 0
  · rw [List.length_eq_zero_iff] at hl
    simp [hl]
  · rw [hi.alt h _ (by omega)]
    by_cases hp : ((about h s.notes).length - 1) % 2 = 0
    · simp [hp]; omega
    · simp [hp]; omega

end IPP.Heart
