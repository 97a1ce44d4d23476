import Verif.Client.Model

/-! # C40, C41: requests of a client -/
namespace IPP.Client
open IPP.Hub (getKey setKey delKey)
open IPP.Util

/-! ## Specification vocabulary -/

/-- requests that an event creates -/
def Ev.creates : Ev → List Mid
  | .send m _ => [m]
  | .broadcast n ts c => .msg n :: if c then [] else (ts.map (Mid.part n)).eraseDups
  | _ => []

def created (evs : List Ev) : List Mid := evs.flatMap Ev.creates

/-- Message ids are never used twice. -/
def FreshIds (evs : List Ev) : Prop := (created evs).Nodup

instance (evs : List Ev) : Decidable (FreshIds evs) := inferInstanceAs (Decidable (List.Nodup _))

/-- what the user of the request sees: nothing yet, or an outcome -/
def value (s : Client) (m : Mid) : Option Val := (s.futs m).bind Fut.value

/-! ## basic facts -/

theorem mem_add {l : List Mid} {m x : Mid} : x ∈ add l m ↔ x ∈ l ∨ x = m := by
  unfold add
  split
  · rename_i h
    constructor
    · exact .inl
    · rintro (h' | rfl)
      · exact h'
      · exact h
  · simp

theorem mem_discard {l : List Mid} {m x : Mid} : x ∈ discard l m ↔ x ∈ l ∧ x ≠ m := by simp [discard]

theorem updF_same {κ α : Type} [DecidableEq κ] (f : κ → α) (k : κ) (v : α) : updF f k v k = v := by simp [updF]
theorem updF_ne {κ α : Type} [DecidableEq κ] (f : κ → α) {k x : κ} (h : x ≠ k) (v : α) : updF f k v x = f x := by simp [updF, h]

theorem settle_facts (s : Client) (m : Mid) : (settle s m).outstanding = s.outstanding ∧ (settle s m).history = s.history ∧ (settle s m).engines = s.engines ∧
    (settle s m).ids = s.ids ∧ (∀ x, x ≠ m → (settle s m).futs x = s.futs x) ∧ (∀ x, value (settle s m) x = value s x) ∧
    (∀ f, s.futs m = some f → ∃ f', (settle s m).futs m = some f' ∧ f'.value = f.value ∧ (f.value = none → f' = f)) ∧ (s.futs m = none → (settle s m).futs m = none) := by
  unfold settle
  cases hf : s.futs m with
  | none => simp [hf]
  | some f =>
    dsimp only
    by_cases h1 : f.value.isSome = true
    · by_cases h2 : f.output = true ∧ f.cleanup = true
      · simp only [h1, h2, and_self, if_true]
        refine ⟨trivial, trivial, trivial, trivial, fun x hx => updF_ne _ hx _, ?_, ?_, by simp⟩
        · intro x
          by_cases hx : x = m
          · subst hx; simp [value, updF_same, hf]
          · simp [value, updF_ne _ hx]
        · intro f' hf'
          cases hf'
          refine ⟨_, updF_same _ _ _, rfl, ?_⟩
          intro h; simp [h] at h1
      · have : ¬ (f.value.isSome = true ∧ f.output = true ∧ f.cleanup = true) := fun h => h2 h.2
        simp only [h1, if_true, true_and, if_neg h2]
        refine ⟨by intros; first | rfl | trivial, by intros; first | rfl | trivial, ?_, by simp [hf]⟩
        intro f' hf'
        cases hf'
        exact ⟨f, hf, rfl, fun _ => rfl⟩
    · have h1' : f.value = none := by cases h : f.value <;> simp_all
      simp [h1', hf]

/-! ## the invariant: outstanding means created and unresolved -/

structure Inv (K : List Mid) (s : Client) : Prop where
  known : ∀ m f, s.futs m = some f → m ∈ K
  has : ∀ m ∈ K, ∃ f, s.futs m = some f
  out : ∀ m, m ∈ s.outstanding ↔ ∃ f, s.futs m = some f ∧ f.value = none
  listed : ∀ m f, s.futs m = some f → f.value = none → f.listed = true

theorem Inv.mono {K K' : List Mid} {s : Client} (h : Inv K s) (hs : ∀ m, m ∈ K ↔ m ∈ K') : Inv K' s :=
  ⟨fun m f hf => (hs m).1 (h.known m f hf), fun m hm => h.has m ((hs m).2 hm), h.out, h.listed⟩

/-- a state with the same futures and outstanding set -/
theorem Inv.same {K : List Mid} {s s' : Client} (h : Inv K s) (h1 : s'.futs = s.futs) (h2 : s'.outstanding = s.outstanding) : Inv K s' :=
  ⟨by rw [h1]; exact h.known, by rw [h1]; exact h.has, by rw [h1, h2]; exact h.out, by rw [h1]; exact h.listed⟩

theorem handleReply_facts {K : List Mid} {s : Client} (h : Inv K s) (m : Mid) (v : Val) (us : List Uuid) :
    Inv K (handleReply s m v us) ∧ (∀ x, x ≠ m → value (handleReply s m v us) x = value s x) ∧
    (value (handleReply s m v us) m = if m ∈ s.outstanding then some v else value s m) ∧ (handleReply s m v us).outstanding = discard s.outstanding m ∧
    (handleReply s m v us).history = s.history ∧ (handleReply s m v us).engines = s.engines ∧ (handleReply s m v us).ids = s.ids := by
  cases hf : s.futs m with
  | none =>
    have hno : m ∉ s.outstanding := by rw [h.out, hf]; simp
    have hd : discard s.outstanding m = s.outstanding := by
      simp only [discard, List.filter_eq_self, decide_eq_true_eq]
      intro a ha hc
      exact hno (hc ▸ ha)
    have e : (handleReply s m v us).futs = s.futs := by simp [handleReply, hf]
    have e2 : (handleReply s m v us).outstanding = discard s.outstanding m := by simp [handleReply, hf]
    refine ⟨h.same e (by rw [e2, hd]), ?_, ?_, e2, ?_, ?_, ?_⟩
    · intro x _; simp [value, e]
    · simp [value, e, hno]
    all_goals simp [handleReply, hf]
  | some f =>
    by_cases hl : f.listed = true
    · have key : handleReply s m v us = settle { s with
          outstanding := discard s.outstanding m
          metas := setKey s.metas m us.head?
          out := fun u => if u ∈ us then discard (s.out u) m else s.out u
          results := updF s.results m (some v)
          futs := updF s.futs m (some { f with value := if f.value.isSome then f.value else some v
                                               output := f.output || v.noOutput }) } m := by
        simp [handleReply, hf, hl]
      rw [key]
      generalize hs1 : ({ s with
          outstanding := discard s.outstanding m
          metas := setKey s.metas m us.head?
          out := fun u => if u ∈ us then discard (s.out u) m else s.out u
          results := updF s.results m (some v)
          futs := updF s.futs m (some { f with value := if f.value.isSome then f.value else some v
                                               output := f.output || v.noOutput }) } : Client) = s1
      obtain ⟨k1, k2, k3, k4, k5, k6, k7, k8⟩ := settle_facts s1 m
      have hfm : s1.futs m = some { f with value := if f.value.isSome then f.value else some v
                                           output := f.output || v.noOutput } := by rw [← hs1]; exact updF_same _ _ _
      have hfx : ∀ x, x ≠ m → s1.futs x = s.futs x := by intro x hx; rw [← hs1]; exact updF_ne _ hx _
      have ho : s1.outstanding = discard s.outstanding m := by rw [← hs1]
      obtain ⟨f', g1, g2, -⟩ := k7 _ hfm
      have hval : f'.value ≠ none := by
        rw [g2]
        simp only
        cases hv : f.value <;> simp
      refine ⟨⟨?_, ?_, ?_, ?_⟩, ?_, ?_, by rw [k1, ho], by rw [k2, ← hs1], by rw [k3, ← hs1], by rw [k4, ← hs1]⟩
      · intro x g hx
        by_cases hxm : x = m
        · exact hxm ▸ h.known m f hf
        · rw [k5 x hxm, hfx x hxm] at hx; exact h.known x g hx
      · intro x hx
        by_cases hxm : x = m
        · subst hxm; exact ⟨f', g1⟩
        · rw [k5 x hxm, hfx x hxm]; exact h.has x hx
      · intro x
        rw [k1, ho, mem_discard]
        by_cases hxm : x = m
        · subst hxm
          rw [g1]
          simp [hval]
        · rw [k5 x hxm, hfx x hxm, h.out]
          simp [hxm]
      · intro x g hx hn
        by_cases hxm : x = m
        · subst hxm; rw [g1] at hx; cases hx; exact absurd hn hval
        · rw [k5 x hxm, hfx x hxm] at hx; exact h.listed x g hx hn
      · intro x hxm
        rw [k6]; simp [value, hfx x hxm]
      · rw [k6]
        have : m ∈ s.outstanding ↔ f.value = none := by
          rw [h.out, hf]
          simp
        by_cases hv : f.value = none
        · rw [if_pos (this.2 hv)]
          simp [value, hfm, hv]
        · rw [if_neg (fun hc => hv (this.1 hc))]
          cases hvv : f.value with
          | none => exact absurd hvv hv
          | some w => simp [value, hfm, hvv, hf]
    · -- no longer in the table: only the caches change
      have hv : f.value ≠ none := fun hn => hl (h.listed m f hf hn)
      have hno : m ∉ s.outstanding := by
        rw [h.out, hf]
        rintro ⟨f', h1, h2⟩
        cases h1
        exact hv h2
      have hd : discard s.outstanding m = s.outstanding := by
        simp only [discard, List.filter_eq_self, decide_eq_true_eq]
        intro a ha hc
        exact hno (hc ▸ ha)
      have e : (handleReply s m v us).futs = s.futs := by simp [handleReply, hf, hl]
      have e2 : (handleReply s m v us).outstanding = discard s.outstanding m := by simp [handleReply, hf, hl]
      refine ⟨h.same e (by rw [e2, hd]), ?_, ?_, e2, ?_, ?_, ?_⟩
      · intro x _; simp [value, e]
      · simp [value, e, hno]
      all_goals simp [handleReply, hf, hl]

theorem strand_facts {K : List Mid} (e : Eid) (u : Uuid) (ms : List Mid) : ∀ {s : Client}, Inv K s →
    Inv K (strand e u ms s) ∧ (∀ x, value (strand e u ms s) x = value s x ∨ x ∈ ms ∧ x ∈ s.outstanding ∧ value (strand e u ms s) x = some (.died e)) ∧
    (strand e u ms s).engines = s.engines ∧ (strand e u ms s).ids = s.ids ∧
    (∀ x, x ∈ ms → s.results x = none → x ∈ s.outstanding → value (strand e u ms s) x = some (.died e)) := by
  induction ms with
  | nil => intro s h; exact ⟨h, fun x => .inl rfl, rfl, rfl, by simp⟩
  | cons m ms ih =>
    intro s h
    unfold strand
    by_cases hr : (s.results m).isSome = true
    · rw [if_pos hr]
      obtain ⟨h1, h2, h3, h4, h5⟩ := ih h
      refine ⟨h1, ?_, h3, h4, ?_⟩
      · intro x
        rcases h2 x with h' | ⟨h', h''⟩
        · exact .inl h'
        · exact .inr ⟨by simp [h'], h''⟩
      · intro x hx hrx hox
        rcases List.mem_cons.1 hx with rfl | hx
        · simp [hrx] at hr
        · exact h5 x hx hrx hox
    · rw [if_neg hr]
      obtain ⟨k1, k2, k3, k4, k5, k6, k7⟩ := handleReply_facts h m (.died e) [u]
      obtain ⟨h1, h2, h3, h4, h5⟩ := ih k1
      -- the value at m after the first reply
      have hm : value (strand e u ms (handleReply s m (.died e) [u])) m = value (handleReply s m (.died e) [u]) m := by
        rcases h2 m with h' | ⟨-, h', -⟩
        · exact h'
        · rw [k4, mem_discard] at h'; exact absurd rfl h'.2
      refine ⟨h1, ?_, by rw [h3, k6], by rw [h4, k7], ?_⟩
      · intro x
        by_cases hx : x = m
        · subst hx
          rw [hm, k3]
          by_cases ho : x ∈ s.outstanding
          · right; simp [ho]
          · left; simp [ho]
        · rcases h2 x with h' | ⟨h', h'', h'''⟩
          · left; rw [h', k2 x hx]
          · right
            refine ⟨by simp [h'], ?_, h'''⟩
            rw [k4, mem_discard] at h''
            exact h''.1
      · intro x hx hrx hox
        by_cases hxm : x = m
        · subst hxm; rw [hm, k3]; simp [hox]
        · have hx' : x ∈ ms := by simpa [hxm] using hx
          apply h5 x hx'
          · unfold handleReply
            dsimp only
            cases hf : s.futs m with
            | none => simp [updF_ne _ hxm, hrx]
            | some f =>
              simp only
              split
              · unfold settle
                simp only [updF_same]
                split <;> split <;> simp [updF_ne _ hxm, hrx]
              · simp [updF_ne _ hxm, hrx]
          · rw [k4, mem_discard]; exact ⟨hox, hxm⟩

/-- a new request -/
theorem Inv.create {K : List Mid} {s s' : Client} (h : Inv K s) {m : Mid} (hn : ∀ f, s.futs m = some f → f.value = none ∧ f.listed = true) {c : Bool} {us : List Uuid}
    (h1 : s'.futs = updF s.futs m (some (newFut c us))) (h2 : s'.outstanding = add s.outstanding m) : Inv (K ++ [m]) s' ∧ ∀ x, value s' x = value s x := by
  refine ⟨⟨?_, ?_, ?_, ?_⟩, ?_⟩
  · intro x f hf
    rw [h1] at hf
    by_cases hx : x = m
    · simp [hx]
    · rw [updF_ne _ hx] at hf
      simp [h.known x f hf]
  · intro x hx'
    rw [h1]
    by_cases hx : x = m
    · subst hx; exact ⟨_, updF_same _ _ _⟩
    · rw [updF_ne _ hx]
      exact h.has x (by simpa [hx] using hx')
  · intro x
    rw [h1, h2, mem_add]
    by_cases hx : x = m
    · subst hx; simp [updF_same, newFut]
    · rw [updF_ne _ hx, h.out]; simp [hx]
  · intro x f hf hv
    rw [h1] at hf
    by_cases hx : x = m
    · subst hx; rw [updF_same] at hf; cases hf; rfl
    · rw [updF_ne _ hx] at hf
      exact h.listed x f hf hv
  · intro x
    by_cases hx : x = m
    · subst hx
      simp only [value, h1, updF_same, newFut, Option.bind_some]
      cases hf : s.futs x with
      | none => rfl
      | some f => simp [(hn f hf).1]
    · simp [value, h1, updF_ne _ hx]

theorem Inv.parts (n : Nat) (ts : List Uuid) : ∀ {K : List Mid} {s : Client}, Inv K s → (∀ u ∈ ts, ∀ f, s.futs (.part n u) = some f → f.value = none ∧ f.listed = true) →
    Inv (K ++ ts.map (Mid.part n)) (ts.foldl (addPart n) s) ∧ ∀ x, value (ts.foldl (addPart n) s) x = value s x := by
  induction ts with
  | nil => intro K s h _; exact ⟨by simpa using h, fun _ => rfl⟩
  | cons t ts ih =>
    intro K s h hn
    obtain ⟨h1, h2⟩ := h.create (s' := addPart n s t) (m := .part n t) (hn t (by simp)) (c := false) (us := []) rfl rfl
    obtain ⟨h3, h4⟩ := ih h1 (by
      intro u hu f hf
      by_cases hx : u = t
      · subst hx
        simp only [addPart, updF_same, Option.some.injEq] at hf
        subst hf
        exact ⟨rfl, rfl⟩
      · have hne : Mid.part n u ≠ Mid.part n t := by simp [hx]
        simp only [addPart, updF_ne _ hne] at hf
        exact hn u (by simp [hu]) f hf)
    refine ⟨?_, ?_⟩
    · simpa using h3
    · intro x
      rw [List.foldl_cons, h4, h2]

theorem mem_eraseDups_parts (n : Nat) (ts : List Uuid) (x : Mid) : x ∈ (ts.map (Mid.part n)).eraseDups ↔ x ∈ ts.map (Mid.part n) := by
  simp

theorem purgeIds_facts {K : List Mid} {s : Client} (h : Inv K s) (ms : List Mid) : Inv K (purgeIds s ms).1 ∧ (∀ x, value (purgeIds s ms).1 x = value s x) ∧
    (purgeIds s ms).1.outstanding = s.outstanding ∧ (purgeIds s ms).1.out = s.out ∧ (purgeIds s ms).1.engines = s.engines ∧ (purgeIds s ms).1.ids = s.ids := by
  unfold purgeIds
  split
  · exact ⟨h, fun _ => rfl, rfl, rfl, rfl, rfl⟩
  · rename_i hno
    simp only [List.any_eq_true, decide_eq_true_eq, not_exists, not_and] at hno
    refine ⟨⟨?_, ?_, ?_, ?_⟩, ?_, rfl, rfl, rfl, rfl⟩
    · intro m f hf
      simp only at hf
      split at hf
      · obtain ⟨f', hf', -⟩ := Option.map_eq_some_iff.1 hf
        exact h.known m f' hf'
      · exact h.known m f hf
    · intro m hm
      obtain ⟨f, hf⟩ := h.has m hm
      simp only [hf]
      split
      · exact ⟨{ f with listed := false }, rfl⟩
      · exact ⟨f, rfl⟩
    · intro m
      simp only
      rw [h.out]
      split
      · constructor
        · rintro ⟨f, hf, hv⟩; exact ⟨{ f with listed := false }, by rw [hf]; rfl, hv⟩
        · rintro ⟨f, hf, hv⟩
          obtain ⟨f', hf', rfl⟩ := Option.map_eq_some_iff.1 hf
          exact ⟨f', hf', hv⟩
      · exact Iff.rfl
    · intro m f hf hv
      simp only at hf
      split at hf
      · rename_i hm
        obtain ⟨f', hf', rfl⟩ := Option.map_eq_some_iff.1 hf
        exact absurd ((h.out m).2 ⟨f', hf', hv⟩) (hno m hm)
      · exact h.listed m f hf hv
    · intro x
      simp only [value]
      split
      · cases s.futs x <;> rfl
      · rfl

theorem purgeAll_facts {K : List Mid} {s : Client} (h : Inv K s) : Inv K (purgeAll s).1 ∧ (∀ x, value (purgeAll s).1 x = value s x) ∧
    (purgeAll s).1.outstanding = s.outstanding ∧ (purgeAll s).1.out = s.out ∧ (purgeAll s).1.engines = s.engines ∧ (purgeAll s).1.ids = s.ids := by
  unfold purgeAll
  split
  · exact ⟨h, fun _ => rfl, rfl, rfl, rfl, rfl⟩
  · rename_i hno
    simp only [ne_eq, Decidable.not_not] at hno
    refine ⟨⟨?_, ?_, ?_, ?_⟩, ?_, rfl, rfl, rfl, rfl⟩
    · intro m f hf
      obtain ⟨f', hf', -⟩ := Option.map_eq_some_iff.1 hf
      exact h.known m f' hf'
    · intro m hm
      obtain ⟨f, hf⟩ := h.has m hm
      exact ⟨{ f with listed := false }, by simp [hf]⟩
    · intro m
      rw [h.out]
      constructor
      · rintro ⟨f, hf, hv⟩; exact ⟨{ f with listed := false }, by simp only; rw [hf]; rfl, hv⟩
      · rintro ⟨f, hf, hv⟩
        obtain ⟨f', hf', rfl⟩ := Option.map_eq_some_iff.1 hf
        exact ⟨f', hf', hv⟩
    · intro m f hf hv
      obtain ⟨f', hf', rfl⟩ := Option.map_eq_some_iff.1 hf
      have := (h.out m).2 ⟨f', hf', hv⟩
      rw [hno] at this
      cases this
    · intro x
      simp only [value]
      cases s.futs x <;> rfl

theorem idle_facts {K : List Mid} {s : Client} (h : Inv K s) (m : Mid) : Inv K (idle s m) ∧ (∀ x, value (idle s m) x = value s x) ∧
    (idle s m).outstanding = s.outstanding ∧ (idle s m).engines = s.engines ∧ (idle s m).ids = s.ids := by
  unfold idle
  cases hf : s.futs m with
  | none => exact ⟨h, fun _ => rfl, rfl, rfl, rfl⟩
  | some f =>
    simp only
    split
    · rename_i hl
      obtain ⟨k1, k2, k3, k4, k5, k6, k7, k8⟩ := settle_facts { s with futs := updF s.futs m (some { f with output := true }) } m
      obtain ⟨f', g1, g2, g3⟩ := k7 _ (updF_same _ _ _)
      refine ⟨⟨?_, ?_, ?_, ?_⟩, ?_, k1, k3, k4⟩
      · intro x g hx
        by_cases hxm : x = m
        · exact hxm ▸ h.known m f hf
        · rw [k5 x hxm] at hx; simp only [updF_ne _ hxm] at hx; exact h.known x g hx
      · intro x hx
        by_cases hxm : x = m
        · subst hxm; exact ⟨f', g1⟩
        · rw [k5 x hxm]; simp only [updF_ne _ hxm]; exact h.has x hx
      · intro x
        rw [k1]
        by_cases hxm : x = m
        · subst hxm
          simp only [h.out, g1, hf, Option.some.injEq, exists_eq_left', g2]
        · rw [k5 x hxm]; simp only [updF_ne _ hxm]; exact h.out x
      · intro x g hx hn
        by_cases hxm : x = m
        · subst hxm
          rw [g1] at hx; cases hx
          rw [g3 (g2 ▸ hn)]
          exact hl
        · rw [k5 x hxm] at hx; simp only [updF_ne _ hxm] at hx; exact h.listed x g hx hn
      · intro x
        rw [k6]
        by_cases hxm : x = m
        · subst hxm; simp [value, updF_same, hf]
        · simp [value, updF_ne _ hxm]
    · exact ⟨h, fun _ => rfl, rfl, rfl, rfl⟩

/-- how a step changes what users see -/
theorem step_facts {K : List Mid} {s : Client} (h : Inv K s) (e : Ev) (hfr : ∀ m ∈ e.creates, m ∉ K) :
    Inv (K ++ e.creates) (step s e) ∧ ∀ x, value (step s e) x = value s x ∨
      x ∈ s.outstanding ∧ ((∃ v us, e = .reply x v us ∧ value (step s e) x = some v) ∨
        ∃ i u, e = .unregister i ∧ i ∈ s.ids ∧ (s.engines.pop (.id i)).2 = some (.uuid u) ∧ x ∈ s.out u ∧ value (step s e) x = some (.died i)) := by
  have hnone : ∀ m ∈ e.creates, s.futs m = none := by
    intro m hm
    cases hf : s.futs m with
    | none => rfl
    | some f => exact absurd (h.known m f hf) (hfr m hm)
  cases e with
  | register i u =>
    simp only [step, Ev.creates, List.append_nil]
    exact ⟨h.same (s' := updateEngine s i u) rfl rfl, fun x => .inl rfl⟩
  | unregister i =>
    simp only [step, unregister, Ev.creates, List.append_nil]
    split
    · rename_i hi
      cases hp : s.engines.pop (.id i) with
      | mk d r =>
        cases r with
        | none => exact ⟨h.same rfl rfl, fun x => .inl rfl⟩
        | some k =>
          cases k with
          | id j => exact ⟨h.same rfl rfl, fun x => .inl rfl⟩
          | uuid u =>
            simp only
            obtain ⟨k1, k2, -⟩ := strand_facts i u (s.out u) (s := { s with ids := s.ids.erase i, engines := d }) (h.same rfl rfl)
            refine ⟨k1, ?_⟩
            intro x
            rcases k2 x with h' | ⟨h1, h2, h3⟩
            · exact .inl h'
            · exact .inr ⟨h2, .inr ⟨i, u, rfl, hi, by rw [hp], h1, h3⟩⟩
    · exact ⟨h, fun x => .inl rfl⟩
  | send m i =>
    obtain ⟨h1, h2⟩ := h.create (s' := send s m i) (m := m) (by intro f hf; rw [hnone m (by simp [Ev.creates])] at hf; cases hf) (c := true) (us := []) rfl rfl
    exact ⟨h1, fun x => .inl (h2 x)⟩
  | broadcast n ts c =>
    have hm : s.futs (.msg n) = none := hnone _ (by simp [Ev.creates])
    simp only [step, broadcast]
    cases c with
    | true =>
      obtain ⟨h1, h2⟩ := h.create (s' := sendFinish (sendBegin s (.msg n) none) (.msg n) ts) (m := .msg n) (by intro f hf; rw [hm] at hf; cases hf) (c := true) (us := ts) rfl rfl
      exact ⟨by simpa [Ev.creates] using h1, fun x => .inl (h2 x)⟩
    | false =>
      obtain ⟨h1, h2⟩ := h.create (s' := sendFinish (sendBegin s (.msg n) none) (.msg n) []) (m := .msg n) (by intro f hf; rw [hm] at hf; cases hf) (c := true) (us := []) rfl rfl
      obtain ⟨h3, h4⟩ := Inv.parts n ts h1 (by
        intro u hu f hf
        have : s.futs (.part n u) = none := hnone _ (by simp [Ev.creates]; exact hu)
        simp only [sendFinish, sendBegin] at hf
        rw [updF_ne _ (by simp), this] at hf
        cases hf)
      refine ⟨?_, ?_⟩
      · apply h3.mono
        intro x
        simp only [Ev.creates, List.mem_append, List.mem_singleton, List.mem_cons, Bool.false_eq_true, if_false, mem_eraseDups_parts, or_assoc, List.not_mem_nil, false_or]
      · intro x; left; simp only [Bool.false_eq_true, if_false]; rw [h4, h2]
  | reply m v us =>
    simp only [step, Ev.creates, List.append_nil]
    obtain ⟨k1, k2, k3, -⟩ := handleReply_facts h m v us
    refine ⟨k1, ?_⟩
    intro x
    by_cases hx : x = m
    · subst hx
      rw [k3]
      by_cases ho : x ∈ s.outstanding
      · exact .inr ⟨ho, .inl ⟨v, us, rfl, by simp [ho]⟩⟩
      · left; simp [ho]
    · exact .inl (k2 x hx)
  | idle m =>
    obtain ⟨k1, k2, -⟩ := idle_facts h m
    simp only [step, Ev.creates, List.append_nil]
    exact ⟨k1, fun x => .inl (k2 x)⟩
  | purge ms =>
    obtain ⟨k1, k2, -⟩ := purgeIds_facts h ms
    simp only [step, Ev.creates, List.append_nil]
    exact ⟨k1, fun x => .inl (k2 x)⟩
  | purgeAll =>
    obtain ⟨k1, k2, -⟩ := purgeAll_facts h
    simp only [step, Ev.creates, List.append_nil]
    exact ⟨k1, fun x => .inl (k2 x)⟩

theorem created_snoc (evs : List Ev) (e : Ev) : created (evs ++ [e]) = created evs ++ e.creates := by simp [created]

theorem run_snoc (evs : List Ev) (e : Ev) : run (evs ++ [e]) = step (run evs) e := by simp [run]

theorem FreshIds.snoc {evs : List Ev} {e : Ev} (h : FreshIds (evs ++ [e])) : FreshIds evs ∧ ∀ m ∈ e.creates, m ∉ created evs := by
  unfold FreshIds at *
  rw [created_snoc, List.nodup_append] at h
  exact ⟨h.1, fun m hm hc => h.2.2 m hc m hm rfl⟩

theorem snoc_induction {α : Type} {P : List α → Prop} (h0 : P []) (h1 : ∀ l a, P l → P (l ++ [a])) : ∀ l, P l := by
  intro l
  have : ∀ r : List α, P r.reverse := by
    intro r
    induction r with
    | nil => exact h0
    | cons a r ih => rw [List.reverse_cons]; exact h1 _ _ ih
  have := this l.reverse
  rwa [List.reverse_reverse] at this

theorem inv_run (evs : List Ev) (h : FreshIds evs) : Inv (created evs) (run evs) := by
  induction evs using snoc_induction with
  | h0 => exact ⟨by simp [run, init], by simp [created], by simp [run, init], by simp [run, init]⟩
  | h1 evs e ih =>
    obtain ⟨h1, h2⟩ := h.snoc
    rw [run_snoc, created_snoc]
    exact (step_facts (ih h1) e h2).1

/-! ## C40 -/

/-- what the user sees of `m` in every history: an outcome never changes; a change is caused by a reply to `m` or by the death of an engine -/
theorem value_step (pre : List Ev) (e : Ev) (h : FreshIds (pre ++ [e])) (m : Mid) :
    value (run (pre ++ [e])) m = value (run pre) m ∨ m ∈ created pre ∧ value (run pre) m = none ∧
      ((∃ v us, e = .reply m v us ∧ value (run (pre ++ [e])) m = some v) ∨ ∃ i, e = .unregister i ∧ value (run (pre ++ [e])) m = some (.died i)) := by
  obtain ⟨h1, h2⟩ := h.snoc
  have I := inv_run pre h1
  rw [run_snoc]
  rcases (step_facts I e h2).2 m with h' | ⟨ho, hc⟩
  · exact .inl h'
  · obtain ⟨f, hf, hv⟩ := (I.out m).1 ho
    refine .inr ⟨I.known m f hf, by simp [value, hf, hv], ?_⟩
    rcases hc with hc | ⟨i, u, h1, h2, h3, h4, h5⟩
    · exact .inl hc
    · exact .inr ⟨i, h1, h5⟩

/-- C40: after any history a request is outstanding iff it was made and has no outcome. -/
theorem outstanding_iff (evs : List Ev) (h : FreshIds evs) (m : Mid) : m ∈ (run evs).outstanding ↔ m ∈ created evs ∧ value (run evs) m = none := by
  have I := inv_run evs h
  rw [I.out]
  constructor
  · rintro ⟨f, hf, hv⟩; exact ⟨I.known m f hf, by simp [value, hf, hv]⟩
  · rintro ⟨hm, hv⟩
    obtain ⟨f, hf⟩ := I.has m hm
    exact ⟨f, hf, by simpa [value, hf] using hv⟩

theorem FreshIds.prefix {pre post : List Ev} (h : FreshIds (pre ++ post)) : FreshIds pre := by
  unfold FreshIds created at *
  rw [List.flatMap_append, List.nodup_append] at h
  exact h.1

/-- C40: an outcome is final: no later reply, engine death or other event changes it. -/
theorem outcome_final (pre post : List Ev) (h : FreshIds (pre ++ post)) (m : Mid) (v : Val) (hv : value (run pre) m = some v) : value (run (pre ++ post)) m = some v := by
  induction post using snoc_induction with
  | h0 => simpa using hv
  | h1 post e ih =>
    rw [← List.append_assoc] at h ⊢
    have := ih h.prefix
    rcases value_step (pre ++ post) e h m with h' | ⟨-, h', -⟩
    · rw [h', this]
    · rw [this] at h'; cases h'

/-- C40: the first reply to a request is its outcome. -/
theorem first_reply_is_outcome (pre : List Ev) (h : FreshIds pre) (m : Mid) (v : Val) (us : List Uuid) (hm : m ∈ created pre) (hn : value (run pre) m = none) :
    value (run (pre ++ [.reply m v us])) m = some v := by
  have I := inv_run pre h
  rw [run_snoc]
  have := (handleReply_facts I m v us).2.2.1
  rw [if_pos ((outstanding_iff pre h m).2 ⟨hm, hn⟩)] at this
  exact this

/-- C40: every outcome comes from a reply to this request, or from the removal of an engine; and that event was the first to give it one. -/
theorem outcome_cause (evs : List Ev) (h : FreshIds evs) (m : Mid) (v : Val) (hv : value (run evs) m = some v) :
    ∃ pre e post, evs = pre ++ e :: post ∧ m ∈ created pre ∧ value (run pre) m = none ∧ ((∃ us, e = .reply m v us) ∨ ∃ i, e = .unregister i ∧ v = .died i) := by
  induction evs using snoc_induction with
  | h0 => simp [run, init, value] at hv
  | h1 evs e ih =>
    rcases value_step evs e h m with h' | ⟨hm, hn, hc⟩
    · rw [h'] at hv
      obtain ⟨pre, e', post, rfl, hrest⟩ := ih h.prefix hv
      exact ⟨pre, e', post ++ [e], by simp, hrest⟩
    · refine ⟨evs, e, [], by simp, hm, hn, ?_⟩
      rcases hc with ⟨w, us, h1, h2⟩ | ⟨i, h1, h2⟩
      · rw [hv] at h2; cases h2; exact .inl ⟨us, h1⟩
      · rw [hv] at h2; cases h2; exact .inr ⟨i, h1, rfl⟩

/-- C40: `wait()` returns exactly when every request made so far has an outcome. -/
theorem wait_returns_iff (evs : List Ev) (h : FreshIds evs) : waitReturns (run evs) = true ↔ ∀ m ∈ created evs, value (run evs) m ≠ none := by
  have I := inv_run evs h
  have key : waitReturns (run evs) = true ↔ (run evs).outstanding = [] := by
    unfold waitReturns waitsFor
    by_cases ho : (run evs).outstanding = []
    · simp [ho]
    · rw [if_neg ho]
      simp only [ho, iff_false]
      obtain ⟨m, hm⟩ := List.exists_mem_of_ne_nil _ ho
      obtain ⟨f, hf, hv⟩ := (I.out m).1 hm
      intro hall
      rw [List.all_eq_true] at hall
      have := hall m (by rw [List.mem_filter]; exact ⟨hm, by simp [hf, I.listed m f hf hv]⟩)
      simp [hf, hv] at this
  rw [key]
  constructor
  · intro h0 m hm hn
    have := (outstanding_iff evs h m).2 ⟨hm, hn⟩
    rw [h0] at this
    cases this
  · intro hall
    apply List.eq_nil_iff_forall_not_mem.2
    intro m hm
    obtain ⟨h1, h2⟩ := (outstanding_iff evs h m).1 hm
    exact hall m h1 h2

/-- a history with a late duplicate reply -/
def exDup : List Ev := [.register 0 7, .send (.msg 1) (some 7), .send (.msg 2) none, .reply (.msg 1) (.ok 5) [7], .reply (.msg 1) (.ok 6) [7], .idle (.msg 1)]

example : FreshIds exDup ∧ value (run exDup) (.msg 1) = some (.ok 5) ∧ (run exDup).outstanding = [.msg 2] ∧ waitReturns (run exDup) = false := by decide

/-- C40, violated: a broadcast without coalescing is never complete: its own message id gets no reply (only its parts do), so it stays outstanding and `wait()` does not return
although every engine has answered. -/
theorem broadcast_stays_outstanding_violated :
    let evs : List Ev := [.register 0 7, .broadcast 1 [7] false, .reply (.part 1 7) (.ok 5) [7], .idle (.part 1 7), .idle (.msg 1)]
    FreshIds evs ∧ (run evs).outstanding = [.msg 1] ∧ waitReturns (run evs) = false := by decide

/-- General form: whatever else happens, if nobody answers the id of the broadcast itself, `wait()` never returns. -/
theorem broadcast_wait_never_returns_violated (pre post : List Ev) (n : Nat) (ts : List Uuid) (h : FreshIds (pre ++ .broadcast n ts false :: post))
    (hr : ∀ v us, Ev.reply (.msg n) v us ∉ post) (hd : ∀ i, Ev.unregister i ∉ post) : waitReturns (run (pre ++ .broadcast n ts false :: post)) = false := by
  have e0 : pre ++ Ev.broadcast n ts false :: post = (pre ++ [Ev.broadcast n ts false]) ++ post := by simp
  have hnew : value (run (pre ++ [Ev.broadcast n ts false])) (.msg n) = none := by
    rw [e0] at h
    have h' := h.prefix
    obtain ⟨-, h2⟩ := h'.snoc
    rcases value_step pre (.broadcast n ts false) h' (.msg n) with h3 | ⟨h3, -⟩
    · rw [h3]
      have I := inv_run pre h'.prefix
      cases hf : (run pre).futs (.msg n) with
      | none => simp [value, hf]
      | some f => exact absurd (I.known _ f hf) (h2 _ (by simp [Ev.creates]))
    · exact absurd h3 (h2 _ (by simp [Ev.creates]))
  have hnone : value (run (pre ++ .broadcast n ts false :: post)) (.msg n) = none := by
    rw [e0] at h ⊢
    clear e0
    induction post using snoc_induction with
    | h0 => simpa using hnew
    | h1 post e ih =>
      rw [← List.append_assoc] at h ⊢
      have ih' := ih h.prefix (fun v us hm => hr v us (by simp [hm])) (fun i hm => hd i (by simp [hm]))
      rcases value_step _ e h (.msg n) with h' | ⟨-, -, hc⟩
      · rw [h', ih']
      · rcases hc with ⟨v, us, rfl, -⟩ | ⟨i, rfl, -⟩
        · exact absurd (by simp) (hr v us)
        · exact absurd (by simp) (hd i)
  cases hw : waitReturns (run (pre ++ .broadcast n ts false :: post)) with
  | false => rfl
  | true =>
    refine absurd hnone ((wait_returns_iff _ h).1 hw (.msg n) ?_)
    simp [created, Ev.creates]

/-- A reply that arrives after the request was finished puts a result back into the cache, where it stays. -/
theorem late_reply_recached_violated :
    let evs : List Ev := [.register 0 7, .send (.msg 1) (some 7), .reply (.msg 1) (.ok 5) [7], .idle (.msg 1)]
    (run evs).results (.msg 1) = none ∧ (run (evs ++ [.reply (.msg 1) (.ok 6) [7]])).results (.msg 1) = some (.ok 6) := by decide

/-- Before the output has arrived, a second reply overwrites the cached result: `client.results` and the future disagree. -/
theorem second_reply_overwrites_cache_violated :
    let evs : List Ev := [.register 0 7, .send (.msg 1) (some 7), .reply (.msg 1) (.ok 5) [7], .reply (.msg 1) (.ok 6) [7]]
    (run evs).results (.msg 1) = some (.ok 6) ∧ value (run evs) (.msg 1) = some (.ok 5) := by decide

/-! ### `client.history` -/

/-- the id under which a call is recorded -/
def Ev.sent : Ev → Option Mid
  | .send m _ => some m
  | .broadcast n _ _ => some (.msg n)
  | _ => none

theorem settle_history (s : Client) (m : Mid) : (settle s m).history = s.history := by
  unfold settle
  split
  · rfl
  · dsimp only
    split
    · rename_i hc; rw [if_pos hc.1]
    · split <;> rfl

theorem handleReply_history (s : Client) (m : Mid) (v : Val) (us : List Uuid) : (handleReply s m v us).history = s.history := by
  unfold handleReply
  dsimp only
  split
  · rfl
  · split
    · rw [settle_history]
    · rfl

theorem strand_history (e : Eid) (u : Uuid) : ∀ (ms : List Mid) (s : Client), (strand e u ms s).history = s.history
  | [], _ => rfl
  | m :: ms, s => by
    unfold strand
    split
    · exact strand_history e u ms s
    · rw [strand_history e u ms, handleReply_history]

theorem addParts_history (n : Nat) : ∀ (us : List Uuid) (s : Client), (us.foldl (addPart n) s).history = s.history
  | [], _ => rfl
  | u :: us, s => by rw [List.foldl_cons, addParts_history n us]; rfl

/-- **`client.history`** is the list of the requests that were sent, in the order of the calls, each as often as it was sent, and nothing that happens later changes it. -/
theorem history_exact (evs : List Ev) : (run evs).history = evs.filterMap Ev.sent := by
  have step1 : ∀ (s : Client) (e : Ev), (step s e).history = s.history ++ (Ev.sent e).toList := by
    intro s e
    cases e with
    | register e u => simp [step, updateEngine, Ev.sent]
    | unregister e =>
      simp only [step, unregister, Ev.sent, Option.toList_none, List.append_nil]
      split
      · split
        · rw [strand_history]
        · rfl
      · rfl
    | send m i => simp [step, send, sendFinish, sendBegin, Ev.sent]
    | broadcast n ts c =>
      simp only [step, broadcast, Ev.sent, Option.toList_some]
      split
      · rfl
      · rw [addParts_history]; rfl
    | reply m v us => simp [step, handleReply_history, Ev.sent]
    | idle m =>
      simp only [step, idle, Ev.sent, Option.toList_none, List.append_nil]
      split
      · rfl
      · split
        · rw [settle_history]
        · rfl
    | purge ms => simp only [step, purgeIds, Ev.sent, Option.toList_none, List.append_nil]; split <;> rfl
    | purgeAll => simp only [step, purgeAll, Ev.sent, Option.toList_none, List.append_nil]; split <;> rfl
  induction evs using snoc_induction with
  | h0 => rfl
  | h1 evs e ih =>
    have : run (evs ++ [e]) = step (run evs) e := by simp [run]
    rw [this, step1, ih, List.filterMap_append]
    cases h : Ev.sent e <;> simp [List.filterMap_cons, h]

end IPP.Client
