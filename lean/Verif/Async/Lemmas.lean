import Verif.Async.Model

/-! Helper lemmas about the async-result model. -/
namespace IPP.Async
open IPP.Map (Dist PyErr)

theorem mem_dedup (l : List Nat) (x : Nat) : x ∈ dedup l ↔ x ∈ l := by
  induction l with
  | nil => simp [dedup]
  | cons a l ih =>
    simp only [dedup, List.mem_cons, List.mem_filter, ih]
    by_cases h : x = a <;> simp [h]

theorem dedup_nodup (l : List Nat) : (dedup l).Nodup := by
  induction l with
  | nil => simp [dedup]
  | cons a l ih =>
    simp only [dedup, List.nodup_cons]
    refine ⟨by simp, ih.filter _⟩

theorem dedup_of_nodup (l : List Nat) (h : l.Nodup) : dedup l = l := by
  induction l with
  | nil => rfl
  | cons a l ih =>
    simp only [List.nodup_cons] at h
    simp only [dedup, ih h.2]
    congr 1
    apply List.filter_eq_self.2
    intro x hx
    simp only [ne_eq, decide_not, Bool.not_eq_eq_eq_not, Bool.not_true, decide_eq_false_iff_not]
    rintro rfl
    exact h.1 hx

/-- What the combined future is resolved with. -/
def combine (done : Nat → Option (Except Exc V)) (cs : List Nat) : Except Exc (List V) :=
  match (gatherResults done cs ([], none)).2 with
  | some x => .error x
  | none => .ok (gatherResults done cs ([], none)).1

/-- Invariant of a multi_future; `todo` are the children whose callback is not yet attached. -/
structure MFInv (m : MF V) (todo : List Nat) : Prop where
  unf : ∀ x, x ∈ m.unfinished ↔ x ∈ m.children ∧ (m.done x = none ∨ x ∈ todo)
  res_done : m.unfinished = [] → m.result = some (combine m.done m.children)
  res_none : m.unfinished ≠ [] → m.result = none
  sets : m.sets = if m.result.isSome then 1 else 0

theorem callback_inv (m : MF V) (f : Nat) (todo : List Nat) (hf : f ∈ m.children) (hnt : f ∉ todo)
    (hd : (m.done f).isSome)
    (h1 : ∀ x, x ∈ m.unfinished ↔ x ∈ m.children ∧ (m.done x = none ∨ x ∈ todo ∨ x = f))
    (h2 : m.result = none) (h3 : m.sets = 0) :
    MFInv (m.callback f) todo ∧ (m.callback f).children = m.children ∧ (m.callback f).done = m.done := by
  have hfu : f ∈ m.unfinished := (h1 f).2 ⟨hf, Or.inr (Or.inr rfl)⟩
  have hu : ∀ x, x ∈ m.unfinished.filter (· ≠ f) ↔ x ∈ m.children ∧ (m.done x = none ∨ x ∈ todo) := by
    intro x
    simp only [List.mem_filter, h1, ne_eq, decide_not, Bool.not_eq_eq_eq_not, Bool.not_true,
      decide_eq_false_iff_not]
    constructor
    · rintro ⟨⟨hc, h | h | h⟩, hx⟩
      · exact ⟨hc, Or.inl h⟩
      · exact ⟨hc, Or.inr h⟩
      · exact absurd h hx
    · rintro ⟨hc, h⟩
      refine ⟨⟨hc, ?_⟩, ?_⟩
      · rcases h with h | h
        · exact Or.inl h
        · exact Or.inr (Or.inl h)
      · rintro rfl
        rcases h with h | h
        · simp [h] at hd
        · exact hnt h
  unfold MF.callback
  rw [if_neg (by simpa using hfu)]
  simp only [h2]
  by_cases he : m.unfinished.filter (· ≠ f) = []
  · rw [if_neg (by simpa using he)]
    have hc : ∀ (r : Option Exc), (gatherResults m.done m.children ([], none)).2 = r →
        combine m.done m.children = (match r with
          | some x => .error x
          | none => .ok (gatherResults m.done m.children ([], none)).1) := by
      rintro r rfl; rfl
    cases hg : (gatherResults m.done m.children ([], none)).2 with
    | none =>
      simp only []
      refine ⟨⟨hu, ?_, ?_, ?_⟩, by simp, by simp⟩
      · intro _; simp [hc none hg]
      · intro h; exact absurd he h
      · simp [h3]
    | some x =>
      simp only []
      refine ⟨⟨hu, ?_, ?_, ?_⟩, by simp, by simp⟩
      · intro _; simp [hc (some x) hg]
      · intro h; exact absurd he h
      · simp [h3]
  · rw [if_pos (by simpa using he)]
    refine ⟨⟨hu, ?_, ?_, ?_⟩, by simp, by simp⟩
    · intro h; exact absurd h he
    · intro _; rfl
    · simp [h3]

theorem listen_inv (todo : List Nat) : ∀ (m : MF V) (f : Nat), f ∈ m.children → f ∉ todo → MFInv m (f :: todo) →
    MFInv (m.listen f) todo ∧ (m.listen f).children = m.children ∧ (m.listen f).done = m.done := by
  intro m f hf hnt h
  have hne : m.unfinished ≠ [] := by
    intro he
    have := (h.unf f).2 ⟨hf, by simp⟩
    rw [he] at this
    simp at this
  have hres := h.res_none hne
  unfold MF.listen
  by_cases hd : (m.done f).isSome
  · rw [if_pos hd]
    apply callback_inv m f todo hf hnt hd
    · intro x
      rw [h.unf x]
      simp only [List.mem_cons]
      constructor
      · rintro ⟨hc, h | h | h⟩ <;> simp [*]
      · rintro ⟨hc, h | h | h⟩ <;> simp [*]
    · exact hres
    · have := h.sets; simpa [hres] using this
  · rw [if_neg hd]
    have hd' : m.done f = none := by simpa using hd
    refine ⟨⟨?_, h.res_done, h.res_none, h.sets⟩, rfl, rfl⟩
    intro x
    rw [h.unf x]
    simp only [List.mem_cons]
    constructor
    · rintro ⟨hc, h | h | h⟩
      · exact ⟨hc, Or.inl h⟩
      · exact ⟨hc, Or.inl (h ▸ hd')⟩
      · exact ⟨hc, Or.inr h⟩
    · rintro ⟨hc, h | h⟩
      · exact ⟨hc, Or.inl h⟩
      · exact ⟨hc, Or.inr (Or.inr h)⟩

theorem listenAll_inv : ∀ (l : List Nat) (m : MF V), l.Nodup → (∀ x ∈ l, x ∈ m.children) → MFInv m l →
    MFInv (l.foldl MF.listen m) [] ∧ (l.foldl MF.listen m).children = m.children ∧
      (l.foldl MF.listen m).done = m.done := by
  intro l
  induction l with
  | nil => intro m _ _ h; exact ⟨h, rfl, rfl⟩
  | cons f l ih =>
    intro m hn hsub h
    simp only [List.nodup_cons] at hn
    obtain ⟨h1, h2, h3⟩ := listen_inv l m f (hsub f (by simp)) hn.1 h
    obtain ⟨h4, h5, h6⟩ := ih (m.listen f) hn.2 (fun x hx => by rw [h2]; exact hsub x (by simp [hx])) h1
    exact ⟨h4, by rw [List.foldl_cons, h5, h2], by rw [List.foldl_cons, h6, h3]⟩

theorem multiFuture_inv (children : List Nat) (done : Nat → Option (Except Exc V)) :
    MFInv (multiFuture children done) [] ∧ (multiFuture children done).children = children ∧
      (multiFuture children done).done = done := by
  unfold multiFuture
  by_cases hc : children = []
  · subst hc
    simp only [if_true, dedup, List.foldl_nil]
    refine ⟨⟨by simp, ?_, by simp, by simp⟩, by simp, by simp⟩
    intro _
    rfl
  · simp only [hc, if_false]
    apply listenAll_inv _ _ (dedup_nodup children)
    · intro x hx; exact (mem_dedup children x).1 hx
    · refine ⟨?_, ?_, ?_, by simp⟩
      · intro x; simp only [mem_dedup]; exact ⟨fun h => ⟨h, Or.inr h⟩, fun h => h.1⟩
      · intro h
        have : ∀ x, x ∉ children := by
          intro x hx
          have := (mem_dedup children x).2 hx
          simp only at h
          rw [h] at this
          simp at this
        exact absurd (List.eq_nil_iff_forall_not_mem.2 this) hc
      · intro _; rfl

theorem gather_congr (d d' : Nat → Option (Except Exc V)) (cs : List Nat) (h : ∀ x ∈ cs, d x = d' x) :
    ∀ acc, gatherResults d cs acc = gatherResults d' cs acc := by
  induction cs with
  | nil => intro acc; rfl
  | cons c cs ih =>
    rintro ⟨rl, e⟩
    have ih' := ih (fun x hx => h x (by simp [hx]))
    simp only [gatherResults, h c (by simp)]
    cases d' c with
    | none => exact ih' _
    | some o => cases o <;> exact ih' _

theorem complete_inv (m : MF V) (f : Nat) (r : Except Exc V) (h : MFInv m []) :
    MFInv (m.complete f r) [] ∧ (m.complete f r).children = m.children ∧
      (∀ g, (m.complete f r).done g = if g = f ∧ m.done f = none then some r else m.done g) := by
  unfold MF.complete
  by_cases hd : (m.done f).isSome
  · rw [if_pos hd]
    refine ⟨h, rfl, ?_⟩
    intro g
    by_cases hg : g = f ∧ m.done f = none
    · simp [hg.2] at hd
    · simp [hg]
  · rw [if_neg hd]
    have hd' : m.done f = none := by simpa using hd
    simp only []
    by_cases hf : f ∈ m.children
    · rw [if_pos hf]
      have hmem : f ∈ m.unfinished := (h.unf f).2 ⟨hf, Or.inl hd'⟩
      have hne : m.unfinished ≠ [] := by intro he; rw [he] at hmem; simp at hmem
      have hres := h.res_none hne
      have hs := h.sets
      obtain ⟨h1, h2, h3⟩ := callback_inv
        { m with done := fun g => if g = f then some r else m.done g } f [] hf (by simp) (by simp)
        (by
          intro x
          simp only [h.unf x, List.not_mem_nil, or_false, false_or]
          by_cases hx : x = f
          · subst hx; simp [hd', hf]
          · simp [hx])
        hres (by simpa [hres] using hs)
      refine ⟨h1, h2, ?_⟩
      intro g
      rw [h3]
      simp only [hd', and_true]
    · rw [if_neg hf]
      refine ⟨⟨?_, ?_, h.res_none, h.sets⟩, rfl, ?_⟩
      · intro x
        simp only [h.unf x]
        by_cases hx : x = f
        · subst hx; simp [hf]
        · simp [hx]
      · intro he
        simp only [h.res_done he]
        unfold combine
        rw [gather_congr m.done (fun g => if g = f then some r else m.done g) m.children]
        intro x hx
        have : x ≠ f := by rintro rfl; exact hf hx
        simp [this]
      · intro g; simp [hd']

theorem gather_ok (d : Nat → Option (Except Exc V)) : ∀ (cs : List Nat) (vs : List V) (rl : List V) (e : Option Exc),
    cs.map d = vs.map (fun v => some (.ok v)) → gatherResults d cs (rl, e) = (rl ++ vs, e) := by
  intro cs
  induction cs with
  | nil =>
    intro vs rl e h
    cases vs with
    | nil => simp [gatherResults]
    | cons => simp at h
  | cons c cs ih =>
    intro vs rl e h
    cases vs with
    | nil => simp at h
    | cons v vs =>
      simp only [List.map_cons, List.cons.injEq] at h
      simp only [gatherResults, h.1]
      rw [ih vs _ _ h.2]
      simp

theorem gather_err (d : Nat → Option (Except Exc V)) : ∀ (cs : List Nat) (rl : List V) (x : Exc),
    (gatherResults d cs (rl, some x)).2 = some x := by
  intro cs
  induction cs with
  | nil => intro rl x; rfl
  | cons c cs ih =>
    intro rl x
    simp only [gatherResults]
    cases d c with
    | none => exact ih _ _
    | some o => cases o <;> exact ih _ _

/-! ### rows and flattening -/

theorem heads_tails_perm (ls : List (List V)) :
    (ls.filterMap (fun l => l[0]?) ++ (ls.map List.tail).flatten).Perm ls.flatten := by
  induction ls with
  | nil => simp
  | cons l ls ih =>
    cases l with
    | nil => simpa using ih
    | cons a l =>
      simp only [List.filterMap_cons, List.getElem?_cons_zero, List.map_cons, List.tail_cons,
        List.flatten_cons, List.cons_append]
      apply List.Perm.cons
      refine List.Perm.trans ?_ (List.Perm.append_left l ih)
      rw [← List.append_assoc, ← List.append_assoc]
      exact List.Perm.append_right _ List.perm_append_comm

theorem rows_perm : ∀ (R : Nat) (ls : List (List V)), (∀ l ∈ ls, l.length ≤ R) →
    ((List.range R).flatMap (IPP.Map.rrRow ls)).Perm ls.flatten := by
  intro R
  induction R with
  | zero =>
    intro ls h
    have : ls.flatten = [] := by
      rw [List.flatten_eq_nil_iff]
      intro l hl
      exact List.length_eq_zero_iff.1 (by have := h l hl; omega)
    simp [this]
  | succ R ih =>
    intro ls h
    rw [List.range_succ_eq_map, List.flatMap_cons, List.flatMap_map]
    have h1 : IPP.Map.rrRow ls 0 = ls.filterMap (fun l => l[0]?) := rfl
    have h2 : (fun i => IPP.Map.rrRow ls (i.succ)) = IPP.Map.rrRow (ls.map List.tail) := by
      funext i
      unfold IPP.Map.rrRow
      rw [List.filterMap_map]
      congr 1
      funext l
      cases l <;> simp
    rw [h1, h2]
    refine List.Perm.trans (List.Perm.append_left _ (ih (ls.map List.tail) ?_)) (heads_tails_perm ls)
    intro l hl
    obtain ⟨l', hl', rfl⟩ := List.mem_map.1 hl
    have := h l' hl'
    simp; omega

/-- the chunk as yielded items -/
def lres (l : List V) : Res (Chunk V) := .val (.list l)

theorem yieldAll_lists (re : Bool) (ls : List (List V)) :
    yieldAll re (ls.map lres) = ⟨ls.flatten.map (fun v => .val (.scalar v)), none⟩ := by
  have hc : ∀ l : List V, collectFor re (l.map (fun v => (Res.val (Chunk.scalar v) : Item V)))
      = .ok (l.map (fun v => .val (.scalar v))) := by
    intro l
    cases re with
    | true => rfl
    | false =>
      have : ∀ (l : List V) el, collectLoop (l.map (fun v => (Res.val (Chunk.scalar v) : Item V))) el = .ok el := by
        intro l
        induction l with
        | nil => intro el; rfl
        | cons v l ih => intro el; simpa [collectLoop, asRemote] using ih el
      simp [collectFor, collectExceptions, this]
  induction ls with
  | nil => rfl
  | cons l ls ih =>
    have h1 : yieldChild re (lres l) = ⟨l.map (fun v => .val (.scalar v)), none⟩ := by
      simp only [yieldChild, lres, hc]
    simp only [List.map_cons, yieldAll, h1, ih, List.flatten_cons, List.map_append]

theorem values_lists (ls : List (List V)) : values (ls.map lres) = ls.map .list := by
  induction ls with
  | nil => rfl
  | cons l ls ih => simp [lres, values] at *; exact ih

theorem any_lists (ls : List (List V)) : (ls.map lres).any isExc = false := by
  induction ls with
  | nil => rfl
  | cons l ls ih => simp [lres, isExc] at *

theorem iter_lists (ls : List (List V)) :
    (ls.map (Chunk.list)).mapM Chunk.iter? = some (ls.map (fun l => l.map Chunk.scalar)) := by
  induction ls with
  | nil => rfl
  | cons l ls ih =>
    rw [List.map_cons, List.mapM_cons, ih]
    rfl

theorem collect_lists (re : Bool) (ls : List (List V)) :
    collectFor re (ls.map lres) = .ok (ls.map lres) := by
  cases re with
  | true => rfl
  | false =>
    have : ∀ (ls : List (List V)) el, collectLoop (ls.map lres) el = .ok el := by
      intro ls
      induction ls with
      | nil => intro el; rfl
      | cons v l ih => intro el; simpa [collectLoop, asRemote, lres] using ih el
    simp [collectFor, collectExceptions, this]

theorem flatten_map_scalar (ls : List (List V)) :
    (ls.map (fun l => l.map (Chunk.scalar))).flatten = ls.flatten.map Chunk.scalar := by
  rw [List.map_flatten]

theorem rrRow_map (g : V → W) (ls : List (List V)) (i : Nat) :
    IPP.Map.rrRow (ls.map (fun l => l.map g)) i = (IPP.Map.rrRow ls i).map g := by
  unfold IPP.Map.rrRow
  rw [List.filterMap_map, List.map_filterMap]
  congr 1
  funext l
  simp

end IPP.Async
