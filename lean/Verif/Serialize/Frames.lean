import Verif.Serialize.Sets
/-! # C37: which data travel as separate frames (not copied into the pickle) -/
namespace IPP.Ser

theorem split_frames (W : World) (thr : Nat) : ∀ b : List (Option Buf), (∀ x ∈ (split W thr b).2, thr < nbytes W x.data) ∧ (∀ x, some x ∈ (split W thr b).1 → nbytes W x.data ≤ thr ∧ x.view = false) ∧
    ∀ x, some x ∈ b → thr < nbytes W x.data → x ∈ (split W thr b).2
  | [] => by simp [split]
  | none :: r => by
    obtain ⟨h1, h2, h3⟩ := split_frames W thr r
    refine ⟨h1, fun x hx => h2 x (by simpa [split] using hx), fun x hx => h3 x (by simpa using hx)⟩
  | some b :: r => by
    obtain ⟨h1, h2, h3⟩ := split_frames W thr r
    by_cases ht : thr < nbytes W b.data
    · simp only [split, if_pos ht]
      refine ⟨fun x hx => ?_, fun x hx => h2 x (by simpa using hx), fun x hx hl => ?_⟩
      · rcases List.mem_cons.1 hx with rfl | hx
        · exact ht
        · exact h1 x hx
      · rcases List.mem_cons.1 hx with hx | hx
        · cases hx; simp
        · exact List.mem_cons_of_mem _ (h3 x hx hl)
    · simp only [split, if_neg ht]
      refine ⟨h1, fun x hx => ?_, fun x hx hl => ?_⟩
      · rcases List.mem_cons.1 hx with hx | hx
        · cases hx; exact ⟨Nat.le_of_not_lt ht, rfl⟩
        · exact h2 x hx
      · rcases List.mem_cons.1 hx with hx | hx
        · cases hx; exact absurd hl ht
        · exact h3 x hx hl

/-- no buffer of this canned object is larger than the threshold, and none is a memoryview -/
def Small (W : World) (thr : Nat) (o : Obj) : Prop := ∀ b, buffers o = some b → ∀ x, some x ∈ b → nbytes W x.data ≤ thr ∧ x.view = false

theorem buffers_set {b b0 : List (Option Buf)} {o : Obj} (h : buffers o = some b0) : buffers (setBuffers b o) = some b ∨ (b0 = [] ∧ setBuffers b o = o) := by
  cases o <;> simp_all [buffers, setBuffers]

theorem extract_frames (W : World) (thr : Nat) {o o' : Obj} {bs : List Buf} (h : extract W thr o = some (o', bs)) :
    (∀ x ∈ bs, thr < nbytes W x.data) ∧ (isCanned o = true → Small W thr o') := by
  unfold extract at h
  by_cases hc : isCanned o = true
  · rw [if_pos hc] at h
    cases hb : buffers o with
    | none => rw [hb] at h; cases h
    | some b =>
      rw [hb] at h
      simp only [Option.some.injEq, Prod.mk.injEq] at h
      obtain ⟨rfl, rfl⟩ := h
      obtain ⟨h1, h2, _⟩ := split_frames W thr b
      refine ⟨h1, fun _ b' hb' x hx => ?_⟩
      rcases buffers_set (b := (split W thr b).1) hb with h | ⟨h, h'⟩
      · rw [h] at hb'; cases hb'; exact h2 x hx
      · rw [h', hb] at hb'
        cases hb'
        rw [h] at hx; cases hx
  · rw [if_neg hc] at h
    simp only [Option.some.injEq, Prod.mk.injEq] at h
    obtain ⟨rfl, rfl⟩ := h
    exact ⟨by simp, fun h => absurd h hc⟩

theorem extractList_frames (W : World) (thr : Nat) : ∀ (l l' : List Obj) (bs : List Buf), extractList W thr l = some (l', bs) → ∀ x ∈ bs, thr < nbytes W x.data
  | [], l', bs, h => by simp [extractList] at h; obtain ⟨rfl, rfl⟩ := h; simp
  | o :: r, l', bs, h => by
    simp only [extractList, Option.bind_eq_bind] at h
    cases h1 : extract W thr o with
    | none => rw [h1] at h; simp at h
    | some q =>
      rw [h1] at h
      cases h2 : extractList W thr r with
      | none => rw [h2] at h; simp at h
      | some q' =>
        rw [h2] at h
        obtain ⟨o', b⟩ := q
        obtain ⟨r', bs'⟩ := q'
        simp only [Option.bind_some, Option.some.injEq, Prod.mk.injEq] at h
        obtain ⟨rfl, rfl⟩ := h
        intro x hx
        rcases List.mem_append.1 hx with hx | hx
        · exact (extract_frames W thr h1).1 x hx
        · exact extractList_frames W thr r r' bs' h2 x hx

theorem extractKV_frames (W : World) (thr : Nat) : ∀ (l l' : List (Key × Obj)) (bs : List Buf), extractKV W thr l = some (l', bs) → ∀ x ∈ bs, thr < nbytes W x.data
  | [], l', bs, h => by simp [extractKV] at h; obtain ⟨rfl, rfl⟩ := h; simp
  | (k, o) :: r, l', bs, h => by
    simp only [extractKV, Option.bind_eq_bind] at h
    cases h1 : extract W thr o with
    | none => rw [h1] at h; simp at h
    | some q =>
      rw [h1] at h
      cases h2 : extractKV W thr r with
      | none => rw [h2] at h; simp at h
      | some q' =>
        rw [h2] at h
        obtain ⟨o', b⟩ := q
        obtain ⟨r', bs'⟩ := q'
        simp only [Option.bind_some, Option.some.injEq, Prod.mk.injEq] at h
        obtain ⟨rfl, rfl⟩ := h
        intro x hx
        rcases List.mem_append.1 hx with hx | hx
        · exact (extract_frames W thr h1).1 x hx
        · exact extractKV_frames W thr r r' bs' h2 x hx

theorem dump_frames {W : World} {o : Obj} {bs : List Buf} {parts : List Part} {thr : Nat} (h : dump W o bs = some parts) (hb : ∀ x ∈ bs, thr < nbytes W x.data) :
    ∃ (o : Obj) (bs : List Buf), parts = .pkl o :: bs.map .buf ∧ ∀ x ∈ bs, thr < nbytes W x.data := by
  unfold dump at h
  split at h
  · simp only [Option.some.injEq] at h
    exact ⟨o, bs, h.symm, hb⟩
  · cases h

/-- C37: a serialized value is one pickle followed only by data frames, and only data larger than the threshold travel as frames of their own. -/
theorem frames_large (W : World) (thr items : Nat) {x : Obj} {parts : List Part} (h : serialize W thr items x = some parts) :
    ∃ (o : Obj) (bs : List Buf), parts = .pkl o :: bs.map .buf ∧ ∀ b ∈ bs, thr < nbytes W b.data := by
  have pl : (do
      let c ← can x
      let (c', bs) ← extract W thr c
      dump W c' bs) = some parts → ∃ (o : Obj) (bs : List Buf), parts = .pkl o :: bs.map .buf ∧ ∀ b ∈ bs, thr < nbytes W b.data := by
    intro h
    simp only [Option.bind_eq_bind] at h
    cases h1 : can x with
    | none => rw [h1] at h; simp at h
    | some c =>
      rw [h1] at h
      simp only [Option.bind_some] at h
      cases h2 : extract W thr c with
      | none => rw [h2] at h; simp at h
      | some q =>
        obtain ⟨c', bs⟩ := q
        rw [h2] at h
        exact dump_frames h (extract_frames W thr h2).1
  unfold serialize at h
  simp only at h
  split at h
  · split at h
    · simp only [Option.bind_eq_bind] at h
      rename_i k xs _
      cases h1 : canList xs with
      | none => rw [h1] at h; simp at h
      | some cs =>
        rw [h1] at h
        simp only [Option.bind_some] at h
        cases h2 : extractList W thr cs with
        | none => rw [h2] at h; simp at h
        | some q =>
          obtain ⟨c', bs⟩ := q
          rw [h2] at h
          exact dump_frames h (extractList_frames W thr _ _ _ h2)
    · exact pl h
  · split at h
    · split at h
      · simp only [Option.bind_eq_bind] at h
        rename_i kv _ _
        cases h1 : canKV (sortKV kv) with
        | none => rw [h1] at h; simp at h
        | some cs =>
          rw [h1] at h
          simp only [Option.bind_some] at h
          cases h2 : extractKV W thr cs with
          | none => rw [h2] at h; simp at h
          | some q =>
            obtain ⟨c', bs⟩ := q
            rw [h2] at h
            exact dump_frames h (extractKV_frames W thr _ _ _ h2)
      · cases h
    · exact pl h
  · exact pl h

/-- C37: a byte string, memoryview or contiguous array travels without being copied into the pickle exactly if it is larger than the threshold. -/
theorem data_frame_iff (W : World) (thr items : Nat) (b : List Nat) :
    (serialize W thr items (.bytes b) = some (if thr < b.length then [.pkl (.cBytes [none]), .buf ⟨.raw b, false⟩] else [.pkl (.cBytes [some ⟨.raw b, false⟩])])) ∧
    (serialize W thr items (.view b) = some (if thr < b.length then [.pkl (.cView [none]), .buf ⟨.raw b, true⟩] else [.pkl (.cView [some ⟨.raw b, false⟩])])) := by
  by_cases h : thr < b.length <;>
    simp [serialize, can, extract, isCanned, buffers, split, nbytes, setBuffers, dump, picklable, noViews, h]

end IPP.Ser
