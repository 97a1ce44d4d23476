import Verif.Serialize.Roundtrip
/-! # C37: sets; violations; examples -/
namespace IPP.Ser

/-- members of a set: byte strings, and hashable values that are not canned -/
def isMember : Obj → Bool
  | .bytes _ | .atom _ | .seq .tuple _ => true
  | _ => false

/-- a member after canning and extraction -/
def ext (thr : Nat) : Obj → Obj
  | .bytes b => if thr < b.length then .cBytes [none] else .cBytes [some ⟨.raw b, false⟩]
  | x => x

/-- the buffers sent for it -/
def big (thr : Nat) : Obj → List (List Nat)
  | .bytes b => if thr < b.length then [b] else []
  | _ => []

theorem member_extract (W : World) (thr : Nat) : ∀ (xs : List Obj), (∀ x ∈ xs, isMember x = true) →
    ∃ cs, canList xs = some cs ∧ extractList W thr cs = some (xs.map (ext thr), (xs.flatMap (big thr)).map (fun b => ⟨.raw b, false⟩))
  | [], _ => ⟨[], rfl, rfl⟩
  | x :: r, h => by
    obtain ⟨cs, h1, h2⟩ := member_extract W thr r (fun y hy => h y (by simp [hy]))
    have hx := h x (by simp)
    have : ∃ c, can x = some c ∧ extract W thr c = some (ext thr x, (big thr x).map (fun b => ⟨.raw b, false⟩)) := by
      cases x with
      | atom n => exact ⟨_, rfl, rfl⟩
      | seq k xs => exact ⟨_, rfl, rfl⟩
      | bytes b =>
        refine ⟨_, rfl, ?_⟩
        simp only [extract, isCanned, if_true, buffers, split, nbytes, ext, big]
        split <;> rename_i hb <;> simp [setBuffers, hb]
      | _ => simp [isMember] at hx
    obtain ⟨c, c1, c2⟩ := this
    refine ⟨c :: cs, by simp [canList, c1, h1], ?_⟩
    simp [extractList, c2, h2]

/-- what can be in the unpickled set: an empty place, a byte string, or a value -/
def isSlot : Obj → Bool
  | .cBytes [none] => true
  | .cBytes [some ⟨.raw _, _⟩] => true
  | .atom _ | .seq .tuple _ => true
  | _ => false

def isHole : Obj → Bool
  | .cBytes [none] => true
  | _ => false

/-- the value of a slot that is no hole -/
def fixedVal : Obj → Option Obj
  | .cBytes [some ⟨.raw b, _⟩] => some (.bytes b)
  | .atom n => some (.atom n)
  | .seq k xs => some (.seq k xs)
  | _ => none

theorem fill_slots (E : Env) (g : Nat → Option Obj) (v : Buf → Bool) (rest : List Part) : ∀ (L : List Obj) (B : List (List Nat)), (∀ x ∈ L, isSlot x = true) → B.length = (L.filter isHole).length →
    ∃ L' ys, restoreList L (wire v (B.map (fun b => ⟨.raw b, false⟩)) ++ rest) = some (L', rest) ∧ uncanList E g L' = some ys ∧ ys.Perm (L.filterMap fixedVal ++ B.map .bytes)
  | [], B, _, hB => by
    have : B = [] := List.length_eq_zero_iff.1 (by simpa using hB)
    subst this
    exact ⟨[], [], rfl, rfl, .refl _⟩
  | x :: L, B, h, hB => by
    have hx := h x (by simp)
    have step : ∀ (c : Obj) (y : Obj), isHole x = false → (∀ P, restore x P = some (c, P)) → uncan E g c = some y → fixedVal x = some y →
        ∃ L' ys, restoreList (x :: L) (wire v (B.map (fun b => ⟨.raw b, false⟩)) ++ rest) = some (L', rest) ∧ uncanList E g L' = some ys ∧ ys.Perm ((x :: L).filterMap fixedVal ++ B.map .bytes) := by
      intro c y hh hr hu hfv
      have hB' : B.length = (L.filter isHole).length := by rw [hB, List.filter_cons, hh]; simp
      obtain ⟨L', ys, a1, a2, a3⟩ := fill_slots E g v rest L B (fun z hz => h z (by simp [hz])) hB'
      refine ⟨c :: L', y :: ys, ?_, ?_, ?_⟩
      · simp only [restoreList, hr, a1, Option.bind_eq_bind, Option.bind_some]
      · rw [uncanList_cons, hu, a2]; rfl
      · rw [List.filterMap_cons, hfv]
        exact a3.cons y
    cases x with
    | atom n => exact step (.atom n) (.atom n) rfl (fun P => rfl) rfl rfl
    | seq k xs => exact step (.seq k xs) (.seq k xs) rfl (fun P => rfl) rfl rfl
    | cBytes b =>
      match b, hx with
      | [some ⟨.raw b, vw⟩], _ => exact step (.cBytes [some ⟨.raw b, vw⟩]) (.bytes b) rfl (fun P => rfl) rfl rfl
      | [none], _ =>
        have hB' : B.length = (L.filter isHole).length + 1 := by rw [hB, List.filter_cons]; rfl
        cases B with
        | nil => simp at hB'
        | cons b B =>
          obtain ⟨L', ys, a1, a2, a3⟩ := fill_slots E g v rest L B (fun z hz => h z (by simp [hz])) (by simpa using hB')
          refine ⟨.cBytes [some ⟨.raw b, v ⟨.raw b, false⟩⟩] :: L', .bytes b :: ys, ?_, ?_, ?_⟩
          · simp only [wire, List.map_cons, List.cons_append, arrive, restoreList, restore, isCanned, buffers, refill, if_true, Option.bind_eq_bind, Option.bind_some]
            simp only [wire, arrive] at a1
            rw [a1]
            rfl
          · rw [uncanList_cons, a2]; rfl
          · have : ([none].map id : List (Option Buf)) = [none] := rfl
            rw [List.filterMap_cons]
            simp only [fixedVal, List.map_cons]
            exact (a3.cons _).trans (List.perm_middle (l₁ := L.filterMap fixedVal) (l₂ := B.map Obj.bytes)).symm
    | _ => simp [isSlot] at hx

theorem ext_slot {thr : Nat} {x : Obj} (h : isMember x = true) : isSlot (ext thr x) = true := by
  cases x with
  | bytes b => simp only [ext]; split <;> rfl
  | seq k xs => cases k <;> first | rfl | (simp [isMember] at h)
  | atom n => rfl
  | _ => simp [isMember] at h

theorem members_perm (thr : Nat) : ∀ (xs : List Obj), (∀ x ∈ xs, isMember x = true) →
    ((xs.map (ext thr)).filterMap fixedVal ++ (xs.flatMap (big thr)).map Obj.bytes).Perm xs ∧ (xs.flatMap (big thr)).length = ((xs.map (ext thr)).filter isHole).length
  | [], _ => ⟨.refl _, rfl⟩
  | x :: r, h => by
    obtain ⟨h1, h2⟩ := members_perm thr r (fun y hy => h y (by simp [hy]))
    have hx := h x (by simp)
    cases x with
    | atom n => exact ⟨h1.cons _, by simpa [ext, big, isHole] using h2⟩
    | seq k xs => exact ⟨h1.cons _, by simpa [ext, big, isHole] using h2⟩
    | bytes b =>
      by_cases hb : thr < b.length
      · refine ⟨?_, by simp only [List.map_cons, List.flatMap_cons, ext, big, if_pos hb, List.filter_cons, isHole, if_true, List.length_cons, List.singleton_append, h2]⟩
        simp only [List.map_cons, List.flatMap_cons, ext, big, if_pos hb, List.filterMap_cons, fixedVal, List.cons_append, List.nil_append]
        exact List.perm_middle.trans (h1.cons _)
      · refine ⟨?_, by simp only [List.map_cons, List.flatMap_cons, ext, big, if_neg hb]; simpa [isHole] using h2⟩
        simp only [List.map_cons, List.flatMap_cons, ext, big, if_neg hb, List.filterMap_cons, fixedVal, List.nil_append]
        exact h1.cons _
    | _ => simp [isMember] at hx

/-- C37: a set of byte strings and of values that are not canned comes back as a set of the same members, in whatever order the receiver iterates over it. -/
theorem set_roundtrip_partial (W : World) (R : Recv) (thr items : Nat) (v : Buf → Bool) {xs : List Obj} {parts : List Part} (rest : List Part) (hi : items ≤ 64) (hn : xs.length < items) (hm : ∀ x ∈ xs, isMember x = true)
    (ho : ∀ l, (R.setOrder l).Perm l) (h : serialize W thr items (.seq .set xs) = some parts) :
    ∃ y, deserialize R (parts.map (arrive v) ++ rest) = some (y, rest) ∧ Same y (.seq .set xs) := by
  obtain ⟨cs, h1, h2⟩ := member_extract W thr xs hm
  simp only [serialize, if_pos hn, h1, h2, Option.bind_eq_bind, Option.bind_some] at h
  rw [dump_some h]
  obtain ⟨p1, p2⟩ := members_perm thr xs hm
  have ho' := ho (xs.map (ext thr))
  have hslot : ∀ x ∈ R.setOrder (xs.map (ext thr)), isSlot x = true := by
    intro x hx
    obtain ⟨y, hy, rfl⟩ := List.mem_map.1 (ho'.subset hx)
    exact ext_slot (hm y hy)
  obtain ⟨L', ys, a1, a2, a3⟩ := fill_slots R.E R.E.ns v rest (R.setOrder (xs.map (ext thr))) (xs.flatMap (big thr)) hslot (by rw [p2]; exact (ho'.filter _).length_eq.symm)
  refine ⟨.seq .set ys, ?_, .set ?_⟩
  · simp only [List.map_cons, arrive, List.cons_append, arrive_wire, deserialize]
    rw [if_pos (by simp only [List.length_map, maxItems]; omega)]
    simp only [if_true, a1, Option.bind_eq_bind, Option.bind_some, a2]
  · exact a3.trans (((ho'.filterMap _).append_right _).trans p1)

/-! ## violations -/

def exW : World := { pickSize := fun _ _ b => b.length + 100, byName := fun _ => false }
def exE : Env := { ns := fun n => if n = 7 then some (.atom 70) else none, mods := fun _ => none, met := fun _ => true }
def exR : Recv := { E := exE, setOrder := id }

/-- C37 violated: with an `item_threshold` above 64 a list of 64 byte strings arrives as canned objects without their data, and the buffers are left over. -/
theorem item_threshold_violated : ∃ (x : Obj) (parts : List Part), plain x = true ∧ closed exE x = true ∧ serialize exW 0 65 x = some parts ∧
    ∃ y p, deserialize exR parts = some (y, p) ∧ p.length = 64 ∧ ¬ Same y x := by
  refine ⟨.seq .list (List.replicate 64 (.bytes [1])), _, by decide, by decide, rfl, _, _, rfl, rfl, ?_⟩
  intro h
  cases h

/-- C37 violated: two partials in a set can exchange their large arguments. -/
theorem set_of_partials_violated : ∃ (R : Recv) (xs : List Obj) (parts : List Part), (∀ l, (R.setOrder l).Perm l) ∧ plain (.seq .set xs) = true ∧ closed R.E (.seq .set xs) = true ∧ serialize exW 1 64 (.seq .set xs) = some parts ∧
    ∃ y, deserialize R parts = some (y, []) ∧ ¬ Same y (.seq .set xs) := by
  refine ⟨{ exR with setOrder := List.reverse }, [.partial_ (.atom 1) [.bytes [10, 11]] [], .partial_ (.atom 2) [.bytes [20, 21]] []], _, fun l => List.reverse_perm l, by decide, by decide, rfl, _, rfl, ?_⟩
  intro h
  cases h with
  | set h =>
    have := h.subset (a := .partial_ (.atom 2) [.bytes [10, 11]] []) (by simp)
    simp at this

/-- C37 violated: a dict with numbers and strings as keys cannot be sent. -/
theorem mixed_keys_violated : plain (.dict [(.num 1, .atom 1), (.str 1, .atom 2)]) = true ∧ isData (.dict [(.num 1, .atom 1), (.str 1, .atom 2)]) = true ∧
    serialize exW 1024 64 (.dict [(.num 1, .atom 1), (.str 1, .atom 2)]) = none := ⟨by decide, by decide, rfl⟩

/-- C37 violated: the order of a dict is not kept, it arrives sorted by its keys. -/
theorem dict_order_violated : ∃ parts, serialize exW 1024 64 (.dict [(.num 2, .atom 1), (.num 1, .atom 2)]) = some parts ∧ deserialize exR parts = some (.dict [(.num 1, .atom 2), (.num 2, .atom 1)], []) :=
  ⟨_, rfl, rfl⟩

/-- C39 violated: a function with an array as default argument (or in its closure) cannot be sent, although the same array can be sent as an argument and in a partial. -/
theorem array_default_violated : serialize exW 1024 64 (.func 1 none [.arr .buffer 1 1 [5]] [] []) = none ∧ serialize exW 1024 64 (.func 1 none [] [] [.cell (.arr .buffer 1 1 [5])]) = none ∧
    (serialize exW 1024 64 (.arr .buffer 1 1 [5])).isSome = true ∧ (serialize exW 1024 64 (.partial_ (.func 1 none [] [] []) [.arr .buffer 1 1 [5]] [])).isSome = true := ⟨rfl, rfl, rfl, rfl⟩

/-- C39 violated: a reference as the default of a keyword-only argument is not looked up in the engine's namespace; as a positional default it is. -/
theorem keyword_default_reference_violated : ∃ c c', can (.func 1 none [] [(.str 1, .ref 7)] []) = some c ∧ uncan exE exE.ns c = none ∧
    can (.func 1 none [.ref 7] [] []) = some c' ∧ uncan exE exE.ns c' = some (.func 1 none [.atom 70] [] []) := ⟨_, _, rfl, rfl, rfl, rfl⟩

/-- C39 violated: a reference in a nested list stays a reference, in a nested dict it is resolved. -/
theorem nested_reference_violated : ∃ p q, serialize exW 1024 64 (.seq .list [.seq .list [.ref 7]]) = some p ∧ deserialize exR p = some (.seq .list [.seq .list [.ref 7]], []) ∧
    serialize exW 1024 64 (.seq .list [.dict [(.num 1, .ref 7)]]) = some q ∧ deserialize exR q = some (.seq .list [.dict [(.num 1, .atom 70)]], []) := ⟨_, _, rfl, rfl, rfl, rfl⟩

/-! ## examples -/

/-- a list with large and small byte strings, an array and a partial over them: four buffers travel separately -/
example : ∃ parts, serialize exW 1 64 (.seq .list [.bytes [1, 2], .bytes [3], .arr .buffer 4 1 [5, 6, 7], .partial_ (.func 1 none [.bytes [9, 9]] [] []) [.atom 1, .bytes [8, 8]] [(.str 2, .view [1, 1, 1]), (.str 1, .bytes [])]]) = some parts ∧
    parts.length = 5 ∧ deserialize exR parts = some (.seq .list [.bytes [1, 2], .bytes [3], .arr .buffer 4 1 [5, 6, 7], .partial_ (.func 1 none [.bytes [9, 9]] [] []) [.atom 1, .bytes [8, 8]] [(.str 2, .view [1, 1, 1]), (.str 1, .bytes [])]], []) :=
  ⟨_, rfl, rfl, rfl⟩

example : plain (.partial_ (.func 1 none [.bytes [9, 9]] [] []) [.atom 1, .bytes [8, 8]] [(.str 2, .view [1, 1, 1]), (.str 1, .bytes [])]) = true := by decide
example : closed exE (.partial_ (.func 1 none [.bytes [9, 9]] [] []) [.atom 1, .bytes [8, 8]] [(.str 2, .view [1, 1, 1]), (.str 1, .bytes [])]) = true := by decide

/-- a set with large byte strings, iterated in reverse by the receiver -/
example : ∃ parts, serialize exW 1 64 (.seq .set [.bytes [1, 2], .atom 3, .bytes [3, 4]]) = some parts ∧
    deserialize { exR with setOrder := List.reverse } parts = some (.seq .set [.bytes [1, 2], .atom 3, .bytes [3, 4]], []) := ⟨_, rfl, rfl⟩

/-- an apply message with a pre-pickled function and keyword arguments -/
example : ∃ parts, pack exW 1 64 (.prePickled (.func 1 none [] [] [])) [.plain (.bytes [1, 2]), .plain (.seq .tuple [.bytes [3, 4], .atom 5])] [(.str 9, .plain (.bytes [6, 7])), (.str 3, .plain (.atom 1))] = some parts ∧
    unpack exR parts = some (.func 1 none [] [] [], [.bytes [1, 2], .seq .tuple [.bytes [3, 4], .atom 5]], [(.str 3, .atom 1), (.str 9, .bytes [6, 7])]) := ⟨_, rfl, rfl⟩

end IPP.Ser
