import Verif.Namespace.Scatter
import Verif.Namespace.Examples
/-!
# Examples and violations for C73
-/
namespace IPP.Namespace
open IPP.Map (Dist)

/-- values: numbers, and lists as in Lisp -/
inductive T where
  | num (n : Nat)
  | nil
  | cons (a b : T)
deriving DecidableEq

def T.ofList : List T → T
  | [] => .nil
  | a :: t => .cons a (T.ofList t)

def T.toList : T → Option (List T)
  | .num _ => none
  | .nil => some []
  | .cons a b => match T.toList b with
    | none => none
    | some l => some (a :: l)

theorem T.inv : ∀ l, T.toList (T.ofList l) = some l
  | [] => rfl
  | a :: t => by simp [T.ofList, T.toList, T.inv t]

def exL : Lists T := ⟨T.ofList, T.toList, T.inv⟩

def exT : Interp T := { ident := fun _ => true, expr := fun _ _ => .raised (.user "?"), picklable := fun _ => true, initial := [] }

/-- `lambda a, b: a + b` (and of one argument: its successor, with an exception for 0) -/
def exAdd : List T → Except Err T
  | [.num 0] => .error (.user "zero")
  | [.num a] => .ok (.num (a + 1))
  | [.num a, .num b] => .ok (.num (a + b))
  | _ => .error (.user "bad")

def nums (l : List Nat) : List T := l.map .num

/-- a name for the message to the j-th target -/
def msgName (p : String) : Nat → String
  | 0 => p ++ "0"
  | 1 => p ++ "1"
  | _ => p ++ "2"

/-- everything is sent, then every engine executes what it has -/
def exHist (sends : List (Nat × String × Req T)) (takes : List Nat) : List (Ev T) :=
  sends.map (fun s => .send ⟨0, 3, s.1⟩ s.2.1 s.2.2) ++ takes.map (fun e => .take ⟨0, 3, e⟩)

/-- the replies to one message -/
def replies (m : String) (h : List (Ev T)) : List (Outcome T) := ((run exT (fresh (fun _ => [])) h).log.filter (fun x => x.2.1 = m)).map (fun x => x.2.2.2)

def mapHist (f : List T → Except Err T) (ts ts' : List Nat) (names : List String) (seqs : List (List T)) (takes : List Nat) : List (Ev T) :=
  exHist (mapSends exT exL f (fun k => msgName (if k = 0 then "a" else "b")) (msgName "m") ts ts' names seqs) takes

/-- two engines, two sequences of equal length, executed in an odd order -/
example : (replies "m0" (mapHist exAdd [4, 7] [4, 7] ["s0", "s1"] [nums [1, 2, 3], nums [10, 20, 30]] [7, 4, 4, 7, 7, 4])) ++
    (replies "m1" (mapHist exAdd [4, 7] [4, 7] ["s0", "s1"] [nums [1, 2, 3], nums [10, 20, 30]] [7, 4, 4, 7, 7, 4])) =
    [.ok (.val (exL.of (nums [11, 22]))), .ok (.val (exL.of (nums [33])))] := by decide +kernel

/-! ### the hypotheses are met -/

theorem keepsPush (x y m : String) (v : T) (hp : ¬ pushNames y) (hxy : x ≠ y) (hx : x ∉ temps m) : Keeps exT x m (pushReq exT [(y, v)]) := push_keeps exT x y m v rfl hp hxy hx

/-- one sequence over two engines, and another client that pushes another variable to one of them -/
def exMapH : List (Ev T) := [.send ⟨1, 1, 4⟩ "o" (pushReq exT [("y", .num 1)])] ++ mapHist exAdd [4, 7] [4, 7] ["s"] [nums [1, 2, 3]] [4, 7, 7] ++ [.take ⟨1, 1, 4⟩, .take ⟨0, 3, 4⟩]

theorem exMap_sent4 : sentTo 4 exMapH = [("o", pushReq exT [("y", .num 1)]), ("a0", pushReq exT [("s", exL.of (nums [1, 2]))]), ("m0", mapReq exL exAdd ["s"])] := rfl
theorem exMap_sent7 : sentTo 7 exMapH = [("a1", pushReq exT [("s", exL.of (nums [3]))]), ("m1", mapReq exL exAdd ["s"])] := rfl

theorem exMap_undisturbed : ∀ j e, [4, 7][j]? = some e → Undisturbed exT (fun _ => []) exMapH e ["s"] (mapMine (fun k => msgName (if k = 0 then "a" else "b")) (msgName "m") 1 j) := by
  intro j e hj
  have hmine0 : mapMine (fun k => msgName (if k = 0 then "a" else "b")) (msgName "m") 1 0 = ["a0", "m0"] := by decide +kernel
  have hmine1 : mapMine (fun k => msgName (if k = 0 then "a" else "b")) (msgName "m") 1 1 = ["a1", "m1"] := by decide +kernel
  have hy : ¬ pushNames "y" := not_pushName "y" (by decide +kernel)
  match j, hj with
  | 0, hj =>
    have : e = 4 := by simpa using hj.symm
    subst this
    rw [hmine0]
    refine ⟨by rw [exMap_sent4]; decide +kernel, ?_, ?_, fun m _ x _ => rfl⟩
    · rw [exMap_sent4]
      intro r hr hn x hx
      simp only [List.mem_cons, List.not_mem_nil, or_false] at hr hx
      subst hx
      rcases hr with rfl | rfl | rfl
      · exact keepsPush _ _ _ _ hy (by decide +kernel) (by decide +kernel)
      · exact absurd (by simp) hn
      · exact absurd (by simp) hn
    · rw [exMap_sent4]
      intro r hr hn m hm
      simp only [List.mem_cons, List.not_mem_nil, or_false] at hr hm
      rcases hr with rfl | rfl | rfl
      · rcases hm with rfl | rfl <;> exact push_keepsAll exT _ _ _ _ rfl hy (by decide +kernel)
      · exact absurd (by simp) hn
      · exact absurd (by simp) hn
  | 1, hj =>
    have : e = 7 := by simpa using hj.symm
    subst this
    rw [hmine1]
    refine ⟨by rw [exMap_sent7]; decide +kernel, ?_, ?_, fun m _ x _ => rfl⟩
    · rw [exMap_sent7]
      intro r hr hn x hx
      simp only [List.mem_cons, List.not_mem_nil, or_false] at hr
      rcases hr with rfl | rfl
      · exact absurd (by simp) hn
      · exact absurd (by simp) hn
    · rw [exMap_sent7]
      intro r hr hn m hm
      simp only [List.mem_cons, List.not_mem_nil, or_false] at hr
      rcases hr with rfl | rfl
      · exact absurd (by simp) hn
      · exact absurd (by simp) hn
  | n + 2, hj => simp at hj

theorem exMap_names : ∀ j, j < [4, 7].length → GoodNames exT ["s"] (mapMine (fun k => msgName (if k = 0 then "a" else "b")) (msgName "m") 1 j) := by
  intro j hj
  refine ⟨by simp, fun x hx => ?_⟩
  simp only [List.mem_cons, List.not_mem_nil, or_false] at hx
  subst hx
  refine ⟨rfl, not_pushName "s" (by decide +kernel), ?_⟩
  have hmine0 : mapMine (fun k => msgName (if k = 0 then "a" else "b")) (msgName "m") 1 0 = ["a0", "m0"] := by decide +kernel
  have hmine1 : mapMine (fun k => msgName (if k = 0 then "a" else "b")) (msgName "m") 1 1 = ["a1", "m1"] := by decide +kernel
  match j, hj with
  | 0, _ => rw [hmine0]; decide +kernel
  | 1, _ => rw [hmine1]; decide +kernel

/-- the hypotheses of `broadcast_map_partial` are met -/
example : joined exL .b [.ok (.val (exL.of (nums [2, 3]))), .ok (.val (exL.of (nums [4])))] = some (nums [2, 3, 4]) := by
  have := broadcast_map_partial exT exL (fun _ => rfl) (fun _ => []) exMapH 0 3 exAdd (fun k => msgName (if k = 0 then "a" else "b")) (msgName "m") [4, 7] ["s"] [nums [1, 2, 3]] [] []
    (by decide) (by simp) (by simp) rfl 3 (by simp [nums]) rfl exMap_undisturbed exMap_names [.ok (.val (exL.of (nums [2, 3]))), .ok (.val (exL.of (nums [4])))] rfl (by
      intro j e o hj ho
      have hlog : (run exT (fresh (fun _ => [])) exMapH).log = [(⟨0, 3, 4⟩, "a0", pushReq exT [("s", exL.of (nums [1, 2]))], .ok .nothing),
          (⟨0, 3, 7⟩, "a1", pushReq exT [("s", exL.of (nums [3]))], .ok .nothing), (⟨0, 3, 7⟩, "m1", mapReq exL exAdd ["s"], .ok (.val (exL.of (nums [4])))),
          (⟨1, 1, 4⟩, "o", pushReq exT [("y", .num 1)], .ok .nothing), (⟨0, 3, 4⟩, "m0", mapReq exL exAdd ["s"], .ok (.val (exL.of (nums [2, 3]))))] := by rfl
      rw [hlog]
      match j, hj, ho with
      | 0, hj, ho =>
        obtain rfl : e = 4 := by simpa using hj.symm
        obtain rfl : o = _ := (by simpa using ho.symm)
        simp only [List.mem_cons]
        exact Or.inr (Or.inr (Or.inr (Or.inr (Or.inl rfl))))
      | 1, hj, ho =>
        obtain rfl : e = 7 := by simpa using hj.symm
        obtain rfl : o = _ := (by simpa using ho.symm)
        simp only [List.mem_cons]
        exact Or.inr (Or.inr (Or.inl rfl))
      | n + 2, hj, _ => simp at hj)
  exact this.1 _ rfl

/-! ### violations -/

/-- Sequences of unequal length: the built-in `map` stops at the end of the shorter one. `BroadcastView.map` cuts each sequence by its own length, pairs elements that do not belong together, and
returns a wrong list without an error. -/
theorem map_unequal_violated :
    let h := mapHist exAdd [4, 7] [4, 7] ["s0", "s1"] [nums [1, 2, 3], nums [10, 20]] [4, 4, 4, 7, 7, 7]
    joined exL .b (replies "m0" h ++ replies "m1" h) = some (nums [11, 23]) ∧ listMap exAdd [nums [1, 2, 3], nums [10, 20]] = .ok (nums [11, 22]) :=
  ⟨by decide +kernel, rfl⟩

/-- An engine that is lost after the sequences are scattered and before the call: the result lacks its part, without an error (in the other direction, a lost engine's call would fail). -/
theorem map_lost_engine_violated :
    let h := mapHist exAdd [4, 7] [4] ["s"] [nums [1, 2, 3]] [4, 4, 7]
    joined exL .b (replies "m0" h) = some (nums [2, 3]) ∧ listMap exAdd [nums [1, 2, 3]] = .ok (nums [2, 3, 4]) :=
  ⟨by decide +kernel, rfl⟩

/-- An engine that registers between the scatter and the call: its call fails because it has no part, and with it the whole map. -/
theorem map_new_engine_violated :
    let h := mapHist exAdd [4] [4, 7] ["s"] [nums [1, 2, 3]] [4, 4, 7]
    replies "m1" h = [.raised (.name "s")] ∧ joined exL .b (replies "m0" h ++ replies "m1" h) = none := by
  decide +kernel

/-- `scatter(..., flatten=True)` followed by `gather` is not modelled (C03 states it for lists); a `gather` of a variable that is missing on one engine fails. -/
example : joined exL .b [.ok (.val (exL.of (nums [1]))), .raised (.name "x")] = none := by decide +kernel

end IPP.Namespace
