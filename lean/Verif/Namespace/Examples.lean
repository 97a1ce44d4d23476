import Verif.Namespace.System
/-!
# Examples and violations for C64 and C65
-/
namespace IPP.Namespace

def exI : Interp Nat := { ident := fun k => k ≠ "1x", expr := fun _ _ => .raised (.user "?"), picklable := fun _ => true, initial := [] }

/-- a function that reads and writes variables of the user -/
def exF : Fn Nat := fun ns as _ => match get "n" ns, as with
  | some (.user n), [a] => (set "n" (.user (n + a)) ns, .ok (.val n))
  | _, _ => (ns, .raised (.user "bad"))

theorem exF_unaware : Unaware (temps "a-1") exF := by
  intro a b as kw h
  have hn : get "n" a = get "n" b := h "n" (by decide +kernel)
  unfold exF
  rw [hn]
  split
  · refine ⟨rfl, fun x hx => ?_⟩
    simp only
    rw [get_set, get_set, h x hx]
  · exact ⟨rfl, h⟩

example : temps "a-1" = ["_a_1_f", "_a_1_args", "_a_1_kwargs", "_a_1_result"] := by decide +kernel
example : doApply exI [("n", .user 5)] "a-1" exF [.val 2] [] = ([("n", .user 7)], .ok (.val 5)) := by decide +kernel
example : (doApply exI [("n", .user 5)] "a-1" exF [.val 2] []).2 = .ok (.val 5) := (apply_effect exI _ "a-1" exF [2] [] exF_unaware).1
/-- with a reference -/
example : (doApply exI [("n", .user 5), ("k", .user 3)] "a-1" exF [.ref "k"] []) = ([("n", .user 8), ("k", .user 3)], .ok (.val 5)) := by decide +kernel
/-- a function that deletes everything -/
example : doApply exI [("n", .user 5)] "a-1" (fun _ _ _ => ([], .ok (.val 1))) [] [] = ([], .ok (.val 1)) := by decide +kernel
/-- a push over a namespace that already has a variable with the name of push's temporary variable -/
example : handle exI [("_IP_PUSH_TMP_", .user 1)] "a-1" (pushReq exI [("x", 3), ("y", 4)]) = ([("_IP_PUSH_TMP_", .user 1), ("x", .user 3), ("y", .user 4)], .ok .nothing) := by decide +kernel
example : handle exI [] "a-1" (pushReq exI [("x", 3), ("1x", 4), ("y", 5)]) = ([("x", .user 3)], .raised (.syntax "1x")) := by decide +kernel
example : (handle exI [("x", .user 3), ("y", .user 4)] "a-2" (pullReq exI (.many ["y", "x", "y"]))).2 = .ok (.vals [4, 3, 4]) := by decide +kernel

example : (temps "4f0c-9a_1_12").Nodup := (temps_identifiers "4f0c-9a_1_12" (by decide +kernel)).2

/-! ### reading what one has written: two clients, one engine -/

theorem not_pushName (x : String) (h : x.toList.length < 13) : ¬ pushNames x := by
  rintro ⟨n, rfl⟩
  rw [tmpName_length] at h; omega

def k0 : Key := ⟨0, 1, 0⟩
def k1 : Key := ⟨1, 1, 0⟩

/-- the other client's request is executed between the push and the pull -/
def exH : List (Ev Nat) := [.send k0 "a" (pushReq exI [("x", 3)]), .send k0 "b" (pullReq exI (.one "x")), .send k1 "c" (pushReq exI [("y", 9)]), .take k0, .take k1, .take k0]

theorem exFree (m m' : String) (l : List (String × Nat)) (hi : ∀ e ∈ l, exI.ident e.1 = true) (hn : (l.map (·.1)).Nodup) (ht : ∀ e ∈ l, ¬ pushNames e.1) (hd : ∀ e ∈ l, e.1 ∉ temps m) :
    KeepsAll exI (temps m) m' (pushReq exI l) := by
  intro ns hf x hx
  rw [(push_core exI ns m' l hi hn ht).2 x]
  split
  · rfl
  · rw [(get_none_iff x l).2 (fun hm => by obtain ⟨e, he, rfl⟩ := List.mem_map.1 hm; exact hd e he hx)]
    exact hf x hx

theorem pullKeeps (ks : Keys) (m : String) (x : String) (hx : x ∉ temps m) : Keeps exI x m (pullReq exI ks) := by
  intro ns
  show get x (doApply _ _ _ _ _ _).1 = _
  rw [(doApply_eq exI ns m (pullFn exI ks) [] [] [] [] rfl rfl).2 x, if_neg hx]
  simp only [pullFn]
  rw [get_setAll, if_neg hx]

theorem pullKeepsAll (ks : Keys) (m m' : String) : KeepsAll exI (temps m) m' (pullReq exI ks) := by
  intro ns hf x hx
  show get x (doApply _ _ _ _ _ _).1 = _
  rw [(doApply_eq exI ns m' (pullFn exI ks) [] [] [] [] rfl rfl).2 x]
  split
  · rfl
  · rename_i h
    simp only [pullFn]
    rw [get_setAll, if_neg h]
    exact hf x hx

/-- the hypotheses of `read_your_writes` are met -/
example : ∀ o, (k0, "b", pullReq exI (.one "x"), o) ∈ (run exI (fresh (fun _ => [])) exH).log → o = .ok (.val 3) := by
  have hs : sentTo 0 exH = [("a", pushReq exI [("x", 3)]), ("b", pullReq exI (.one "x")), ("c", pushReq exI [("y", 9)])] := rfl
  have hp1 : ∀ e ∈ [("x", 3)], ¬ pushNames (e : String × Nat).1 := by
    intro e he; rw [List.mem_singleton.1 he]; exact not_pushName "x" (by decide +kernel)
  have hp2 : ∀ e ∈ [("y", 9)], ¬ pushNames (e : String × Nat).1 := by
    intro e he; rw [List.mem_singleton.1 he]; exact not_pushName "y" (by decide +kernel)
  refine read_your_writes exI (fun _ => []) exH k0 [] [] [] "a" "b" [("x", 3)] "x" 3 rfl ?_ ⟨by decide +kernel, by decide +kernel, ?_⟩ (by simp) (fun _ => rfl) ?_ ?_ ⟨?_, ?_⟩
  · show ((sentTo 0 exH).map (·.1)).Nodup
    rw [hs]; decide +kernel
  · intro e he
    refine ⟨?_, hp1 e he⟩
    rw [List.mem_singleton.1 he]; decide +kernel
  · show ∀ e ∈ sentTo 0 exH, _
    rw [hs]
    intro e he hne
    simp only [List.mem_cons, List.not_mem_nil, or_false] at he
    rcases he with rfl | rfl | rfl
    · exact absurd rfl hne
    · exact pullKeeps _ _ _ (by decide +kernel)
    · intro ns
      simp only
      rw [(push_core exI ns "c" [("y", 9)] (by decide +kernel) (by decide +kernel) hp2).2 "x", if_neg (by decide +kernel)]
      rfl
  · show ∀ e ∈ sentTo 0 exH, _
    rw [hs]
    intro e he
    simp only [List.mem_cons, List.not_mem_nil, or_false] at he
    rcases he with rfl | rfl | rfl
    · exact ⟨exFree _ _ _ (by decide +kernel) (by decide +kernel) hp1 (by decide +kernel), exFree _ _ _ (by decide +kernel) (by decide +kernel) hp1 (by decide +kernel)⟩
    · exact ⟨pullKeepsAll _ _ _, pullKeepsAll _ _ _⟩
    · exact ⟨exFree _ _ _ (by decide +kernel) (by decide +kernel) hp2 (by decide +kernel), exFree _ _ _ (by decide +kernel) (by decide +kernel) hp2 (by decide +kernel)⟩
  · intro x _; rfl
  · intro x _; rfl
example : ((run exI (fresh (fun _ => [])) exH).log.map (fun x => (x.2.1, x.2.2.2))) = [("a", .ok .nothing), ("c", .ok .nothing), ("b", .ok (.val 3))] := by decide +kernel

/-! ### violations -/

/-- A variable with the name of `push`'s own temporary variable cannot be pushed: the push succeeds, and the variable is not there. -/
theorem push_tmp_violated : handle exI [] "a-1" (pushReq exI [("_IP_PUSH_TMP_", 3)]) = ([], .ok .nothing) := by decide +kernel

/-- `view.push(...)` and then, without waiting, `view.clear()`: the clear goes through another queue, may be executed first, and the variable is still there when both are done. -/
theorem clear_overtakes_violated : ∃ h : List (Ev Nat), h = [.send ⟨0, 1, 0⟩ "a" (pushReq exI [("x", 3)]), .send ⟨0, 0, 0⟩ "b" .clear, .take ⟨0, 0, 0⟩, .take ⟨0, 1, 0⟩] ∧
    (run exI (fresh (fun _ => [])) h).chan ⟨0, 1, 0⟩ = [] ∧ get "x" ((run exI (fresh (fun _ => [])) h).ns 0) = some (.user 3) := by
  exact ⟨_, rfl, rfl, by decide +kernel⟩

/-- A push through a direct view and then, without waiting, a pull through a broadcast view of the same client: the pull may be executed first. -/
theorem other_queue_violated : ∃ h : List (Ev Nat), h = [.send ⟨0, 1, 0⟩ "a" (pushReq exI [("x", 3)]), .send ⟨0, 3, 0⟩ "b" (pullReq exI (.one "x")), .take ⟨0, 3, 0⟩, .take ⟨0, 1, 0⟩] ∧
    ((run exI (fresh (fun _ => [])) h).log.map (fun x => (x.2.1, x.2.2.2))) = [("b", .raised (.name "x")), ("a", .ok .nothing)] := by
  exact ⟨_, rfl, by decide +kernel⟩

end IPP.Namespace
