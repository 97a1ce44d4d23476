/-!
# C53: the tree of broadcast schedulers — app.py

The addresses reserved for the inner connections (app.py:811-821) and the recursion that starts the schedulers (app.py:997-1075). Identities are strings of binary digits, most significant first.
-/
namespace IPP.Tree

/-- the last `w` binary digits of `i` — `format(i, f"0{depth}b")` and the like — broadcast_scheduler.py:47-86, controller/app.py:997-1050 -/
def bits : Nat → Nat → List Bool
  | 0, _ => []
  | w + 1, i => (i / 2 ^ w % 2 == 1) :: bits w i

/-- `int(identity, 2)` — controller/app.py:997-1074 -/
def val (l : List Bool) : Nat := l.foldl (fun a b => 2 * a + if b then 1 else 0) 0

/-- `broadcast_ids` — app.py:811-816: for every depth `d` from 1 on the numbers below `2 ** d` in `d + 1` digits -/
def reserved (depth : Nat) : List (List Bool) := (List.range depth).flatMap (fun d => (List.range (2 ^ (d + 1))).map (fun i => bits (d + 2) i))

/-- `recursively_start_schedulers` — app.py:1012-1073: the identities started, in order; `r` levels are left below this one -/
def started : Nat → List Bool → List (List Bool)
  | 0, id => [id]
  | r + 1, id => id :: (started r (id ++ [false]) ++ started r (id ++ [true]))

/-- the identities of the leaves (`is_leaf`, app.py:1015, 1047-1055), in the order they are started -/
def leaves : Nat → List Bool → List (List Bool)
  | 0, id => [id]
  | r + 1, id => leaves r (id ++ [false]) ++ leaves r (id ++ [true])

/-- the connections made (app.py:1057-1066, in_addr 1027-1030): (parent, child) of every scheduler that is not a leaf: it binds the internal urls of its `outgoing_ids`, and each child binds its own as `in_addr` -/
def edges : Nat → List Bool → List (List Bool × List Bool)
  | 0, _ => []
  | r + 1, id => (id, id ++ [false]) :: (id, id ++ [true]) :: (edges r (id ++ [false]) ++ edges r (id ++ [true]))

theorem bits_periodic (w : Nat) : ∀ (i k : Nat), w ≤ k → bits w (2 ^ k + i) = bits w i := by
  induction w with
  | zero => intro _ _ _; rfl
  | succ w ih =>
    intro i k hk
    simp only [bits]
    rw [ih i k (by omega)]
    obtain ⟨m, rfl⟩ : ∃ m, k = w + 1 + m := ⟨k - (w + 1), by omega⟩
    have : (2 ^ (w + 1 + m) + i) / 2 ^ w = 2 * 2 ^ m + i / 2 ^ w := by
      rw [show 2 ^ (w + 1 + m) = 2 ^ w * (2 * 2 ^ m) by rw [Nat.pow_add, Nat.pow_add]; simp [Nat.mul_assoc]]
      rw [Nat.mul_add_div (Nat.two_pow_pos w)]
    rw [this]
    congr 2
    omega

theorem bits_low {w i : Nat} (h : i < 2 ^ w) : bits (w + 1) i = false :: bits w i := by
  simp only [bits, Nat.div_eq_of_lt h]
  rfl

theorem bits_high {w i : Nat} (h : i < 2 ^ w) : bits (w + 1) (2 ^ w + i) = true :: bits w i := by
  simp only [bits]
  rw [bits_periodic w i w (Nat.le_refl _)]
  have : (2 ^ w + i) / 2 ^ w = 1 := by
    have := Nat.add_div_left i (Nat.two_pow_pos w)
    rw [this, Nat.div_eq_of_lt h]
  rw [this]
  rfl

/-- one level below `id` — controller/app.py:997-1050 -/
def level (id : List Bool) (d : Nat) : List (List Bool) := (List.range (2 ^ d)).map (fun i => id ++ bits d i)

theorem level_succ (id : List Bool) (d : Nat) : level id (d + 1) = level (id ++ [false]) d ++ level (id ++ [true]) d := by
  simp only [level]
  have e : List.range (2 ^ (d + 1)) = List.range (2 ^ d) ++ (List.range (2 ^ d)).map (fun i => 2 ^ d + i) := by
    rw [show 2 ^ (d + 1) = 2 ^ d + 2 ^ d by rw [Nat.pow_succ]; omega, List.range_add]
  rw [e, List.map_append, List.map_map]
  congr 1
  · apply List.map_congr_left
    intro i hi
    rw [bits_low (List.mem_range.1 hi)]; simp
  · apply List.map_congr_left
    intro i hi
    simp only [Function.comp]
    rw [bits_high (List.mem_range.1 hi)]; simp

theorem flatMap_append_perm {α β : Type} (l : List α) (f g : α → List β) : (l.flatMap (fun x => f x ++ g x)).Perm (l.flatMap f ++ l.flatMap g) := by
  induction l with
  | nil => exact .refl _
  | cons x r ih =>
    simp only [List.flatMap_cons, List.append_assoc]
    refine List.Perm.append_left _ ?_
    refine (List.Perm.append_left _ ih).trans ?_
    rw [← List.append_assoc, ← List.append_assoc]
    exact List.Perm.append_right _ List.perm_append_comm

theorem started_perm (r : Nat) : ∀ (id : List Bool), (started r id).Perm ((List.range (r + 1)).flatMap (level id)) := by
  induction r with
  | zero => intro id; simp [started, level, bits]
  | succ r ih =>
    intro id
    rw [List.range_succ_eq_map, List.flatMap_cons, List.flatMap_map]
    have h0 : level id 0 = [id] := by simp [level, bits]
    rw [h0]
    simp only [started, List.singleton_append]
    refine List.Perm.cons _ ?_
    have : (fun d => level id (Nat.succ d)) = fun d => level (id ++ [false]) d ++ level (id ++ [true]) d := by
      funext d; exact level_succ id d
    rw [this]
    exact ((ih _).append (ih _)).trans (flatMap_append_perm _ _ _).symm

/-- C53: for every depth the schedulers started below the root are exactly those with a reserved address, each once. -/
theorem addresses_exact (depth : Nat) : (started depth [false]).Perm ([false] :: reserved depth) := by
  refine (started_perm depth [false]).trans ?_
  rw [List.range_succ_eq_map, List.flatMap_cons, List.flatMap_map]
  have h0 : level [false] 0 = [[false]] := by simp [level, bits]
  rw [h0]
  simp only [List.singleton_append, reserved]
  refine List.Perm.cons _ (List.Perm.of_eq ?_)
  have e : ∀ d, level [false] (Nat.succ d) = (List.range (2 ^ (d + 1))).map (fun i => bits (d + 2) i) := by
    intro d
    simp only [level]
    apply List.map_congr_left
    intro i hi
    rw [bits_low (w := d + 1) (List.mem_range.1 hi)]
    rfl
  simp only [e]

theorem started_prefix (r : Nat) : ∀ (id x : List Bool), x ∈ started r id → id <+: x := by
  induction r with
  | zero => intro id x hx; simp [started] at hx; subst hx; exact List.prefix_refl _
  | succ r ih =>
    intro id x hx
    simp only [started, List.mem_cons, List.mem_append] at hx
    rcases hx with rfl | hx | hx
    · exact List.prefix_refl _
    · exact (List.prefix_append id [false]).trans (ih _ _ hx)
    · exact (List.prefix_append id [true]).trans (ih _ _ hx)

theorem started_nodup (r : Nat) : ∀ (id : List Bool), (started r id).Nodup := by
  induction r with
  | zero => intro id; simp [started]
  | succ r ih =>
    intro id
    simp only [started, List.nodup_cons, List.mem_append, not_or, List.nodup_append]
    refine ⟨⟨?_, ?_⟩, ih _, ih _, ?_⟩
    · intro h
      have := (started_prefix r _ _ h).length_le
      simp at this
      omega
    · intro h
      have := (started_prefix r _ _ h).length_le
      simp at this
      omega
    · rintro a ha b hb rfl
      obtain ⟨s, hs⟩ := started_prefix r _ _ ha
      obtain ⟨t, ht⟩ := started_prefix r _ _ hb
      rw [← ht] at hs
      simp at hs

/-- C53: no two schedulers have the same identity, and the reserved addresses are different. -/
theorem identities_unique (depth : Nat) : (started depth [false]).Nodup ∧ (reserved depth).Nodup := by
  refine ⟨started_nodup _ _, ?_⟩
  have := (addresses_exact depth).nodup (started_nodup depth [false])
  exact (List.nodup_cons.1 this).2

theorem val_snoc (l : List Bool) (b : Bool) : val (l ++ [b]) = 2 * val l + if b then 1 else 0 := by
  simp [val, List.foldl_append]

theorem leaves_val (r : Nat) : ∀ (id : List Bool), (leaves r id).map val = (List.range (2 ^ r)).map (fun i => 2 ^ r * val id + i) := by
  induction r with
  | zero => intro id; simp [leaves]
  | succ r ih =>
    intro id
    have e : List.range (2 ^ (r + 1)) = List.range (2 ^ r) ++ (List.range (2 ^ r)).map (fun i => 2 ^ r + i) := by
      rw [show 2 ^ (r + 1) = 2 ^ r + 2 ^ r by rw [Nat.pow_succ]; omega, List.range_add]
    simp only [leaves, List.map_append, ih, e, List.map_map]
    congr 1
    · apply List.map_congr_left
      intro i _
      rw [val_snoc, Nat.pow_succ]
      simp [Nat.mul_assoc]
    · apply List.map_congr_left
      intro i _
      simp only [Function.comp]
      rw [val_snoc, Nat.pow_succ]
      simp only [if_true, Nat.mul_add, Nat.mul_assoc]
      omega

/-- C53: the leaves listen on the engine-facing addresses number 0, 1, ..., `2 ** depth - 1`, each on its own. -/
theorem leaves_cover (depth : Nat) : (leaves depth [false]).map val = List.range (2 ^ depth) := by
  rw [leaves_val]
  simp [val]

theorem edges_children (r : Nat) : ∀ (id : List Bool), (id :: (edges r id).map (·.2)).Perm (started r id) := by
  induction r with
  | zero => intro id; exact .refl _
  | succ r ih =>
    intro id
    simp only [edges, started, List.map_cons, List.map_append]
    refine List.Perm.cons _ ?_
    refine List.Perm.trans ?_ ((ih (id ++ [false])).append (ih (id ++ [true])))
    simp only [List.cons_append]
    refine List.Perm.cons _ ?_
    exact List.perm_middle.symm

/-- C53: every scheduler but the root is the child of exactly one other, so it is connected to the root. -/
theorem one_parent (depth : Nat) : ((edges depth [false]).map (·.2)).Perm (reserved depth) := by
  have := (edges_children depth [false]).trans (addresses_exact depth)
  exact List.Perm.cons_inv this

example : reserved 2 = [[false, false], [false, true], [false, false, false], [false, false, true], [false, true, false], [false, true, true]] := by decide
example : started 2 [false] = [[false], [false, false], [false, false, false], [false, false, true], [false, true], [false, true, false], [false, true, true]] := by decide

end IPP.Tree
