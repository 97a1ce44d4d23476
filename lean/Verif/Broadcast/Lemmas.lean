import Verif.Broadcast.Model
/-!
# Lemmas about the broadcast tree
-/
namespace IPP.Broadcast

/-- all steps are 0 or 1 -/
def Bits (v : Path) : Prop := ∀ b ∈ v, b < 2

theorem bits_cons {b : Nat} {v : Path} : Bits (b :: v) ↔ b < 2 ∧ Bits v := by simp [Bits]

theorem nextIdx_eq {D d : Nat} (t : Target) (h : d < D) : nextIdx D d t = t.id % 2 ^ D / 2 ^ (D - d - 1) % 2 := by
  unfold nextIdx format
  have h1 : d + 1 < D + 1 := by omega
  have e : D - (d + 1) = D - d - 1 := by omega
  simp [List.getD_eq_getElem?_getD, h1, e]

theorem targetsAt_eq {D : Nat} (targets : List Target) (v : Path) (hb : Bits v) (h : v.length ≤ D) :
    targetsAt D targets v = targets.filter (fun t => t.id % 2 ^ D / 2 ^ (D - v.length) = leafIdx v) := by
  induction v with
  | nil =>
    simp only [targetsAt, leafIdx, List.length_nil, Nat.sub_zero]
    symm
    rw [List.filter_eq_self]
    intro t _
    have : t.id % 2 ^ D < 2 ^ D := Nat.mod_lt _ (Nat.two_pow_pos D)
    simp [Nat.div_eq_of_lt this]
  | cons b v ih =>
    rw [bits_cons] at hb
    simp only [List.length_cons] at h
    simp only [targetsAt, targetsFor, ih hb.2 (by omega), List.filter_filter]
    congr 1
    funext t
    have hn := nextIdx_eq (D := D) (d := v.length) t (by omega)
    rw [Bool.eq_iff_iff]
    simp only [Bool.and_eq_true, decide_eq_true_eq, List.length_cons]
    have e : D - (v.length + 1) = D - v.length - 1 := by omega
    have e2 : (2 : Nat) ^ (D - v.length) = 2 ^ (D - v.length - 1) * 2 := by
      rw [← Nat.pow_succ]; congr 1; omega
    rw [e, hn, e2, ← Nat.div_div_eq_div_mul]
    generalize t.id % 2 ^ D / 2 ^ (D - v.length - 1) = y
    have hb1 := hb.1
    simp only [leafIdx]
    omega

theorem filter_two_perm {α : Type} (p : α → Nat) (l : List α) (h : ∀ a ∈ l, p a < 2) :
    (l.filter (fun a => p a = 0) ++ l.filter (fun a => p a = 1)).Perm l := by
  induction l with
  | nil => simp
  | cons a l ih =>
    have ih := ih (fun x hx => h x (List.mem_cons_of_mem _ hx))
    have ha := h a (List.mem_cons_self ..)
    have : p a = 0 ∨ p a = 1 := by omega
    rcases this with h0 | h0
    · simp only [List.filter_cons, h0]
      simpa using ih
    · simp only [List.filter_cons, h0]
      simp only [Nat.one_ne_zero, decide_false, decide_true, if_true]
      exact (List.perm_middle).trans (List.Perm.cons _ ih)

theorem deliveries_perm {D : Nat} (targets : List Target) (n : Nat) : ∀ (v : Path), Bits v → v.length + n = D →
    (deliveries D n v (targetsAt D targets v)).Perm
      ((targetsAt D targets v).map (fun t => (engineLeaf D t.id, t.uuid))) := by
  induction n with
  | zero =>
    intro v hb hl
    simp only [deliveries]
    have : (targetsAt D targets v).map (fun t => (leafIdx v, t.uuid)) =
        (targetsAt D targets v).map (fun t => (engineLeaf D t.id, t.uuid)) := by
      apply List.map_congr_left
      intro t ht
      rw [targetsAt_eq targets v hb (by omega)] at ht
      simp only [List.mem_filter, decide_eq_true_eq] at ht
      have hd : D - v.length = 0 := by omega
      rw [hd] at ht
      simp only [Nat.pow_zero, Nat.div_one] at ht
      simp [engineLeaf, ht.2]
    rw [this]
  | succ n ih =>
    intro v hb hl
    simp only [deliveries]
    have i0 := ih (0 :: v) (bits_cons.2 ⟨by omega, hb⟩) (by simp; omega)
    have i1 := ih (1 :: v) (bits_cons.2 ⟨by omega, hb⟩) (by simp; omega)
    refine (i0.append i1).trans ?_
    rw [← List.map_append]
    apply List.Perm.map
    simp only [targetsAt, targetsFor]
    apply filter_two_perm
    intro t _
    rw [nextIdx_eq t (by omega)]
    omega

/-! ### coalescing -/

/-- frames in the order of the tree below `v` (`r` levels) -/
def order (D : Nat) (targets : List Target) (ans : Uuid → List Buf) : Nat → Path → List Buf
  | 0, v => (targetsAt D targets v).flatMap (fun t => ans t.uuid)
  | r + 1, v => order D targets ans r (0 :: v) ++ order D targets ans r (1 :: v)

/-- sub-schedulers that get targets -/
def kids (D : Nat) (targets : List Target) (v : Path) : List Nat := [0, 1].filter (fun b => targetsAt D targets (b :: v) ≠ [])

theorem targetsAt_nil_kids {D : Nat} {targets : List Target} {v : Path} (hl : v.length < D) :
    targetsAt D targets v = [] ↔ targetsAt D targets (0 :: v) = [] ∧ targetsAt D targets (1 :: v) = [] := by
  have p := filter_two_perm (nextIdx D v.length) (targetsAt D targets v) (by
    intro t _; rw [nextIdx_eq t hl]; omega)
  constructor
  · intro h; simp [targetsAt, targetsFor, h]
  · intro h
    simp only [targetsAt, targetsFor] at h
    rw [h.1, h.2] at p
    exact (List.Perm.nil_eq p).symm

theorem mem_targetsAt_kids {D : Nat} {targets : List Target} {v : Path} (hl : v.length < D) (t : Target) :
    t ∈ targetsAt D targets v ↔ t ∈ targetsAt D targets (0 :: v) ∨ t ∈ targetsAt D targets (1 :: v) := by
  have p := filter_two_perm (nextIdx D v.length) (targetsAt D targets v) (by
    intro t _; rw [nextIdx_eq t hl]; omega)
  rw [← p.mem_iff]
  simp [targetsAt, targetsFor]

theorem order_nil {D : Nat} {targets : List Target} {ans : Uuid → List Buf} (r : Nat) :
    ∀ v : Path, v.length + r = D → targetsAt D targets v = [] → order D targets ans r v = [] := by
  induction r with
  | zero => intro v _ h; simp [order, h]
  | succ r ih =>
    intro v hl h
    rw [targetsAt_nil_kids (by omega)] at h
    simp [order, ih (0 :: v) (by simp; omega) h.1, ih (1 :: v) (by simp; omega) h.2]

theorem kids_flatMap_order {D : Nat} {targets : List Target} {ans : Uuid → List Buf} {r : Nat} {v : Path} (hl : v.length + (r + 1) = D) :
    (kids D targets v).flatMap (fun b => order D targets ans r (b :: v)) = order D targets ans (r + 1) v := by
  unfold kids
  simp only [order]
  by_cases h0 : targetsAt D targets (0 :: v) = [] <;> by_cases h1 : targetsAt D targets (1 :: v) = []
  · simp [h0, h1, order_nil r (0 :: v) (by simp; omega) h0, order_nil r (1 :: v) (by simp; omega) h1]
  · simp [h0, h1, order_nil r (0 :: v) (by simp; omega) h0]
  · simp [h0, h1, order_nil r (1 :: v) (by simp; omega) h1]
  · simp [h0, h1]

theorem kids_flatMap_targets {D : Nat} {targets : List Target} {v : Path} :
    (kids D targets v).flatMap (fun b => targetsAt D targets (b :: v)) = targetsAt D targets (0 :: v) ++ targetsAt D targets (1 :: v) := by
  unfold kids
  by_cases h0 : targetsAt D targets (0 :: v) = [] <;> by_cases h1 : targetsAt D targets (1 :: v) = [] <;> simp [h0, h1]

theorem setKey_map {α : Type} (l : List α) (key : α → Nat) (val : α → Option (List Buf)) (k : Nat) (b : List Buf) (h : ∃ a ∈ l, key a = k) :
    setKey (l.map (fun a => (key a, val a))) k b = l.map (fun a => (key a, if key a = k then some b else val a)) := by
  unfold setKey
  rw [if_pos (by simpa using h), List.map_map]
  apply List.map_congr_left
  intro a _
  by_cases e : key a = k <;> simp [e]

theorem joinBufs_map {α : Type} (l : List α) (key : α → Nat) (val : α → Option (List Buf)) :
    joinBufs (l.map (fun a => (key a, val a))) = l.flatMap (fun a => (val a).getD []) := by
  simp [joinBufs, List.flatMap_map]

end IPP.Broadcast
