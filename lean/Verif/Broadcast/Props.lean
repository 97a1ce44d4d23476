import Verif.Broadcast.Spec
import Verif.Broadcast.Inv
/-!
# C24 and C25: broadcasts
-/
namespace IPP.Broadcast

/-! ## C24: exactly the targets get it, once -/

theorem count_map_uuid {n : Nat} : ∀ {l : List Target}, (l.map Target.uuid).Nodup → ∀ t ∈ l, (l.map (fun a => (a.id % n, a.uuid))).count (t.id % n, t.uuid) = 1
  | [], _, t, ht => by simp at ht
  | c :: l, h, t, ht => by
    simp only [List.map_cons, List.nodup_cons] at h
    have hz : ∀ t : Target, t.uuid ∉ l.map Target.uuid → (l.map (fun a => (a.id % n, a.uuid))).count (t.id % n, t.uuid) = 0 := by
      intro t ht
      rw [List.count_eq_zero]
      intro hm
      apply ht
      simp only [List.mem_map, Prod.mk.injEq] at hm ⊢
      rcases hm with ⟨a, ha, _, e⟩
      exact ⟨a, ha, e⟩
    simp only [List.map_cons, List.count_cons]
    rcases List.mem_cons.1 ht with rfl | ht
    · rw [hz _ h.1]; simp
    · have hne : c.uuid ≠ t.uuid := by
        intro e; exact h.1 (List.mem_map.2 ⟨t, ht, e.symm⟩)
      rw [count_map_uuid h.2 t ht]
      simp [hne]

/-- **C24** In a tree of any depth, a submission to any list of distinct engines is delivered exactly once to each of them, on the socket it listens
to, and to nobody else. -/
theorem broadcast_exactly_once (D : Nat) (targets : List Target) (hu : (targets.map Target.uuid).Nodup) :
    ExactlyOnce (2 ^ D) targets (deliveries D D [] targets) := by
  have p := deliveries_perm (D := D) targets D [] (by simp [Bits]) (by simp)
  simp only [targetsAt] at p
  constructor
  · intro t ht
    rw [p.count_eq]
    exact count_map_uuid hu t ht
  · intro x hx
    rw [p.mem_iff] at hx
    simp only [List.mem_map] at hx
    rcases hx with ⟨t, ht, e⟩
    exact ⟨t, ht, e.symm⟩

/-- the number of messages sent to engines is the number of targets -/
theorem broadcast_count (D : Nat) (targets : List Target) : (deliveries D D [] targets).length = targets.length := by
  have p := deliveries_perm (D := D) targets D [] (by simp [Bits]) (by simp)
  simpa [targetsAt] using p.length_eq

/-- a running example: 3 levels of schedulers, 5 engines -/
def exTargets : List Target := [⟨10, 0⟩, ⟨11, 1⟩, ⟨12, 2⟩, ⟨13, 3⟩, ⟨17, 7⟩]

example : (exTargets.map Target.uuid).Nodup ∧ deliveries 2 2 [] exTargets = [(0, 10), (1, 11), (2, 12), (3, 13), (3, 17)] := by decide

/-! ## C25: coalescing -/

theorem order_eq (D : Nat) (targets : List Target) (ans : Uuid → List Buf) (r : Nat) : ∀ v, Bits v → v.length + r = D →
    order D targets ans r v =
    ((List.range (2 ^ r)).flatMap (fun i => targets.filter (fun t => t.id % 2 ^ D = leafIdx v * 2 ^ r + i))).flatMap (fun t => ans t.uuid) := by
  induction r with
  | zero =>
    intro v hb hl
    have hd : D - v.length = 0 := by omega
    have hle : v.length ≤ D := by omega
    simp [order, targetsAt_eq targets v hb hle, hd]
  | succ r ih =>
    intro v hb hl
    have i0 := ih (0 :: v) (bits_cons.2 ⟨by omega, hb⟩) (by simp; omega)
    have i1 := ih (1 :: v) (bits_cons.2 ⟨by omega, hb⟩) (by simp; omega)
    simp only [order, i0, i1, ← List.flatMap_append]
    congr 1
    have e : (2 : Nat) ^ (r + 1) = 2 ^ r + 2 ^ r := by rw [Nat.pow_succ]; omega
    rw [e, List.range_add, List.flatMap_append, List.flatMap_map]
    have h0 : ∀ i, leafIdx (0 :: v) * 2 ^ r + i = leafIdx v * (2 ^ r + 2 ^ r) + i := by
      intro i; simp only [leafIdx, Nat.add_zero]; rw [Nat.mul_comm 2, Nat.mul_assoc, ← Nat.two_mul]
    have h1 : ∀ i, leafIdx (1 :: v) * 2 ^ r + i = leafIdx v * (2 ^ r + 2 ^ r) + (2 ^ r + i) := by
      intro i; simp only [leafIdx]; rw [Nat.add_mul, Nat.mul_comm 2, Nat.mul_assoc, ← Nat.two_mul]; omega
    simp only [h0, h1]

theorem order_root (D : Nat) (targets : List Target) (ans : Uuid → List Buf) :
    order D targets ans D [] = (treeOrder D targets).flatMap (fun t => ans t.uuid) := by
  rw [order_eq D targets ans D [] (by simp [Bits]) (by simp)]
  simp [leafIdx, treeOrder]

theorem inv_foldl {D targets ans} (hu : (targets.map Target.uuid).Nodup) : ∀ (evs : List Ev) (S : List Uuid) (s : State), Inv D targets ans S s →
    Admissible D targets ans S evs →
    ∃ S', Inv D targets ans S' (evs.foldl (step D targets) s) ∧ ∀ u, u ∈ S' ↔ u ∈ S ∨ Replied evs u
  | [], S, s, I, _ => ⟨S, I, by simp [Replied]⟩
  | .deliver b v :: evs, S, s, I, h => by
    rcases inv_foldl hu evs S _ (inv_deliver I b v) h with ⟨S', I', h'⟩
    exact ⟨S', I', by simpa [Replied] using h'⟩
  | .reply v u bufs ok :: evs, S, s, I, h => by
    rcases h with ⟨hl, hb, ⟨t, ht, rfl, hlf⟩, rfl, hS, h⟩
    rcases inv_foldl hu evs _ _ (inv_reply hu I (ok := ok) hb hl ht hlf hS) h with ⟨S', I', h'⟩
    refine ⟨S', I', fun u => ?_⟩
    rw [h' u]
    simp only [Replied, List.mem_cons, Ev.reply.injEq]
    constructor
    · rintro ((rfl | h) | ⟨v', b', o', h⟩)
      · exact Or.inr ⟨_, _, _, Or.inl ⟨rfl, rfl, rfl, rfl⟩⟩
      · exact Or.inl h
      · exact Or.inr ⟨_, _, _, Or.inr h⟩
    · rintro (h | ⟨v', b', o', ⟨_, rfl, _⟩ | h⟩)
      · exact Or.inl (Or.inr h)
      · exact Or.inl (Or.inl rfl)
      · exact Or.inr ⟨_, _, _, h⟩

theorem inv_run {D targets ans evs} (hu : (targets.map Target.uuid).Nodup) (h : Admissible D targets ans [] evs) :
    ∃ S', Inv D targets ans S' (run D targets evs) ∧ ∀ u, u ∈ S' ↔ Replied evs u := by
  rcases inv_foldl hu evs [] _ (inv_submitted D targets ans) h with ⟨S', I, h'⟩
  exact ⟨S', I, by simpa using h'⟩

/-- **C25 (at most one, only complete, all the frames)** Whatever the order in which engines reply and schedulers forward, the client gets at most one coalesced
reply; it gets it only after every target replied; and its frames are those of all targets, each target's exactly once and kept together. -/
theorem coalesced_complete (D : Nat) (targets : List Target) (ans : Uuid → List Buf) (evs : List Ev) (hu : (targets.map Target.uuid).Nodup)
    (h : Admissible D targets ans [] evs) :
    ((run D targets evs).up []).length ≤ 1 ∧
    ∀ r ∈ (run D targets evs).up [], (∀ t ∈ targets, Replied evs t.uuid) ∧ r.bufs = (treeOrder D targets).flatMap (fun t => ans t.uuid) := by
  rcases inv_run hu h with ⟨S, I, hS⟩
  refine ⟨I.upLen [], fun r hr => ⟨?_, ?_⟩⟩
  · have hn : (run D targets evs).acc [] = none := by
      cases e : (run D targets evs).acc [] with
      | none => rfl
      | some tbl => rw [I.upNil _ _ e] at hr; cases hr
    intro t ht
    exact (hS _).1 (I.sound [] (by simp [Bits]) (by simp) hn t (by simpa [targetsAt] using ht))
  · rw [(I.upMsg [] r hr).1, List.length_nil, Nat.sub_zero, order_root]

/-- the tree order lists every target once -/
theorem treeOrder_perm (D : Nat) (targets : List Target) : (treeOrder D targets).Perm targets := by
  unfold treeOrder
  have gen : ∀ (n : Nat) (l : List Target), (∀ t ∈ l, t.id % 2 ^ D < n) →
      ((List.range n).flatMap (fun i => l.filter (fun t => t.id % 2 ^ D = i))).Perm l := by
    intro n
    induction n with
    | zero =>
      intro l h
      cases l with
      | nil => simp
      | cons a l => exact absurd (h a (List.mem_cons_self ..)) (by omega)
    | succ n ih =>
      intro l h
      rw [List.range_succ, List.flatMap_append]
      have p1 := ih (l.filter (fun t => t.id % 2 ^ D < n)) (by simp)
      have e1 : (List.range n).flatMap (fun i => (l.filter (fun t => t.id % 2 ^ D < n)).filter (fun t => t.id % 2 ^ D = i)) =
          (List.range n).flatMap (fun i => l.filter (fun t => t.id % 2 ^ D = i)) := by
        simp only [List.flatMap]
        congr 1
        apply List.map_congr_left
        intro i hi
        simp only [List.mem_range] at hi
        rw [List.filter_filter]
        apply List.filter_congr
        intro t _
        rw [Bool.eq_iff_iff]
        simp only [Bool.and_eq_true, decide_eq_true_eq]
        omega
      rw [e1] at p1
      have e2 : [n].flatMap (fun i => l.filter (fun t => t.id % 2 ^ D = i)) = l.filter (fun t => !decide (t.id % 2 ^ D < n)) := by
        simp only [List.flatMap_cons, List.flatMap_nil, List.append_nil]
        apply List.filter_congr
        intro t ht
        have := h t ht
        rw [Bool.eq_iff_iff]
        simp only [decide_eq_true_eq, Bool.not_eq_true', decide_eq_false_iff_not]
        omega
      rw [e2]
      exact (p1.append_right _).trans (List.filter_append_perm _ _)
  exact gen _ _ (fun t _ => Nat.mod_lt _ (Nat.two_pow_pos D))

/-- **C25 (it arrives)** Once every target replied and no forwarded reply is waiting to be handled, the client has its coalesced reply. -/
theorem coalesced_arrives (D : Nat) (targets : List Target) (ans : Uuid → List Buf) (evs : List Ev) (hu : (targets.map Target.uuid).Nodup)
    (h : Admissible D targets ans [] evs) (hne : targets ≠ []) (hall : ∀ t ∈ targets, Replied evs t.uuid)
    (hq : ∀ b v, (run D targets evs).up (b :: v) = []) : ((run D targets evs).up []).length = 1 := by
  rcases inv_run hu h with ⟨S, I, hS⟩
  have key : ∀ r v, Bits v → v.length + r = D → targetsAt D targets v ≠ [] → (run D targets evs).acc v = none := by
    intro r
    induction r with
    | zero =>
      intro v hb hl hv
      rw [I.leaf v hb (by omega), if_pos]
      refine ⟨hv, fun t ht => (hS _).2 (hall t ?_)⟩
      rw [targetsAt_eq targets v hb (by omega)] at ht
      exact (List.mem_filter.1 ht).1
    | succ r ih =>
      intro v hb hl hv
      rw [I.inner v hb (by omega), if_pos]
      refine ⟨(kids_ne (by omega)).2 hv, fun b hb' => ?_⟩
      rw [mem_kids] at hb'
      exact ⟨ih (b :: v) (bits_cons.2 ⟨hb'.1, hb⟩) (by simp; omega) hb'.2, hq b v⟩
  have hn := key D [] (by simp [Bits]) (by simp) (by simpa [targetsAt] using hne)
  have h1 := I.root hn
  have h2 := I.upLen []
  have : ((run D targets evs).up []).length ≠ 0 := by simpa using h1
  omega

/-- **C25 (pairing), two-level trees** — `broadcast_targets` lists the targets in the order of their frames. For the default depth of 1; for deeper trees
see `coalesced_pairing_violated`. -/
theorem coalesced_pairing_partial (targets : List Target) (ans : Uuid → List Buf) (evs : List Ev) (hu : (targets.map Target.uuid).Nodup)
    (h : Admissible 1 targets ans [] evs) : ∀ r ∈ (run 1 targets evs).up [], r.bufs = r.targets.flatMap (fun t => ans t.uuid) := by
  rcases inv_run hu h with ⟨S, I, hS⟩
  intro r hr
  have hm := I.upMsg [] r hr
  rw [hm.1, hm.2]
  simp [tgt, order]

/-- every answer of the example is one frame: 100 + uuid -/
def exAns (u : Uuid) : List Buf := [100 + u]

/-- replies in some order, forwarding in between -/
def exEvs : List Ev :=
  [.reply [1, 1] 17 [117] true, .reply [0, 0] 10 [110] true, .deliver 0 [0], .reply [1, 0] 11 [111] true, .reply [1, 1] 13 [113] true,
   .deliver 1 [1], .deliver 1 [0], .deliver 0 [], .reply [0, 1] 12 [112] true, .deliver 0 [1], .deliver 1 []]

example : Admissible 2 exTargets exAns [] exEvs ∧ (∀ t ∈ exTargets, Replied exEvs t.uuid) := by
  refine ⟨?_, ?_⟩
  · simp only [exEvs, Admissible]
    decide
  · intro t ht
    simp only [exTargets, List.mem_cons, List.not_mem_nil, or_false] at ht
    rcases ht with rfl | rfl | rfl | rfl | rfl <;> simp [Replied, exEvs]

example : ((run 2 exTargets exEvs).up []).map Reply.bufs = [[110, 111, 112, 113, 117]] := by decide

/-- **C25 (pairing) is violated** in trees of depth 2: engines 2 (uuid 12), 1 (uuid 11), 0 (uuid 10) are asked for in this order; the frames arrive as those of 10, 11, 12 (tree order)
but `broadcast_targets` says 10 and 11 swapped, so the client credits engine 1 with the answer of engine 0 and conversely. -/
theorem coalesced_pairing_violated :
    let targets : List Target := [⟨12, 2⟩, ⟨11, 1⟩, ⟨10, 0⟩]
    let evs : List Ev := [.reply [0, 0] 10 [110] true, .reply [1, 0] 11 [111] true, .reply [0, 1] 12 [112] true,
      .deliver 0 [0], .deliver 1 [0], .deliver 0 [1], .deliver 0 [], .deliver 1 []]
    Admissible 2 targets exAns [] evs ∧
    ∃ r, (run 2 targets evs).up [] = [r] ∧ r.bufs = [110, 111, 112] ∧ r.targets.flatMap (fun t => exAns t.uuid) = [111, 110, 112] := by
  refine ⟨?_, ⟨_, rfl, ?_, ?_⟩⟩
  · simp only [Admissible]
    decide
  · decide
  · decide

/-- **C25 (errors) is violated**: a failed engine's reply carries no frames, and the coalesced reply has the status of whichever reply came last; if a successful reply is last the
client sees an `ok` reply in which the failed engine's answer is just missing. -/
theorem coalesced_error_hidden_violated :
    let targets : List Target := [⟨10, 0⟩, ⟨11, 1⟩]
    let evs : List Ev := [.reply [0] 10 [] false, .deliver 0 [], .reply [1] 11 [111] true, .deliver 1 []]
    (run 1 targets evs).up [] = [{ bufs := [111], targets := targets, ok := true }] := by
  decide

end IPP.Broadcast
