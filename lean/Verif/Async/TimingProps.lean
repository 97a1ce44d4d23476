import Verif.Async.Timing

/-!
# C85: the times that an AsyncResult reports
-/
namespace IPP.Timing

/-! ## Specification vocabulary -/
namespace Spec

/-- the instant (UTC) of a time stamp; naive stamps are local -/
def instant (loc : Int → Int) (a : Stamp) : Int := a.face - (match a.zone with
  | some o => o
  | none => loc a.face)

/-- the sends of a history: the date in the header of the message and the clock at the send; the first is task 0, and so on -/
def sends (evs : List (Int × Ev)) : List (Int × Int) := evs.filterMap (fun e => match e with
  | (c, .send h) => some (h, c)
  | _ => none)

/-- a reply to task `i` has arrived -/
def answered (evs : List (Int × Ev)) (i : Nat) : Bool := evs.any (fun e => match e with
  | (_, .reply j _) => j == i
  | _ => false)

/-- the output of task `i` has arrived, or a reply saying that there is none -/
def outDone (evs : List (Int × Ev)) (i : Nat) : Bool := evs.any (fun e => match e with
  | (_, .reply j r) => j == i && r.noOutput
  | (_, .output j) => j == i
  | _ => false)

/-- the client is done with task `i`, and forgets it -/
def closed (evs : List (Int × Ev)) (i : Nat) : Bool := answered evs i && outDone evs i

/-- the replies to task `i` that arrive before the client is done with it, with the clock at their arrival -/
def landings (evs : List (Int × Ev)) (i : Nat) : List (Int × Reply) := (List.range evs.length).filterMap (fun (k : Nat) => match evs[k]? with
  | some (c, Ev.reply j r) => if j = i ∧ closed (evs.take k) i = false then some (c, r) else none
  | _ => none)

/-- the client's clock does not go back -/
def Clock (evs : List (Int × Ev)) : Prop := (evs.map (fun e => e.1)).Pairwise (· ≤ ·)

/-- the date in a header is not after the send; replies and outputs come after the send of their task; the date that a reply repeats is that of the header -/
def Proper (loc : Int → Int) (evs : List (Int × Ev)) : Prop :=
  (∀ c h, (c, Ev.send h) ∈ evs → h ≤ c) ∧
  (∀ pre c i r post, evs = pre ++ (c, Ev.reply i r) :: post → ∃ h c', (sends pre)[i]? = some (h, c') ∧ ∀ p, r.parent = some p → instant loc p = h) ∧
  (∀ pre c i post, evs = pre ++ (c, Ev.output i) :: post → i < (sends pre).length)

/-- when the (last) reply of task `i` was received -/
def ReceivedAt (evs : List (Int × Ev)) (i : Nat) (t : Int) : Prop := ∃ r, (landings evs i).getLast? = some (t, r)

/-- when task `i` was submitted: the date in the header of its message, once a reply has repeated it, and the clock at the send before -/
def SubmittedAt (evs : List (Int × Ev)) (i : Nat) (t : Int) : Prop := ∃ h c, (sends evs)[i]? = some (h, c) ∧
  ((∃ x ∈ landings evs i, x.2.parent.isSome) ∧ t = h ∨ (∀ x ∈ landings evs i, x.2.parent = none) ∧ t = c)

/-- when task `i` was started, by the clock of its engine -/
def StartedAt (loc : Int → Int) (evs : List (Int × Ev)) (i : Nat) (t : Int) : Prop :=
  ∃ s, ((landings evs i).filterMap (fun x => x.2.started)).getLast? = some s ∧ instant loc s = t

/-- when task `i` was completed, by the clock of its engine -/
def CompletedAt (loc : Int → Int) (evs : List (Int × Ev)) (i : Nat) (t : Int) : Prop :=
  ∃ s, ((landings evs i).filterMap (fun x => x.2.date)).getLast? = some s ∧ instant loc s = t

/-- `m` is the least of the numbers with `P` -/
def Least (P : Int → Prop) (m : Int) : Prop := P m ∧ ∀ x, P x → m ≤ x

/-- `m` is the greatest of the numbers with `P` -/
def Greatest (P : Int → Prop) (m : Int) : Prop := P m ∧ ∀ x, P x → x ≤ m

end Spec
open Spec

/-! ## comparing times -/

/-- the difference of two times is the difference of their instants, whatever their zones are -/
theorem compare_exact (loc : Int → Int) (a b : Stamp) (h : ¬ (a.zone = none ∧ b.zone = none)) :
    compareDatetimes loc (some a) (some b) = .ok (instant loc a - instant loc b) := by
  obtain ⟨fa, za⟩ := a
  obtain ⟨fb, zb⟩ := b
  cases za <;> cases zb <;> simp [compareDatetimes, sub, instant] at h ⊢

/-- two naive times are compared by their clock faces: in the local zone, an hour is missing or counted twice across a change of its offset -/
theorem compare_naive (loc : Int → Int) (a b : Stamp) (ha : a.zone = none) (hb : b.zone = none) :
    compareDatetimes loc (some a) (some b) = .ok (instant loc a - instant loc b + (loc a.face - loc b.face)) := by
  obtain ⟨fa, za⟩ := a
  obtain ⟨fb, zb⟩ := b
  subst ha; subst hb
  simp only [compareDatetimes, sub, instant]
  congr 1
  omega

@[simp] theorem instant_utcnow (loc : Int → Int) (t : Int) : instant loc (utcnow t) = t := by simp [instant, utcnow]
@[simp] theorem instant_ensure (loc : Int → Int) (a : Stamp) : instant loc (ensure loc a) = instant loc a := by
  obtain ⟨f, z⟩ := a
  cases z <;> simp [instant, ensure]

/-- aware -/
def Aware (a : Stamp) : Prop := a.zone ≠ none

theorem aware_utcnow (t : Int) : Aware (utcnow t) := by simp [Aware, utcnow]
theorem aware_ensure (loc : Int → Int) (a : Stamp) : Aware (ensure loc a) := by
  obtain ⟨f, z⟩ := a
  cases z <;> simp [ensure, Aware]

theorem sub_aware (loc : Int → Int) {a b : Stamp} (ha : Aware a) (hb : Aware b) : sub a b = .ok (instant loc a - instant loc b) := by
  obtain ⟨fa, za⟩ := a
  obtain ⟨fb, zb⟩ := b
  cases za with
  | none => exact absurd rfl ha
  | some p => cases zb with
    | none => exact absurd rfl hb
    | some q => simp [sub, instant]

theorem less_aware (loc : Int → Int) {a b : Stamp} (ha : Aware a) (hb : Aware b) : less (some a) (some b) = .ok (decide (instant loc a < instant loc b)) := by
  simp only [less]
  rw [sub_aware loc ha hb]
  simp only [Except.map]
  congr 1
  simp only [decide_eq_decide]
  omega

theorem compare_aware (loc : Int → Int) {a b : Stamp} (ha : Aware a) : compareDatetimes loc (some a) (some b) = .ok (instant loc a - instant loc b) :=
  compare_exact loc a b (fun h => ha h.1)

theorem pyMin_aware (loc : Int → Int) : ∀ (l : List Stamp) (m : Stamp), Aware m → (∀ x ∈ l, Aware x) →
    ∃ y ∈ m :: l, pyMinFrom (some m) (l.map some) = .ok (some y) ∧ ∀ x ∈ m :: l, instant loc y ≤ instant loc x := by
  intro l
  induction l with
  | nil => intro m _ _; exact ⟨m, by simp, rfl, by simp⟩
  | cons a l ih =>
    intro m hm hl
    have ha := hl a (by simp)
    simp only [List.map_cons, pyMinFrom, less_aware loc ha hm]
    by_cases h : instant loc a < instant loc m
    · obtain ⟨y, hy, e, hle⟩ := ih a ha (fun x hx => hl x (by simp [hx]))
      refine ⟨y, by simp only [List.mem_cons] at hy ⊢; rcases hy with h | h <;> simp [h], by simpa [h, bind, Except.bind] using e, ?_⟩
      intro x hx
      rcases List.mem_cons.1 hx with rfl | hx
      · have := hle a (by simp); omega
      · exact hle x hx
    · obtain ⟨y, hy, e, hle⟩ := ih m hm (fun x hx => hl x (by simp [hx]))
      refine ⟨y, by simp only [List.mem_cons] at hy ⊢; rcases hy with h | h <;> simp [h], by simpa [h, bind, Except.bind] using e, ?_⟩
      intro x hx
      rcases List.mem_cons.1 hx with rfl | hx
      · exact hle _ (by simp)
      · rcases List.mem_cons.1 hx with rfl | hx
        · have := hle m (by simp); omega
        · exact hle x (by simp [hx])

theorem pyMax_aware (loc : Int → Int) : ∀ (l : List Stamp) (m : Stamp), Aware m → (∀ x ∈ l, Aware x) →
    ∃ y ∈ m :: l, pyMaxFrom (some m) (l.map some) = .ok (some y) ∧ ∀ x ∈ m :: l, instant loc x ≤ instant loc y := by
  intro l
  induction l with
  | nil => intro m _ _; exact ⟨m, by simp, rfl, by simp⟩
  | cons a l ih =>
    intro m hm hl
    have ha := hl a (by simp)
    simp only [List.map_cons, pyMaxFrom, less_aware loc hm ha]
    by_cases h : instant loc m < instant loc a
    · obtain ⟨y, hy, e, hle⟩ := ih a ha (fun x hx => hl x (by simp [hx]))
      refine ⟨y, by simp only [List.mem_cons] at hy ⊢; rcases hy with h | h <;> simp [h], by simpa [h, bind, Except.bind] using e, ?_⟩
      intro x hx
      rcases List.mem_cons.1 hx with rfl | hx
      · have := hle a (by simp); omega
      · exact hle x hx
    · obtain ⟨y, hy, e, hle⟩ := ih m hm (fun x hx => hl x (by simp [hx]))
      refine ⟨y, by simp only [List.mem_cons] at hy ⊢; rcases hy with h | h <;> simp [h], by simpa [h, bind, Except.bind] using e, ?_⟩
      intro x hx
      rcases List.mem_cons.1 hx with rfl | hx
      · exact hle _ (by simp)
      · rcases List.mem_cons.1 hx with rfl | hx
        · have := hle m (by simp); omega
        · exact hle x (by simp [hx])

/-! ## the metadata after a history -/

theorem filterMap_ext {α β : Type} {f g : α → Option β} : ∀ {l : List α}, (∀ x ∈ l, f x = g x) → l.filterMap f = l.filterMap g
  | [], _ => rfl
  | a :: l, h => by
    rw [List.filterMap_cons, List.filterMap_cons, h a (by simp), filterMap_ext (fun x hx => h x (by simp [hx]))]

theorem landings_snoc (evs : List (Int × Ev)) (e : Int × Ev) (i : Nat) : landings (evs ++ [e]) i = landings evs i ++ (match e with
    | (c, .reply j r) => if j = i ∧ closed evs i = false then [(c, r)] else []
    | _ => []) := by
  unfold landings
  rw [List.length_append, List.length_singleton, List.range_succ, List.filterMap_append]
  congr 1
  · apply filterMap_ext
    intro k hk
    have hk := List.mem_range.1 hk
    rw [List.getElem?_append_left hk, List.take_append_of_le_length (by omega)]
  · simp only [List.filterMap_cons, List.filterMap_nil, List.getElem?_concat_length, List.take_left']
    obtain ⟨c, ev⟩ := e
    cases ev with
    | send h => rfl
    | output j => rfl
    | reply j r =>
      dsimp only
      split <;> simp_all

theorem answered_snoc (evs : List (Int × Ev)) (e : Int × Ev) (i : Nat) : answered (evs ++ [e]) i = (answered evs i || match e with
    | (_, .reply j _) => j == i
    | _ => false) := by simp [answered]

theorem outDone_snoc (evs : List (Int × Ev)) (e : Int × Ev) (i : Nat) : outDone (evs ++ [e]) i = (outDone evs i || match e with
    | (_, .reply j r) => j == i && r.noOutput
    | (_, .output j) => j == i
    | _ => false) := by simp [outDone]

theorem sends_append (a b : List (Int × Ev)) : sends (a ++ b) = sends a ++ sends b := by simp [sends]

theorem Spec.Proper.prefix {loc : Int → Int} {a b : List (Int × Ev)} (h : Proper loc (a ++ b)) : Proper loc a := by
  obtain ⟨h1, h2, h3⟩ := h
  refine ⟨fun c x hx => h1 c x (by simp [hx]), fun pre c i r post e => h2 pre c i r (post ++ b) (by simp [e]), fun pre c i post e => h3 pre c i (post ++ b) (by simp [e])⟩

/-- the metadata of a task, from the history -/
def mdOf (loc : Int → Int) (L : List (Int × Reply)) (c : Int) : Md :=
  { submitted := keep ((L.filterMap (fun x => x.2.parent)).getLast?.map (ensure loc)) (some (utcnow c))
    started := (L.filterMap (fun x => x.2.started)).getLast?.map (ensure loc)
    completed := (L.filterMap (fun x => x.2.date)).getLast?.map (ensure loc)
    received := L.getLast?.map (fun x => utcnow x.1) }

theorem getLast?_filterMap_snoc {α β : Type} (f : α → Option β) (l : List α) (a : α) : ((l ++ [a]).filterMap f).getLast? = (f a).or ((l.filterMap f).getLast?) := by
  rw [List.filterMap_append, List.getLast?_append]
  cases h : f a <;> simp [h]

theorem mdOf_snoc (loc : Int → Int) (L : List (Int × Reply)) (c : Int) (now : Int) (r : Reply) : mdOf loc (L ++ [(now, r)]) c = (mdOf loc L c).update loc now r := by
  unfold mdOf Md.update
  simp only [getLast?_filterMap_snoc]
  cases hp : r.parent <;> cases hs : r.started <;> cases hd : r.date <;> simp [keep]

/-- the tasks after a history -/
theorem run_eq (loc : Int → Int) (evs : List (Int × Ev)) (hp : Proper loc evs) : (run loc evs).length = (sends evs).length ∧
    ∀ (i : Nat) (h c : Int), (sends evs)[i]? = some (h, c) → (run loc evs)[i]? = some { md := mdOf loc (landings evs i) c, value := answered evs i, output := outDone evs i } := by
  have gen : ∀ n (evs : List (Int × Ev)), evs.length = n → Proper loc evs → (run loc evs).length = (sends evs).length ∧
    (∀ (i : Nat) (h c : Int), (sends evs)[i]? = some (h, c) → (run loc evs)[i]? = some { md := mdOf loc (landings evs i) c, value := answered evs i, output := outDone evs i }) ∧
    (∀ i, (sends evs).length ≤ i → answered evs i = false ∧ outDone evs i = false ∧ landings evs i = []) := by
    intro n
    induction n with
    | zero =>
      intro evs he _
      have : evs = [] := List.length_eq_zero_iff.1 he
      subst this
      exact ⟨rfl, by simp [sends], fun i _ => ⟨rfl, rfl, rfl⟩⟩
    | succ n ih =>
      intro evs he hp
      obtain ⟨pre, e, rfl⟩ : ∃ pre e, evs = pre ++ [e] := ⟨evs.dropLast, evs.getLast (by intro h; simp [h] at he), (List.dropLast_concat_getLast _).symm⟩
      have hl : pre.length = n := by simpa using he
      obtain ⟨i1, i2, i3⟩ := ih pre hl hp.prefix
      have hrun : run loc (pre ++ [e]) = step loc (run loc pre) e.1 e.2 := by simp [run]
      obtain ⟨c, ev⟩ := e
      cases ev with
      | send h =>
        have es : sends (pre ++ [(c, .send h)]) = sends pre ++ [(h, c)] := by rw [sends_append]; rfl
        rw [hrun, es]
        simp only [landings_snoc, answered_snoc, outDone_snoc, Bool.or_false, List.append_nil]
        refine ⟨by simp [step, i1], ?_, fun i hi => i3 i (by simp at hi; omega)⟩
        intro i h' c' hi
        by_cases hlt : i < (sends pre).length
        · rw [List.getElem?_append_left hlt] at hi
          simp only [step]
          rw [List.getElem?_append_left (by omega)]
          exact i2 i h' c' hi
        · have hle : (sends pre).length ≤ i := by omega
          rw [List.getElem?_append_right hle] at hi
          have hz : i - (sends pre).length = 0 := by
            cases hz : i - (sends pre).length with
            | zero => rfl
            | succ k => rw [hz] at hi; simp at hi
          rw [hz] at hi
          simp at hi
          obtain ⟨rfl, rfl⟩ := hi
          obtain ⟨a1, a2, a3⟩ := i3 i hle
          simp only [step]
          rw [List.getElem?_append_right (by omega), i1, hz, a1, a2, a3]
          rfl
      | output j =>
        have es : sends (pre ++ [(c, .output j)]) = sends pre := by rw [sends_append]; simp [sends]
        have hj := hp.2.2 pre c j [] rfl
        rw [hrun, es]
        simp only [landings_snoc, answered_snoc, outDone_snoc, Bool.or_false, List.append_nil]
        obtain ⟨⟨hh, cc⟩, hs⟩ : ∃ x, (sends pre)[j]? = some x := ⟨(sends pre)[j], List.getElem?_eq_getElem hj⟩
        have ht := i2 j hh cc hs
        simp only [step, ht]
        refine ⟨by simp [i1], ?_, ?_⟩
        · intro i h' c' hi
          by_cases hij : j = i
          · subst hij
            rw [hs] at hi
            cases hi
            rw [List.getElem?_set_self (by omega)]
            simp
          · rw [List.getElem?_set_ne hij, i2 i h' c' hi]
            simp [hij]
        · intro i hi
          have hne : j ≠ i := by omega
          simpa [hne] using i3 i hi
      | reply j r =>
        have es : sends (pre ++ [(c, .reply j r)]) = sends pre := by rw [sends_append]; simp [sends]
        obtain ⟨hh, cc, hs, -⟩ := hp.2.1 pre c j r [] rfl
        have hj : j < (sends pre).length := by
          rcases Nat.lt_or_ge j (sends pre).length with h | h
          · exact h
          · rw [List.getElem?_eq_none h] at hs; cases hs
        rw [hrun, es]
        simp only [landings_snoc, answered_snoc, outDone_snoc]
        have ht := i2 j hh cc hs
        simp only [step, ht]
        refine ⟨by simp [i1], ?_, ?_⟩
        · intro i h' c' hi
          by_cases hij : j = i
          · subst hij
            rw [hs] at hi
            cases hi
            rw [List.getElem?_set_self (by omega)]
            congr 1
            unfold Task.reply
            cases ha : answered pre j <;> cases ho : outDone pre j <;> simp [closed, ha, ho, mdOf_snoc]
          · rw [List.getElem?_set_ne hij, i2 i h' c' hi]
            simp [hij]
        · intro i hi
          have hne : j ≠ i := by omega
          simpa [hne] using i3 i hi
  obtain ⟨a, b, -⟩ := gen _ evs rfl hp
  exact ⟨a, b⟩

end IPP.Timing
