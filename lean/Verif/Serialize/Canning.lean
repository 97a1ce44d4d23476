import Verif.Serialize.Spec
/-! # C39: `uncan (can x)` -/
namespace IPP.Ser

/-! ## keys and sorting -/

theorem Key.le_total (a b : Key) : a.le b = true ∨ b.le a = true := by
  cases a <;> cases b <;> simp [Key.le] <;> omega

theorem Key.le_trans {a b c : Key} (h : a.le b = true) (h' : b.le c = true) : a.le c = true := by
  cases a <;> cases b <;> cases c <;> simp [Key.le] at h h' ⊢ <;> omega

abbrev SortedKV {α : Type} (l : List (Key × α)) : Prop := l.Pairwise (fun a b => a.1.le b.1 = true)

theorem insertKV_perm {α : Type} (e : Key × α) (l : List (Key × α)) : (insertKV e l).Perm (e :: l) := by
  induction l with
  | nil => exact .refl _
  | cons x r ih =>
    simp only [insertKV]
    split
    · exact .refl _
    · exact (ih.cons x).trans (.swap e x r)

theorem sortKV_perm {α : Type} (l : List (Key × α)) : (sortKV l).Perm l := by
  induction l with
  | nil => exact .refl _
  | cons x r ih => exact (insertKV_perm x _).trans (ih.cons x)

theorem insertKV_sorted {α : Type} (e : Key × α) (l : List (Key × α)) (h : SortedKV l) : SortedKV (insertKV e l) := by
  induction l with
  | nil => simp [insertKV, SortedKV]
  | cons x r ih =>
    have hx := List.pairwise_cons.1 h
    simp only [insertKV]
    split
    next hle =>
      refine List.pairwise_cons.2 ⟨?_, h⟩
      intro y hy
      rcases List.mem_cons.1 hy with rfl | hy
      · exact hle
      · exact Key.le_trans hle (hx.1 y hy)
    next hle =>
      refine List.pairwise_cons.2 ⟨?_, ih hx.2⟩
      intro y hy
      have := (insertKV_perm e r).subset hy
      rcases List.mem_cons.1 this with rfl | hy
      · rcases Key.le_total x.1 y.1 with h1 | h1
        · exact h1
        · exact absurd h1 hle
      · exact hx.1 y hy

theorem sortKV_sorted {α : Type} (l : List (Key × α)) : SortedKV (sortKV l) := by
  induction l with
  | nil => exact List.Pairwise.nil
  | cons x r ih => exact insertKV_sorted x _ ih

theorem sortKV_of_sorted {α : Type} (l : List (Key × α)) (h : SortedKV l) : sortKV l = l := by
  induction l with
  | nil => rfl
  | cons x r ih =>
    have hx := List.pairwise_cons.1 h
    show insertKV x (sortKV r) = x :: r
    rw [ih hx.2]
    cases r with
    | nil => rfl
    | cons y r => simp only [insertKV]; rw [if_pos (hx.1 y (by simp))]

theorem look_of_mem {α : Type} {l : List (Key × α)} (hn : (l.map (·.1)).Nodup) {k : Key} {v : α} (h : (k, v) ∈ l) : look k l = some v := by
  induction l with
  | nil => cases h
  | cons x r ih =>
    obtain ⟨k', v'⟩ := x
    simp only [List.map_cons, List.nodup_cons] at hn
    simp only [look]
    rcases List.mem_cons.1 h with h1 | h1
    · cases h1; simp
    · have : k ≠ k' := by
        intro hk
        exact hn.1 (List.mem_map.2 ⟨(k, v), h1, hk⟩)
      rw [if_neg this]
      exact ih hn.2 h1

theorem look_none {α : Type} {l : List (Key × α)} {k : Key} (h : k ∉ l.map (·.1)) : look k l = none := by
  induction l with
  | nil => rfl
  | cons x r ih =>
    obtain ⟨k', v'⟩ := x
    simp only [List.map_cons, List.mem_cons, not_or] at h
    simp only [look]
    rw [if_neg h.1]
    exact ih h.2

/-! ## buffers -/

theorem uncanWith_setBuffers (E : Env) (g : Nat → Option Obj) (b : List (Option Buf)) (c : Obj) (d : List Data) : uncanWith E g (setBuffers b c) d = uncanWith E g c d := by
  cases c <;> try rfl
  rename_i p _ _ _
  cases p <;> simp [setBuffers, uncanWith]

theorem setBuffers_nil {c : Obj} (h : buffers c = some []) : setBuffers [] c = c := by
  cases c <;> simp_all [buffers, setBuffers]

theorem own_setBuffers {c : Obj} {b0 : List (Option Buf)} (h : buffers c = some b0) (b : List (Option Buf)) (hb : b = [] ∨ b.length = b0.length) : own (setBuffers b c) = datas b := by
  cases c <;> simp_all [buffers, setBuffers, own]
  all_goals (cases b <;> simp_all)

/-- the object's buffers are all there -/
def Full (c : Obj) : Prop := isCanned c = true → ∃ d, own c = some d

theorem own_not_canned {c : Obj} (h : isCanned c = false) : own c = some [] := by
  cases c <;> first | rfl | (simp [isCanned] at h)

theorem datas_append {a b : List (Option Buf)} {d e : List Data} (ha : datas a = some d) (hb : datas b = some e) : datas (a ++ b) = some (d ++ e) := by
  induction a generalizing d with
  | nil =>
    have : d = [] := by simpa [datas] using ha.symm
    subst this; simpa using hb
  | cons x a ih =>
    cases x with
    | none => simp [datas, List.mapM_cons] at ha
    | some x =>
      simp only [datas, List.mapM_cons, Option.map_some, Option.pure_def, Option.bind_eq_bind, Option.bind_some] at ha
      cases hm : List.mapM (fun x => Option.map (fun x => x.data) x) a with
      | none => rw [hm] at ha; cases ha
      | some m =>
        rw [hm] at ha
        simp at ha
        subst ha
        have := ih (d := m) hm
        simp only [datas] at this
        simp [datas, List.mapM_cons, this]

theorem datas_length {a : List (Option Buf)} {d : List Data} (ha : datas a = some d) : d.length = a.length := by
  induction a generalizing d with
  | nil =>
    have : d = [] := by simpa [datas] using ha.symm
    subst this; rfl
  | cons x a ih =>
    cases x with
    | none => simp [datas, List.mapM_cons] at ha
    | some x =>
      simp only [datas, List.mapM_cons, Option.map_some, Option.pure_def, Option.bind_eq_bind, Option.bind_some] at ha
      cases hm : List.mapM (fun x => Option.map (fun x => x.data) x) a with
      | none => rw [hm] at ha; cases ha
      | some m =>
        rw [hm] at ha
        simp at ha
        subst ha
        simp [ih hm]

theorem uncan_eq (E : Env) (g : Nat → Option Obj) {c : Obj} {d : List Data} (h : own c = some d) : uncan E g c = uncanWith E g c d := by
  simp [uncan, h]

/-- buffers of the arguments of a partial go together and come apart again -/
theorem consolidate_spec (E : Env) (g : Nat → Option Obj) : ∀ (cs : List Obj) (cs' : List Obj) (counts : List Nat) (B : List (Option Buf)),
    consolidate cs = some (cs', counts, B) → (∀ c ∈ cs, Full c) →
    ∃ D, datas B = some D ∧ (∀ T, uncanArgs E g cs' counts (D ++ T) = (uncanList E g cs).map (fun l => (l, T))) ∧ (B = [] → uncanList E g cs' = uncanList E g cs)
  | [], cs', counts, B, h, _ => by
    simp only [consolidate, Option.some.injEq, Prod.mk.injEq] at h
    obtain ⟨rfl, rfl, rfl⟩ := h
    exact ⟨[], rfl, fun T => by simp [uncanArgs, uncanList], fun _ => rfl⟩
  | c :: r, cs', counts, B, h, hf => by
    simp only [consolidate] at h
    cases hr : consolidate r with
    | none => rw [hr] at h; simp at h
    | some q =>
      obtain ⟨r', cr, br⟩ := q
      rw [hr] at h
      simp only [Option.bind_eq_bind, Option.bind_some] at h
      obtain ⟨D, hD, h1, h2⟩ := consolidate_spec E g r r' cr br hr (fun c hc => hf c (by simp [hc]))
      by_cases hc : isCanned c = true
      · rw [if_pos hc] at h
        cases hb : buffers c with
        | none => rw [hb] at h; simp at h
        | some b =>
          rw [hb] at h
          simp only [Option.bind_some, Option.some.injEq, Prod.mk.injEq] at h
          obtain ⟨rfl, rfl, rfl⟩ := h
          obtain ⟨d, hd⟩ := hf c (by simp) hc
          have hdb : datas b = some d := by simpa [own, hb] using hd
          have hlen := datas_length hdb
          refine ⟨d ++ D, datas_append hdb hD, ?_, ?_⟩
          · intro T
            have hdrop : (d ++ D ++ T).drop b.length = D ++ T := by
              rw [← hlen, List.append_assoc, List.drop_left]
            have htake : (d ++ D ++ T).take b.length = d := by rw [← hlen, List.append_assoc, List.take_left]
            by_cases h0 : b.length = 0
            · have hd0 : d = [] := List.length_eq_zero_iff.1 (by omega)
              have hox : own (setBuffers [] c) = some d := by rw [own_setBuffers hb [] (.inl rfl), hd0]; rfl
              simp only [uncanArgs, hox, if_pos h0, hdrop, h1 T, uncanWith_setBuffers, uncanList, hd, Option.bind_eq_bind, Option.bind_some]
              cases uncanWith E g c d <;> cases uncanList E g r <;> simp
            · simp only [uncanArgs, htake, if_neg h0, hdrop, h1 T, uncanWith_setBuffers, uncanList, hd, Option.bind_eq_bind, Option.bind_some]
              cases uncanWith E g c d <;> cases uncanList E g r <;> simp
          · intro hnil
            rw [List.append_eq_nil_iff] at hnil
            rw [hnil.1] at hb
            rw [setBuffers_nil hb]
            simp only [uncanList, h2 hnil.2]
      · have hc' : isCanned c = false := by simpa using hc
        rw [if_neg hc] at h
        simp only [Option.some.injEq, Prod.mk.injEq] at h
        obtain ⟨rfl, rfl, rfl⟩ := h
        refine ⟨D, hD, ?_, ?_⟩
        · intro T
          simp only [uncanArgs, if_true, List.drop_zero, h1 T, uncanList, own_not_canned hc', Option.bind_eq_bind, Option.bind_some]
          cases uncanWith E g c [] <;> cases uncanList E g r <;> simp
        · intro hnil
          simp only [uncanList, h2 hnil]

/-- the slices a list of keyword arguments asks for -/
def wanted : List (Key × Obj) → List (Key × List Data)
  | [] => []
  | (k, c) :: r => if isCanned c then (k, (own c).getD []) :: wanted r else wanted r

theorem mem_wanted {l : List (Key × Obj)} {k : Key} {c : Obj} (h : (k, c) ∈ l) (hc : isCanned c = true) : (k, (own c).getD []) ∈ wanted l := by
  induction l with
  | nil => cases h
  | cons x r ih =>
    obtain ⟨k', c'⟩ := x
    simp only [wanted]
    rcases List.mem_cons.1 h with h | h
    · cases h; rw [if_pos hc]; simp
    · split
      · exact List.mem_cons_of_mem _ (ih h)
      · exact ih h

theorem wanted_keys {l : List (Key × Obj)} {k : Key} (h : k ∈ (wanted l).map (·.1)) : ∃ c, (k, c) ∈ l ∧ isCanned c = true := by
  induction l with
  | nil => simp [wanted] at h
  | cons x r ih =>
    obtain ⟨k', c'⟩ := x
    simp only [wanted] at h
    split at h
    next hc =>
      simp only [List.map_cons, List.mem_cons] at h
      rcases h with rfl | h
      · exact ⟨c', by simp, hc⟩
      · obtain ⟨c, h1, h2⟩ := ih h
        exact ⟨c, by simp [h1], h2⟩
    next =>
      obtain ⟨c, h1, h2⟩ := ih h
      exact ⟨c, by simp [h1], h2⟩

theorem wanted_nodup {l : List (Key × Obj)} (h : (l.map (·.1)).Nodup) : ((wanted l).map (·.1)).Nodup := by
  induction l with
  | nil => simp [wanted]
  | cons x r ih =>
    obtain ⟨k', c'⟩ := x
    simp only [List.map_cons, List.nodup_cons] at h
    simp only [wanted]
    split
    · simp only [List.map_cons, List.nodup_cons]
      refine ⟨?_, ih h.2⟩
      intro hm
      obtain ⟨c, h1, -⟩ := wanted_keys hm
      exact h.1 (List.mem_map.2 ⟨(k', c), h1, rfl⟩)
    · exact ih h.2

theorem consolidateKW_spec : ∀ (l : List (Key × Obj)) (kc : List (Key × Nat)) (B : List (Option Buf)), consolidateKW l = some (kc, B) → (∀ e ∈ l, Full e.2) →
    ∃ D, datas B = some D ∧ (∀ T, slices kc (D ++ T) = (wanted l, T)) ∧ (∀ e ∈ kc, ∃ x ∈ l, x.1 = e.1) ∧ (SortedKV l → SortedKV kc) ∧ (B = [] → ∀ e ∈ l, isCanned e.2 = true → buffers e.2 = some [])
  | [], kc, B, h, _ => by
    simp only [consolidateKW, Option.some.injEq, Prod.mk.injEq] at h
    obtain ⟨rfl, rfl⟩ := h
    exact ⟨[], rfl, fun T => rfl, by simp, fun _ => List.Pairwise.nil, by simp⟩
  | (k, c) :: r, kc, B, h, hf => by
    simp only [consolidateKW] at h
    cases hr : consolidateKW r with
    | none => rw [hr] at h; simp at h
    | some q =>
      obtain ⟨cr, br⟩ := q
      rw [hr] at h
      simp only [Option.bind_eq_bind, Option.bind_some] at h
      obtain ⟨D, hD, h1, h2, h3, h4⟩ := consolidateKW_spec r cr br hr (fun c hc => hf c (by simp [hc]))
      by_cases hc : isCanned c = true
      · rw [if_pos hc] at h
        cases hb : buffers c with
        | none => rw [hb] at h; simp at h
        | some b =>
          rw [hb] at h
          simp only [Option.bind_some, Option.some.injEq, Prod.mk.injEq] at h
          obtain ⟨rfl, rfl⟩ := h
          obtain ⟨d, hd⟩ := hf (k, c) (by simp) hc
          simp only at hd
          have hdb : datas b = some d := by simpa [own, hb] using hd
          have hlen := datas_length hdb
          refine ⟨d ++ D, datas_append hdb hD, ?_, ?_, ?_, ?_⟩
          · intro T
            have e1 : (d ++ D ++ T).take b.length = d := by rw [← hlen, List.append_assoc, List.take_left]
            have e2 : (d ++ D ++ T).drop b.length = D ++ T := by rw [← hlen, List.append_assoc, List.drop_left]
            simp only [slices, wanted, if_pos hc, hd, Option.getD_some, e1, e2, h1 T]
          · intro e he
            rcases List.mem_cons.1 he with rfl | he
            · exact ⟨(k, c), by simp, rfl⟩
            · obtain ⟨x, hx, hxe⟩ := h2 e he
              exact ⟨x, by simp [hx], hxe⟩
          · intro hs
            have hs' := List.pairwise_cons.1 hs
            refine List.pairwise_cons.2 ⟨?_, h3 hs'.2⟩
            intro e he
            obtain ⟨x, hx, hxe⟩ := h2 e he
            have := hs'.1 x hx
            rw [hxe] at this
            exact this
          · intro hnil e he hce
            rw [List.append_eq_nil_iff] at hnil
            rcases List.mem_cons.1 he with rfl | he
            · simp only; rw [hb, hnil.1]
            · exact h4 hnil.2 e he hce
      · rw [if_neg hc] at h
        simp only [Option.some.injEq, Prod.mk.injEq] at h
        obtain ⟨rfl, rfl⟩ := h
        refine ⟨D, hD, ?_, ?_, ?_, ?_⟩
        · intro T
          simp only [wanted, if_neg hc, h1 T]
        · intro e he
          obtain ⟨x, hx, hxe⟩ := h2 e he
          exact ⟨x, by simp [hx], hxe⟩
        · intro hs
          exact h3 (List.pairwise_cons.1 hs).2
        · intro hnil e he hce
          rcases List.mem_cons.1 he with rfl | he
          · exact absurd hce hc
          · exact h4 hnil e he hce

/-- a keyword argument without its buffers -/
abbrev stripKV (e : Key × Obj) : Key × Obj := (e.1, if isCanned e.2 then setBuffers [] e.2 else e.2)

theorem uncanKW_spec (E : Env) (g : Nat → Option Obj) (sl : List (Key × List Data)) : ∀ (l : List (Key × Obj)), (∀ e ∈ l, Full e.2) →
    (∀ e ∈ l, (isCanned e.2 = true → look e.1 sl = own e.2) ∧ (isCanned e.2 = false → look e.1 sl = none)) → uncanKW E g (l.map stripKV) sl = uncanKV E g l
  | [], _, _ => rfl
  | (k, c) :: r, hf, hl => by
    have ih := uncanKW_spec E g sl r (fun e he => hf e (by simp [he])) (fun e he => hl e (by simp [he]))
    have hk := hl (k, c) (by simp)
    simp only [List.map_cons, uncanKW, uncanKV, stripKV]
    rw [ih]
    by_cases hc : isCanned c = true
    · obtain ⟨d, hd⟩ := hf (k, c) (by simp) hc
      simp only at hd
      have h1 := hk.1 hc
      simp only [hd] at h1
      simp only [h1, hc, if_true, hd, uncanWith_setBuffers, Option.bind_eq_bind, Option.bind_some]
    · have hc' : isCanned c = false := by simpa using hc
      have h1 := hk.2 hc'
      simp only at h1
      simp only [h1, hc', own_not_canned hc', Bool.false_eq_true, if_false]

theorem strip_id (E : Env) (g : Nat → Option Obj) : ∀ (l : List (Key × Obj)), (∀ e ∈ l, isCanned e.2 = true → buffers e.2 = some []) → l.map stripKV = l
  | [], _ => rfl
  | (k, c) :: r, h => by
    simp only [List.map_cons, strip_id E g r (fun e he => h e (by simp [he])), stripKV]
    split
    next hc => rw [setBuffers_nil (h (k, c) (by simp) hc)]
    next => rfl

/-- `CannedPartial.get_object` undoes `CannedPartial.__init__` -/
theorem mkPartial_spec (E : Env) (g : Nat → Option Obj) {f : Obj} {args : List Obj} {kw : List (Key × Obj)} {c : Obj} (h : mkPartial f args kw = some c) (hfa : ∀ c ∈ args, Full c)
    (hfk : ∀ e ∈ kw, Full e.2) (hn : (kw.map (·.1)).Nodup) :
    Full c ∧ uncan E g c = (do
      let f' ← uncan E g f
      let args' ← uncanList E g args
      let kw' ← uncanKV E g kw
      some (.partial_ f' args' kw')) := by
  simp only [mkPartial] at h
  cases h1 : consolidate args with
  | none => rw [h1] at h; simp at h
  | some q =>
    obtain ⟨args', counts, b1⟩ := q
    rw [h1] at h
    simp only [Option.bind_eq_bind, Option.bind_some] at h
    cases h2 : consolidateKW (sortKV kw) with
    | none => rw [h2] at h; simp at h
    | some q =>
      obtain ⟨kc, b2⟩ := q
      rw [h2] at h
      simp only [Option.bind_some, Option.some.injEq] at h
      subst h
      obtain ⟨D1, hD1, a1, a2⟩ := consolidate_spec E g args args' counts b1 h1 hfa
      obtain ⟨D2, hD2, k1, -, k3, k4⟩ := consolidateKW_spec (sortKV kw) kc b2 h2 (fun e he => hfk e ((sortKV_perm kw).subset he))
      have hkc : sortKV kc = kc := sortKV_of_sorted kc (k3 (sortKV_sorted kw))
      have hown : ∀ f args kw counts kc, own (.cPartial f args kw (b1 ++ b2) counts kc) = some (D1 ++ D2) := by
        intros
        simpa [own, buffers] using datas_append hD1 hD2
      refine ⟨fun _ => ⟨_, hown _ _ _ _ _⟩, ?_⟩
      rw [uncan_eq E g (hown _ _ _ _ _)]
      have hnd : ((wanted (sortKV kw)).map (·.1)).Nodup := wanted_nodup (((sortKV_perm kw).map (·.1)).symm.nodup hn)
      have hkw : uncanKW E g (kw.map stripKV) (wanted (sortKV kw)) = uncanKV E g kw := by
        refine uncanKW_spec E g _ kw hfk ?_
        intro e he
        have hes := (sortKV_perm kw).symm.subset he
        refine ⟨?_, ?_⟩
        · intro hc
          rw [look_of_mem hnd (mem_wanted (c := e.2) hes hc)]
          obtain ⟨d, hd⟩ := hfk e he hc
          rw [hd]; rfl
        · intro hc
          refine look_none ?_
          intro hm
          obtain ⟨c', h1, h2⟩ := wanted_keys hm
          have hm' := (sortKV_perm kw).subset h1
          have e1 := look_of_mem hn hm'
          have e2 := look_of_mem hn (k := e.1) (v := e.2) he
          rw [e1] at e2
          cases e2
          rw [hc] at h2; cases h2
      have hs0 := k1 []
      simp only [List.append_nil] at hs0
      simp only [uncanWith, Option.bind_eq_bind]
      cases hf : own f with
      | none => simp [uncan, hf]
      | some bf =>
        simp only [Option.bind_some, uncan, hf, Option.bind_eq_bind]
        by_cases he : (D1 ++ D2).isEmpty = true
        · rw [if_pos he]
          have he' : D1 ++ D2 = [] := List.isEmpty_iff.1 he
          rw [List.append_eq_nil_iff] at he'
          have hb1 : b1 = [] := List.length_eq_zero_iff.1 (by rw [← datas_length hD1, he'.1]; rfl)
          have hb2 : b2 = [] := List.length_eq_zero_iff.1 (by rw [← datas_length hD2, he'.2]; rfl)
          rw [a2 hb1]
          have hst : (kw.map fun e => (e.1, if isCanned e.2 then setBuffers [] e.2 else e.2)) = kw := strip_id E g kw (fun e he hc => k4 hb2 e ((sortKV_perm kw).symm.subset he) hc)
          rw [hst]
          cases uncanWith E g f bf <;> cases uncanList E g args <;> cases uncanKV E g kw <;> simp
        · rw [if_neg he]
          rw [a1 D2, hkc]
          have hkw' : uncanKW E g (kw.map fun e => (e.1, if isCanned e.2 then setBuffers [] e.2 else e.2)) (wanted (sortKV kw)) = uncanKV E g kw := hkw
          cases uncanList E g args with
          | none => cases uncanWith E g f bf <;> simp
          | some l =>
            simp only [Option.map_some, Option.bind_some, hs0, hkw', List.isEmpty_nil, if_true]
            cases uncanKV E g kw <;> cases uncanWith E g f bf <;> simp

/-! ## values that were not canned -/

theorem own_plain {x : Obj} (h : plain x = true) : own x = some [] := by
  cases x <;> first | rfl | (simp [plain] at h)

mutual
theorem uncan_plain (E : Env) (g : Nat → Option Obj) : ∀ (x : Obj), plain x = true → uncan E g x = resolve g x
  | .dict kv, h => by
    simp only [plain, Bool.and_eq_true] at h
    simp [uncan, own, buffers, datas, uncanWith, resolve, uncanKV_plain E g kv h.1]
  | .atom _, _ => by simp [uncan, own, buffers, datas, uncanWith, resolve]
  | .bytes _, _ => by simp [uncan, own, buffers, datas, uncanWith, resolve]
  | .view _, _ => by simp [uncan, own, buffers, datas, uncanWith, resolve]
  | .arr .., _ => by simp [uncan, own, buffers, datas, uncanWith, resolve]
  | .ref _, _ => by simp [uncan, own, buffers, datas, uncanWith, resolve]
  | .cell _, _ => by simp [uncan, own, buffers, datas, uncanWith, resolve]
  | .func .., _ => by simp [uncan, own, buffers, datas, uncanWith, resolve]
  | .partial_ .., _ => by simp [uncan, own, buffers, datas, uncanWith, resolve]
  | .seq .., _ => by simp [uncan, own, buffers, datas, uncanWith, resolve]
  | .dep .., _ => by simp [uncan, own, buffers, datas, uncanWith, resolve]
  | .cBytes _, h => by simp [plain] at h
  | .cView _, h => by simp [plain] at h
  | .cArr .., h => by simp [plain] at h
  | .cCell .., h => by simp [plain] at h
  | .cFunc .., h => by simp [plain] at h
  | .cPartial .., h => by simp [plain] at h
  | .cDep .., h => by simp [plain] at h
theorem uncanKV_plain (E : Env) (g : Nat → Option Obj) : ∀ (l : List (Key × Obj)), plainKV l = true → uncanKV E g l = resolveKV g l
  | [], _ => rfl
  | (k, x) :: r, h => by
    simp only [plainKV, Bool.and_eq_true] at h
    have h1 := uncan_plain E g x h.1
    rw [uncan_eq E g (own_plain h.1)] at h1
    simp only [uncanKV, resolveKV, own_plain h.1, Option.bind_eq_bind, Option.bind_some, h1, uncanKV_plain E g r h.2]
end

theorem uncanList_plain (E : Env) (g : Nat → Option Obj) : ∀ (l : List Obj), plainList l = true → uncanList E g l = resolveList g l
  | [], _ => rfl
  | x :: r, h => by
    simp only [plainList, Bool.and_eq_true] at h
    have h1 := uncan_plain E g x h.1
    rw [uncan_eq E g (own_plain h.1)] at h1
    simp only [uncanList, resolveList, own_plain h.1, Option.bind_eq_bind, Option.bind_some, h1, uncanList_plain E g r h.2]

/-! ## can, then uncan -/

theorem uncanList_cons (E : Env) (g : Nat → Option Obj) (x : Obj) (r : List Obj) : uncanList E g (x :: r) = (do
    let x' ← uncan E g x
    let r' ← uncanList E g r
    some (x' :: r')) := by
  simp only [uncanList, uncan, Option.bind_eq_bind]
  cases own x <;> simp

theorem uncanKV_cons (E : Env) (g : Nat → Option Obj) (k : Key) (x : Obj) (r : List (Key × Obj)) : uncanKV E g ((k, x) :: r) = (do
    let x' ← uncan E g x
    let r' ← uncanKV E g r
    some ((k, x') :: r')) := by
  simp only [uncanKV, uncan, Option.bind_eq_bind]
  cases own x <;> simp

mutual
theorem can_spec (E : Env) : ∀ (x c : Obj), plain x = true → can x = some c → Full c ∧ ∀ g, uncan E g c = seen E g x
  | .atom _, c, _, h => by
    simp only [can, Option.some.injEq] at h
    subst h
    exact ⟨fun hc => by simp [isCanned] at hc, fun g => by simp [uncan, own, buffers, datas, uncanWith, seen]⟩
  | .bytes _, c, _, h => by
    simp only [can, Option.some.injEq] at h
    subst h
    exact ⟨fun _ => ⟨_, rfl⟩, fun g => by simp [uncan, own, buffers, datas, uncanWith, seen]⟩
  | .view _, c, _, h => by
    simp only [can, Option.some.injEq] at h
    subst h
    exact ⟨fun _ => ⟨_, rfl⟩, fun g => by simp [uncan, own, buffers, datas, uncanWith, seen]⟩
  | .arr .buffer .., c, _, h => by
    simp only [can, Option.some.injEq] at h
    subst h
    exact ⟨fun _ => ⟨_, rfl⟩, fun g => by simp [uncan, own, buffers, datas, uncanWith, seen]⟩
  | .arr .pickled .., c, _, h => by
    simp only [can, Option.some.injEq] at h
    subst h
    exact ⟨fun _ => ⟨_, rfl⟩, fun g => by simp [uncan, own, buffers, datas, uncanWith, seen]⟩
  | .arr .noBuffer .., c, _, h => by simp [can] at h
  | .ref _, c, _, h => by
    simp only [can, Option.some.injEq] at h
    subst h
    exact ⟨fun _ => ⟨_, rfl⟩, fun g => by simp [uncan, own, buffers, datas, uncanWith, seen]⟩
  | .cell x, c, hp, h => by
    simp only [can] at h
    simp only [plain] at hp
    cases hx : can x with
    | none => rw [hx] at h; simp at h
    | some y =>
      rw [hx] at h
      simp only [Option.bind_eq_bind, Option.bind_some, Option.some.injEq] at h
      subst h
      have ih := can_spec E x y hp hx
      refine ⟨fun _ => ⟨[], rfl⟩, fun g => ?_⟩
      rw [uncan_eq E g (d := []) rfl]
      simp only [seen, ← ih.2 g, uncan, uncanWith, Option.bind_eq_bind]
      cases own y <;> rfl
  | .func code m ds kd cl, c, hp, h => by
    simp only [can] at h
    simp only [plain, Bool.and_eq_true] at hp
    cases h1 : canList ds with
    | none => rw [h1] at h; simp at h
    | some ds' =>
      cases h2 : canKV kd with
      | none => rw [h1, h2] at h; simp at h
      | some kd' =>
        cases h3 : canList cl with
        | none => rw [h1, h2, h3] at h; simp at h
        | some cl' =>
          rw [h1, h2, h3] at h
          simp only [Option.bind_eq_bind, Option.bind_some, Option.some.injEq] at h
          subst h
          have i1 := canList_spec E ds ds' hp.1.1 h1
          have i2 := canKV_spec E kd kd' hp.1.2 h2
          have i3 := canList_spec E cl cl' hp.2 h3
          refine ⟨fun _ => ⟨[], rfl⟩, fun g => ?_⟩
          rw [uncan_eq E g (d := []) rfl]
          cases m with
          | none => simp only [uncanWith, seen, funcNs, i1.2, i2.2.1, i3.2]
          | some m =>
            simp only [uncanWith, seen, funcNs]
            cases E.mods m with
            | none => rfl
            | some g' => simp only [i1.2, i2.2.1, i3.2]
  | .partial_ f args kw, c, hp, h => by
    simp only [can] at h
    simp only [plain, Bool.and_eq_true, decide_eq_true_eq] at hp
    cases h1 : can f with
    | none => rw [h1] at h; simp at h
    | some f' =>
      cases h2 : canList args with
      | none => rw [h1, h2] at h; simp at h
      | some args' =>
        cases h3 : canKV kw with
        | none => rw [h1, h2, h3] at h; simp at h
        | some kw' =>
          rw [h1, h2, h3] at h
          simp only [Option.bind_eq_bind, Option.bind_some] at h
          have i1 := can_spec E f f' hp.1.1.1 h1
          have i2 := canList_spec E args args' hp.1.1.2 h2
          have i3 := canKV_spec E kw kw' hp.1.2 h3
          have hn : (kw'.map (·.1)).Nodup := by rw [i3.2.2]; exact hp.2
          refine ⟨(mkPartial_spec E E.ns h i2.1 i3.1 hn).1, fun g => ?_⟩
          rw [(mkPartial_spec E g h i2.1 i3.1 hn).2]
          simp only [i1.2, i2.2, i3.2.1, seen]
  | .seq .., c, _, h => by
    simp only [can, Option.some.injEq] at h
    subst h
    exact ⟨fun hc => by simp [isCanned] at hc, fun g => by simp [uncan, own, buffers, datas, uncanWith, seen]⟩
  | .dict kv, c, hp, h => by
    simp only [can, Option.some.injEq] at h
    subst h
    refine ⟨fun hc => by simp [isCanned] at hc, fun g => ?_⟩
    rw [uncan_plain E g _ hp]
    simp [seen]
  | .dep f df, c, hp, h => by
    simp only [can] at h
    simp only [plain, Bool.and_eq_true] at hp
    cases h1 : can f with
    | none => rw [h1] at h; simp at h
    | some f' =>
      cases h2 : can df with
      | none => rw [h1, h2] at h; simp at h
      | some df' =>
        rw [h1, h2] at h
        simp only [Option.bind_eq_bind, Option.bind_some, Option.some.injEq] at h
        subst h
        have i1 := can_spec E f f' hp.1 h1
        have i2 := can_spec E df df' hp.2 h2
        refine ⟨fun _ => ⟨[], rfl⟩, fun g => ?_⟩
        rw [uncan_eq E g (d := []) rfl]
        simp only [seen, ← i1.2 g, ← i2.2 g, uncan, uncanWith, Option.bind_eq_bind]
        cases own f' <;> cases own df' <;> simp
  | .cBytes _, _, hp, _ => by simp [plain] at hp
  | .cView _, _, hp, _ => by simp [plain] at hp
  | .cArr .., _, hp, _ => by simp [plain] at hp
  | .cCell .., _, hp, _ => by simp [plain] at hp
  | .cFunc .., _, hp, _ => by simp [plain] at hp
  | .cPartial .., _, hp, _ => by simp [plain] at hp
  | .cDep .., _, hp, _ => by simp [plain] at hp
theorem canList_spec (E : Env) : ∀ (l cs : List Obj), plainList l = true → canList l = some cs → (∀ c ∈ cs, Full c) ∧ ∀ g, uncanList E g cs = seenList E g l
  | [], cs, _, h => by
    simp only [canList, Option.some.injEq] at h
    subst h
    exact ⟨by simp, fun g => rfl⟩
  | x :: r, cs, hp, h => by
    simp only [canList] at h
    simp only [plainList, Bool.and_eq_true] at hp
    cases h1 : can x with
    | none => rw [h1] at h; simp at h
    | some x' =>
      cases h2 : canList r with
      | none => rw [h1, h2] at h; simp at h
      | some r' =>
        rw [h1, h2] at h
        simp only [Option.bind_eq_bind, Option.bind_some, Option.some.injEq] at h
        subst h
        have i1 := can_spec E x x' hp.1 h1
        have i2 := canList_spec E r r' hp.2 h2
        refine ⟨?_, fun g => ?_⟩
        · intro c hc
          rcases List.mem_cons.1 hc with rfl | hc
          · exact i1.1
          · exact i2.1 c hc
        · rw [uncanList_cons, i1.2, i2.2]; simp only [seenList]
theorem canKV_spec (E : Env) : ∀ (l cs : List (Key × Obj)), plainKV l = true → canKV l = some cs → (∀ c ∈ cs, Full c.2) ∧ (∀ g, uncanKV E g cs = seenKV E g l) ∧ cs.map (·.1) = l.map (·.1)
  | [], cs, _, h => by
    simp only [canKV, Option.some.injEq] at h
    subst h
    exact ⟨by simp, fun g => rfl, rfl⟩
  | (k, x) :: r, cs, hp, h => by
    simp only [canKV] at h
    simp only [plainKV, Bool.and_eq_true] at hp
    cases h1 : can x with
    | none => rw [h1] at h; simp at h
    | some x' =>
      cases h2 : canKV r with
      | none => rw [h1, h2] at h; simp at h
      | some r' =>
        rw [h1, h2] at h
        simp only [Option.bind_eq_bind, Option.bind_some, Option.some.injEq] at h
        subst h
        have i1 := can_spec E x x' hp.1 h1
        have i2 := canKV_spec E r r' hp.2 h2
        refine ⟨?_, fun g => ?_, by simp [i2.2.2]⟩
        · intro c hc
          rcases List.mem_cons.1 hc with rfl | hc
          · exact i1.1
          · exact i2.1 c hc
        · rw [uncanKV_cons, i1.2, i2.2.1]; simp only [seenKV]
end

/-- C39: uncanning in the namespace `g` undoes canning, up to resolving the references. -/
theorem uncan_can_partial (E : Env) (g : Nat → Option Obj) {x c : Obj} (hp : plain x = true) (h : can x = some c) : uncan E g c = seen E g x := (can_spec E x c hp h).2 g

mutual
theorem resolve_closed (E : Env) (g : Nat → Option Obj) : ∀ (x : Obj), closed E x = true → resolve g x = some x
  | .dict kv, h => by
    simp only [closed] at h
    simp [resolve, resolveKV_closed E g kv h]
  | .ref _, h => by simp [closed] at h
  | .dep .., h => by simp [closed] at h
  | .atom _, _ | .bytes _, _ | .view _, _ | .arr .., _ | .cell _, _ | .func .., _ | .partial_ .., _ | .seq .., _ => by simp [resolve]
  | .cBytes _, _ | .cView _, _ | .cArr .., _ | .cCell .., _ | .cFunc .., _ | .cPartial .., _ | .cDep .., _ => by simp [resolve]
theorem resolveKV_closed (E : Env) (g : Nat → Option Obj) : ∀ (l : List (Key × Obj)), closedKV E l = true → resolveKV g l = some l
  | [], _ => rfl
  | (k, x) :: r, h => by
    simp only [closedKV, Bool.and_eq_true] at h
    simp [resolveKV, resolve_closed E g x h.1, resolveKV_closed E g r h.2]
end

theorem resolveList_closed (E : Env) (g : Nat → Option Obj) : ∀ (l : List Obj), closedList E l = true → resolveList g l = some l
  | [], _ => rfl
  | x :: r, h => by
    simp only [closedList, Bool.and_eq_true] at h
    simp [resolveList, resolve_closed E g x h.1, resolveList_closed E g r h.2]

mutual
theorem seen_closed (E : Env) (g : Nat → Option Obj) : ∀ (x : Obj), closed E x = true → seen E g x = some x
  | .dict kv, h => by simp only [seen]; exact resolve_closed E g _ h
  | .ref _, h => by simp [closed] at h
  | .dep .., h => by simp [closed] at h
  | .cell c, h => by
    simp only [closed] at h
    simp [seen, seen_closed E g c h]
  | .func code m ds kd cl, h => by
    simp only [closed, Bool.and_eq_true] at h
    obtain ⟨⟨⟨h0, h1⟩, h2⟩, h3⟩ := h
    cases m with
    | none => simp [seen, funcNs, seenList_closed E _ ds h1, seenKV_closed E _ kd h2, seenList_closed E _ cl h3]
    | some m =>
      cases hm : E.mods m with
      | none => simp [hm] at h0
      | some g' => simp [seen, funcNs, hm, seenList_closed E _ ds h1, seenKV_closed E _ kd h2, seenList_closed E _ cl h3]
  | .partial_ f args kw, h => by
    simp only [closed, Bool.and_eq_true] at h
    simp [seen, seen_closed E g f h.1.1, seenList_closed E g args h.1.2, seenKV_closed E g kw h.2]
  | .atom _, _ | .bytes _, _ | .view _, _ | .arr .., _ | .seq .., _ => by simp [seen]
  | .cBytes _, _ | .cView _, _ | .cArr .., _ | .cCell .., _ | .cFunc .., _ | .cPartial .., _ | .cDep .., _ => by simp [seen]
theorem seenList_closed (E : Env) (g : Nat → Option Obj) : ∀ (l : List Obj), closedList E l = true → seenList E g l = some l
  | [], _ => rfl
  | x :: r, h => by
    simp only [closedList, Bool.and_eq_true] at h
    simp [seenList, seen_closed E g x h.1, seenList_closed E g r h.2]
theorem seenKV_closed (E : Env) (g : Nat → Option Obj) : ∀ (l : List (Key × Obj)), closedKV E l = true → seenKV E g l = some l
  | [], _ => rfl
  | (k, x) :: r, h => by
    simp only [closedKV, Bool.and_eq_true] at h
    simp [seenKV, seen_closed E g x h.1, seenKV_closed E g r h.2]
end

/-- C39: without references (and with the functions' modules at hand) uncanning gives the value back, whatever the nesting of partials, closures, sequences and mappings. -/
theorem uncan_can_closed_partial (E : Env) (g : Nat → Option Obj) {x c : Obj} (hp : plain x = true) (hc : closed E x = true) (h : can x = some c) : uncan E g c = some x := by
  rw [uncan_can_partial E g hp h, seen_closed E g x hc]

end IPP.Ser
