import Verif.Namespace.Model
/-!
# Lemmas on namespaces
-/
namespace IPP.Namespace
variable {V : Type} {A : Type}

theorem get_set (k : String) (v : A) : ∀ (l : List (String × A)) (x : String), get x (set k v l) = if x = k then some v else get x l
  | [], x => by
    simp only [set, get]
    by_cases h : k = x
    · rw [if_pos h, if_pos h.symm]
    · rw [if_neg h, if_neg (fun e => h e.symm)]
  | e :: t, x => by
    simp only [set]
    by_cases h : e.1 = k
    · rw [if_pos h]
      simp only [get]
      by_cases hx : x = k
      · rw [if_pos hx.symm, if_pos hx]
      · rw [if_neg (fun e => hx e.symm), if_neg hx, if_neg (fun e2 => hx (e2.symm.trans h))]
    · rw [if_neg h]
      simp only [get]
      rw [get_set k v t x]
      by_cases hx : x = k
      · rw [if_pos hx]
        rw [if_neg (fun e2 => h (e2.trans hx)), if_pos hx]
      · rw [if_neg hx, if_neg hx]

theorem get_del (k : String) : ∀ (l : List (String × A)) (x : String), get x (del k l) = if x = k then none else get x l
  | [], x => by simp [del, get]
  | e :: t, x => by
    have ih := get_del k t x
    simp only [del] at ih ⊢
    rw [List.filter_cons]
    by_cases h : e.1 = k
    · rw [if_neg (by simp [h]), ih]
      simp only [get]
      by_cases hx : x = k
      · rw [if_pos hx, if_pos hx]
      · rw [if_neg hx, if_neg hx, if_neg (fun e2 => hx (e2.symm.trans h))]
    · rw [if_pos (by simp [h])]
      simp only [get]
      rw [ih]
      by_cases hx : x = k
      · rw [if_pos hx, if_neg (fun e2 => h (e2.trans hx)), if_pos hx]
      · rw [if_neg hx, if_neg hx]

theorem get_delAll : ∀ (ks : List String) (ns : Space V) (x : String), get x (delAll ks ns) = if x ∈ ks then none else get x ns
  | [], ns, x => by simp [delAll]
  | k :: t, ns, x => by
    have ih := get_delAll t (del k ns) x
    simp only [delAll, List.foldl_cons] at ih ⊢
    rw [ih, get_del]
    by_cases h1 : x ∈ t
    · simp [h1]
    · by_cases h2 : x = k
      · simp [h2]
      · simp [h1, h2]

theorem get_setAll (v : Cell V) : ∀ (ks : List String) (ns : Space V) (x : String), get x (ks.foldl (fun n k => set k v n) ns) = if x ∈ ks then some v else get x ns
  | [], ns, x => by simp
  | k :: t, ns, x => by
    rw [List.foldl_cons, get_setAll v t, get_set]
    by_cases h1 : x ∈ t
    · simp [h1]
    · by_cases h2 : x = k
      · simp [h2]
      · simp [h1, h2]

theorem get_none_iff (k : String) : ∀ (l : List (String × A)), get k l = none ↔ k ∉ l.map (·.1)
  | [] => by simp [get]
  | e :: t => by
    simp only [get]
    by_cases h : e.1 = k
    · rw [if_pos h]; simp [h]
    · rw [if_neg h, get_none_iff k t]
      simp only [List.map_cons, List.mem_cons, not_or]
      exact ⟨fun h2 => ⟨fun e => h e.symm, h2⟩, fun h2 => h2.2⟩

theorem resolveAll_vals (ns : Space V) : ∀ (l : List V), resolveAll ns (l.map .val) = .ok l
  | [] => rfl
  | v :: t => by
    simp only [List.map_cons, resolveAll, resolve]
    rw [resolveAll_vals ns t]

/-! ### the temporary variable of `push` -/

/-- `_IP_PUSH_TMP_` with `n` more underscores -/
def tmpName : Nat → String
  | 0 => "_IP_PUSH_TMP_"
  | n + 1 => tmpName n ++ "_"

theorem tmpName_length (n : Nat) : (tmpName n).toList.length = 13 + n := by
  induction n with
  | zero => decide
  | succ n ih => simp only [tmpName, String.toList_append, List.length_append]; rw [ih]; show 13 + n + 1 = _; omega

theorem tmpName_inj {a b : Nat} (h : tmpName a = tmpName b) : a = b := by
  have h1 := tmpName_length a
  have h2 := tmpName_length b
  rw [h] at h1
  omega

theorem pushTmp_spec (ns : Space V) : ∀ (fuel n : Nat) (used : List String), used.Nodup → (∀ x ∈ used, x ∈ ns.map (·.1) ∧ ∃ m, m < n ∧ x = tmpName m) →
    ns.length < used.length + fuel + 1 → (∃ m, pushTmp ns fuel (tmpName n) = tmpName m) ∧ pushTmp ns fuel (tmpName n) ∉ ns.map (·.1)
  | 0, n, used, hn, hu, hl => by
    refine ⟨⟨n, rfl⟩, fun hc => ?_⟩
    simp only [pushTmp] at hc
    have hnd : (tmpName n :: used).Nodup := List.nodup_cons.2 ⟨fun hx => by
      obtain ⟨m, hm, he⟩ := (hu _ hx).2
      have := tmpName_inj he; omega, hn⟩
    have hsub : tmpName n :: used ⊆ ns.map (·.1) := by
      intro x hx
      rcases List.mem_cons.1 hx with rfl | hx
      · exact hc
      · exact (hu x hx).1
    have := List.Nodup.length_le_of_subset hnd hsub
    simp at this; omega
  | fuel + 1, n, used, hn, hu, hl => by
    simp only [pushTmp]
    split
    · rename_i hc
      have := pushTmp_spec ns fuel (n + 1) (tmpName n :: used)
        (List.nodup_cons.2 ⟨fun hx => by
          obtain ⟨m, hm, he⟩ := (hu _ hx).2
          have := tmpName_inj he; omega, hn⟩)
        (by
          intro x hx
          rcases List.mem_cons.1 hx with rfl | hx
          · exact ⟨hc, n, Nat.lt_succ_self _, rfl⟩
          · obtain ⟨h1, m, h2, h3⟩ := hu x hx
            exact ⟨h1, m, by omega, h3⟩)
        (by simp; omega)
      exact this
    · rename_i hc
      exact ⟨⟨n, rfl⟩, hc⟩

theorem pushTmp_fresh (ns : Space V) : (∃ m, pushTmp ns ns.length "_IP_PUSH_TMP_" = tmpName m) ∧ get (pushTmp ns ns.length "_IP_PUSH_TMP_") ns = none := by
  have := pushTmp_spec ns ns.length 0 [] (by simp) (by simp) (by simp)
  exact ⟨this.1, (get_none_iff _ _).2 this.2⟩

/-- the loop, when all names are identifiers -/
theorem pushLoop_spec (i : Interp V) (tmp : String) : ∀ (l : List (String × V)) (ns : Space V), (∀ e ∈ l, i.ident e.1 = true) → (l.map (·.1)).Nodup →
    (pushLoop i tmp l ns).2 = .ok .nothing ∧ ∀ x, x ≠ tmp → get x (pushLoop i tmp l ns).1 = match get x l with | some v => some (.user v) | none => get x ns
  | [], ns, _, _ => ⟨rfl, fun x _ => rfl⟩
  | (k, v) :: t, ns, hi, hn => by
    simp only [List.map_cons, List.nodup_cons] at hn
    obtain ⟨h1, h2⟩ := pushLoop_spec i tmp t (set k (.user v) (set tmp (.user v) ns)) (fun e he => hi e (List.mem_cons_of_mem _ he)) hn.2
    simp only [pushLoop, hi (k, v) List.mem_cons_self, if_true]
    refine ⟨h1, fun x hx => ?_⟩
    rw [h2 x hx]
    simp only [get]
    by_cases hk : k = x
    · subst hk
      rw [if_pos rfl, (get_none_iff k t).2 hn.1]
      simp [get_set]
    · rw [if_neg hk]
      cases get x t with
      | some w => rfl
      | none => simp only; rw [get_set, if_neg (fun e => hk e.symm), get_set, if_neg hx]

/-- the loop, when some name is not an identifier: the names before the first such are assigned -/
theorem pushLoop_bad (i : Interp V) (tmp k : String) (v : V) (t : List (String × V)) (hb : i.ident k = false) : ∀ (l : List (String × V)) (ns : Space V), (∀ e ∈ l, i.ident e.1 = true) →
    (l.map (·.1)).Nodup → (pushLoop i tmp (l ++ (k, v) :: t) ns).2 = .raised (.syntax k) ∧
      ∀ x, x ≠ tmp → get x (pushLoop i tmp (l ++ (k, v) :: t) ns).1 = match get x l with | some v => some (.user v) | none => get x ns
  | [], ns, _, _ => by
    simp only [List.nil_append, pushLoop, hb, Bool.false_eq_true, if_false, get]
    exact ⟨trivial, fun x hx => by rw [get_set, if_neg hx]⟩
  | (k', v') :: l, ns, hi, hn => by
    simp only [List.map_cons, List.nodup_cons] at hn
    obtain ⟨h1, h2⟩ := pushLoop_bad i tmp k v t hb l (set k' (.user v') (set tmp (.user v') ns)) (fun e he => hi e (List.mem_cons_of_mem _ he)) hn.2
    simp only [List.cons_append, pushLoop, hi (k', v') List.mem_cons_self, if_true]
    refine ⟨h1, fun x hx => ?_⟩
    rw [h2 x hx]
    simp only [get]
    by_cases hk : k' = x
    · subst hk
      rw [if_pos rfl, (get_none_iff k' l).2 hn.1]
      simp [get_set]
    · rw [if_neg hk]
      cases get x l with
      | some w => rfl
      | none => simp only; rw [get_set, if_neg (fun e => hk e.symm), get_set, if_neg hx]

end IPP.Namespace
