import Verif.Connect.Model

/-! # C78: strings -/
namespace IPP.Conn

theorem splitFrom_skip (k : Nat) (a r : Str) (h : a.length = k) : splitSchemeFrom k (a ++ r) = splitSchemeFrom 0 r := by
  induction k generalizing a with
  | zero => cases a with
    | nil => rfl
    | cons _ _ => simp at h
  | succ k ih => cases a with
    | nil => simp at h
    | cons c a =>
      simp only [List.cons_append, splitSchemeFrom]
      exact ih a (by simpa using h)

theorem split_join (p a : Str) (h : ':' ∉ p) : splitScheme (joinScheme p a) = p :: splitScheme a := by
  induction p with
  | nil =>
    simp only [splitScheme, joinScheme, schemeSep, List.nil_append, List.cons_append, splitSchemeFrom, List.take, and_self, if_true]
  | cons c p ih =>
    have h1 : c ≠ ':' := fun e => h (by simp [e])
    have h2 : ':' ∉ p := fun e => h (by simp [e])
    have ih := ih h2
    simp only [splitScheme, joinScheme, List.cons_append] at ih ⊢
    rw [splitSchemeFrom]
    rw [if_neg (fun e => h1 e.1), ih]

theorem split_ne_nil (k : Nat) (s : Str) : splitSchemeFrom k s ≠ [] := by
  induction s generalizing k with
  | nil => simp [splitSchemeFrom]
  | cons c r ih => cases k with
    | succ k => simpa [splitSchemeFrom] using ih k
    | zero =>
      rw [splitSchemeFrom]
      split
      · simp
      · cases e : splitSchemeFrom 0 r with
        | nil => simp
        | cons w ws => simp

theorem split_single (s x : Str) (h : splitScheme s = [x]) : x = s := by
  induction s generalizing x with
  | nil => simpa [splitScheme, splitSchemeFrom, eq_comm] using h
  | cons c r ih =>
    simp only [splitScheme] at h ih
    rw [splitSchemeFrom] at h
    split at h
    · simp only [List.cons.injEq] at h
      exact absurd h.2 (split_ne_nil _ _)
    · cases e : splitSchemeFrom 0 r with
      | nil => exact absurd e (split_ne_nil _ _)
      | cons w ws =>
        rw [e] at h
        simp only [List.cons.injEq] at h
        rw [h.2] at e
        rw [← h.1, ih w e]

theorem split_noslash (s : Str) (h : '/' ∉ s) : splitScheme s = [s] := by
  induction s with
  | nil => rfl
  | cons c r ih =>
    have h2 : '/' ∉ r := fun e => h (by simp [e])
    have ih := ih h2
    simp only [splitScheme] at ih ⊢
    rw [splitSchemeFrom, if_neg, ih]
    intro e
    have : '/' ∈ r := by
      have h3 : '/' ∈ r.take 2 := by rw [e.2]; simp
      exact List.mem_of_mem_take h3
    exact h2 this

/-! ## splitting at a colon -/

theorem colon_split (s k : Str) : Ports.split ':' (s ++ ':' :: k) = Ports.split ':' s ++ Ports.split ':' k := by
  induction s with
  | nil => simp [Ports.split]
  | cons c r ih =>
    simp only [List.cons_append, Ports.split]
    split
    · rw [ih]; rfl
    · cases e : Ports.split ':' r with
      | nil =>
        exfalso
        clear ih
        cases r with
        | nil => simp [Ports.split] at e
        | cons d r =>
          rw [Ports.split] at e
          split at e
          · simp at e
          · split at e <;> simp at e
      | cons w ws => rw [ih, e]; rfl

theorem colon_single (s x : Str) (h : Ports.split ':' s = [x]) : x = s := by
  induction s generalizing x with
  | nil => simpa [Ports.split, eq_comm] using h
  | cons c r ih =>
    rw [Ports.split] at h
    split at h
    · simp only [List.cons.injEq] at h
      exfalso
      have h := h.2
      clear ih
      cases r with
      | nil => simp [Ports.split] at h
      | cons d r =>
        rw [Ports.split] at h
        split at h
        · simp at h
        · split at h <;> simp at h
    · cases e : Ports.split ':' r with
      | nil => rw [e] at h; simp only [List.cons.injEq] at h; rw [← h.1]; cases r with
        | nil => rfl
        | cons d r => exfalso; rw [Ports.split] at e; split at e; · simp at e
                      · split at e <;> simp at e
      | cons w ws =>
        rw [e] at h
        simp only [List.cons.injEq] at h
        rw [h.2] at e
        rw [← h.1, ih w e]

/-! ## digits -/

def isDigit (c : Char) : Bool := decide ('0' ≤ c ∧ c ≤ '9')

theorem digit_ofNat (n : Nat) (h : n < 10) : isDigit (Char.ofNat (48 + n)) = true := by
  have : n = 0 ∨ n = 1 ∨ n = 2 ∨ n = 3 ∨ n = 4 ∨ n = 5 ∨ n = 6 ∨ n = 7 ∨ n = 8 ∨ n = 9 := by omega
  rcases this with rfl | rfl | rfl | rfl | rfl | rfl | rfl | rfl | rfl | rfl <;> decide

theorem show_digits (n : Nat) : ∀ c ∈ Ports.showNat n, isDigit c = true := by
  induction n using Nat.strongRecOn with
  | ind n ih =>
    intro c hc
    rw [Ports.showNat] at hc
    split at hc
    · rename_i h
      rw [List.mem_singleton] at hc
      rw [hc]; exact digit_ofNat n h
    · rename_i h
      rw [List.mem_append, List.mem_singleton] at hc
      rcases hc with hc | hc
      · exact ih (n / 10) (by omega) c hc
      · rw [hc]; exact digit_ofNat _ (by omega)

theorem show_inj {a b : Nat} (h : Ports.showNat a = Ports.showNat b) : a = b := by
  have ha := Ports.parseDigits_show a
  rw [h, Ports.parseDigits_show b] at ha
  exact (Option.some.inj ha).symm

theorem show_nocolon (n : Nat) : ':' ∉ Ports.showNat n := fun h => by
  have := show_digits n ':' h
  revert this; decide

/-- the last character that is not a digit separates -/
theorem tail_digits {a b d e : Str} {c c' : Char} (h : a ++ c :: d = b ++ c' :: e) (hd : ∀ x ∈ d, isDigit x = true) (he : ∀ x ∈ e, isDigit x = true)
    (hc : isDigit c = false) (hc' : isDigit c' = false) : a = b ∧ c = c' ∧ d = e := by
  rw [List.append_eq_append_iff] at h
  rcases h with ⟨x, h1, h2⟩ | ⟨x, h1, h2⟩
  · cases x with
    | nil => simp only [List.append_nil, List.nil_append, List.cons.injEq] at h1 h2; exact ⟨h1.symm, h2.1, h2.2⟩
    | cons y x =>
      simp only [List.cons_append, List.cons.injEq] at h2
      have := hd c' (by rw [h2.2]; simp)
      rw [hc'] at this; cases this
  · cases x with
    | nil => simp only [List.append_nil, List.nil_append, List.cons.injEq] at h1 h2; exact ⟨h1, h2.1.symm, h2.2.symm⟩
    | cons y x =>
      simp only [List.cons_append, List.cons.injEq] at h2
      have := he c (by rw [h2.2]; simp)
      rw [hc] at this; cases this

theorem splitUrl_join (p h k : Str) (hp : ':' ∉ p) (hk : ':' ∉ k) :
    splitUrl (joinScheme p (h ++ ':' :: k)) = some (p, h, k) ∨ splitUrl (joinScheme p (h ++ ':' :: k)) = none := by
  unfold splitUrl
  rw [split_join p _ hp]
  cases e : splitScheme (h ++ ':' :: k) with
  | nil => exact absurd e (split_ne_nil _ _)
  | cons x xs => cases xs with
    | cons _ _ => right; rfl
    | nil =>
      have hx := split_single _ _ e
      simp only
      rw [hx, colon_split, Ports.split_none ':' k hk]
      cases e2 : Ports.split ':' h with
      | nil => right; rfl
      | cons y ys => cases ys with
        | nil => left; rw [colon_single _ _ e2]; rfl
        | cons _ _ => right; cases ‹List (List Char)› <;> rfl

end IPP.Conn
