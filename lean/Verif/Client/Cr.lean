/-!
# The carriage-return pattern of the client: `_cr_pat = re.compile(r'.*\r(?=[^\n])')` (client.py:255) and `_cr_pat.sub('', text)` (client.py:1154)

`.` matches everything but a newline, `*` is greedy, the lookahead needs a character that is not a newline. Text is a list of characters.
-/
namespace IPP.Cr

/-- the text after the (greedy) match of the pattern at the beginning of the text; `none`: no match here — `_cr_pat` of client/client.py:256, 1154 -/
def matchAt : List Char → Option (List Char)
  | [] => none
  | c :: l =>
    if c = '\n' then none
    else match matchAt l with
      | some r => some r
      | none => match l with
        | [] => none
        | d :: _ => if c = '\r' ∧ d ≠ '\n' then some l else none

theorem matchAt_cons (c : Char) (l : List Char) : matchAt (c :: l) =
    if c = '\n' then none
    else match matchAt l with
      | some r => some r
      | none => match l with
        | [] => none
        | d :: _ => if c = '\r' ∧ d ≠ '\n' then some l else none := by
  conv => lhs; unfold matchAt

theorem matchAt_length {l r : List Char} (h : matchAt l = some r) : r.length < l.length := by
  induction l with
  | nil => simp [matchAt] at h
  | cons c l ih =>
    unfold matchAt at h
    split at h
    · cases h
    · cases hm : matchAt l with
      | some r' =>
        simp only [hm, Option.some.injEq] at h
        subst h
        have := ih hm
        simp only [List.length_cons]
        omega
      | none =>
        simp only [hm] at h
        cases l with
        | nil => simp at h
        | cons d l =>
          simp only at h
          split at h
          · simp only [Option.some.injEq] at h; subst h; simp
          · cases h

/-- `_cr_pat.sub('', text)`: delete matches from left to right — client/client.py:256, 1154 -/
def sub (l : List Char) : List Char :=
  match h : matchAt l with
  | some r => sub r
  | none => match l with
    | [] => []
    | c :: l => c :: sub l
termination_by l.length
decreasing_by
  · exact matchAt_length h
  · simp

/-! ### what it does -/

theorem sub_match {l r : List Char} (h : matchAt l = some r) : sub l = sub r := by
  conv => lhs; unfold sub
  split
  · rename_i r' h'; rw [h] at h'; cases h'; rfl
  · rename_i h'; rw [h] at h'; cases h'

theorem sub_nil : sub [] = [] := by
  unfold sub; rfl

theorem sub_cons {c : Char} {l : List Char} (h : matchAt (c :: l) = none) : sub (c :: l) = c :: sub l := by
  conv => lhs; unfold sub
  split
  · rename_i r' h'; rw [h] at h'; cases h'
  · rfl

/-- a match leaves a non-empty rest of the line that is preceded by a carriage return -/
theorem matchAt_some {l r : List Char} (h : matchAt l = some r) :
    ∃ x, l = x ++ '\r' :: r ∧ '\n' ∉ x ∧ ∃ d r', r = d :: r' ∧ d ≠ '\n' := by
  induction l with
  | nil => simp [matchAt] at h
  | cons c l ih =>
    unfold matchAt at h
    split at h
    · cases h
    · rename_i hc
      cases hm : matchAt l with
      | some r' =>
        simp only [hm, Option.some.injEq] at h
        subst h
        rcases ih hm with ⟨x, rfl, h2, h3⟩
        exact ⟨c :: x, rfl, by simp [h2, Ne.symm hc], h3⟩
      | none =>
        simp only [hm] at h
        cases l with
        | nil => simp at h
        | cons d l =>
          simp only at h
          split at h
          · rename_i hcd
            simp only [Option.some.injEq] at h
            subst h
            exact ⟨[], by simp [hcd.1], by simp, d, l, rfl, hcd.2⟩
          · cases h

/-- before a carriage return that is followed by more of the line there is a match, and it ends there or later -/
theorem matchAt_cr (x : List Char) (d : Char) (z : List Char) (hx : '\n' ∉ x) (hd : d ≠ '\n') :
    matchAt (x ++ '\r' :: d :: z) = some ((matchAt (d :: z)).getD (d :: z)) := by
  induction x with
  | nil =>
    simp only [List.nil_append]
    rw [matchAt_cons]
    rw [if_neg (by decide)]
    cases h : matchAt (d :: z) with
    | some r => rfl
    | none => simp [hd]
  | cons c x ih =>
    have hc : ¬ c = '\n' := fun e => hx (by simp [e])
    rw [List.cons_append, matchAt_cons, if_neg hc, ih (fun h => hx (List.mem_cons_of_mem _ h))]

/-- **The line before a carriage return is erased**, if more of the line follows. -/
theorem sub_cr (x : List Char) (d : Char) (z : List Char) (hx : '\n' ∉ x) (hd : d ≠ '\n') : sub (x ++ '\r' :: d :: z) = sub (d :: z) := by
  have h := matchAt_cr x d z hx hd
  rw [sub_match h]
  cases hm : matchAt (d :: z) with
  | none => rfl
  | some r => rw [Option.getD_some, sub_match hm]

theorem matchAt_newline (z : List Char) : matchAt ('\n' :: z) = none := by simp [matchAt]

/-- whether a line matches does not depend on the lines after it -/
theorem matchAt_line (p z z' : List Char) (h : matchAt (p ++ '\n' :: z) = none) : matchAt (p ++ '\n' :: z') = none := by
  induction p with
  | nil => exact matchAt_newline z'
  | cons c p ih =>
    rw [List.cons_append, matchAt_cons] at h ⊢
    by_cases hc : c = '\n'
    · simp [hc]
    · rw [if_neg hc] at h ⊢
      cases hm : matchAt (p ++ '\n' :: z) with
      | some r => simp [hm] at h
      | none =>
        rw [hm] at h
        rw [ih hm]
        cases p with
        | nil => simp
        | cons d p => simpa using h

/-- no match at the beginning of a line: none anywhere in it -/
theorem matchAt_tail {c : Char} {l : List Char} (hc : c ≠ '\n') (h : matchAt (c :: l) = none) : matchAt l = none := by
  rw [matchAt_cons, if_neg hc] at h
  cases hm : matchAt l with
  | none => rfl
  | some r => simp [hm] at h

theorem sub_through (p z : List Char) (hp : '\n' ∉ p) (h : matchAt (p ++ '\n' :: z) = none) : sub (p ++ '\n' :: z) = p ++ '\n' :: sub z := by
  induction p with
  | nil => exact sub_cons (matchAt_newline z)
  | cons c p ih =>
    rw [List.cons_append] at h ⊢
    rw [sub_cons h, ih (fun hx => hp (List.mem_cons_of_mem _ hx)) (matchAt_tail (fun e => hp (by simp [e])) h)]
    rfl

theorem sub_last (p : List Char) (hp : '\n' ∉ p) (h : matchAt p = none) : sub p = p := by
  induction p with
  | nil => exact sub_nil
  | cons c p ih =>
    rw [sub_cons h, ih (fun hx => hp (List.mem_cons_of_mem _ hx)) (matchAt_tail (fun e => hp (by simp [e])) h)]

/-- the first line and the rest -/
theorem split_line (l : List Char) : '\n' ∉ l ∨ ∃ p z, l = p ++ '\n' :: z ∧ '\n' ∉ p := by
  induction l with
  | nil => exact .inl (by simp)
  | cons c l ih =>
    by_cases hc : c = '\n'
    · exact .inr ⟨[], l, by simp [hc], by simp⟩
    · rcases ih with h | ⟨p, z, rfl, hp⟩
      · exact .inl (by simp [h, Ne.symm hc])
      · exact .inr ⟨c :: p, z, rfl, by simp [hp, Ne.symm hc]⟩

theorem not_mem_matchAt {l : List Char} (h : '\r' ∉ l) : matchAt l = none := by
  cases hm : matchAt l with
  | none => rfl
  | some r =>
    rcases matchAt_some hm with ⟨x, rfl, _⟩
    simp at h

/-- text without carriage returns is left alone -/
theorem sub_plain (l : List Char) (h : '\r' ∉ l) : sub l = l := by
  induction l with
  | nil => exact sub_nil
  | cons c l ih => rw [sub_cons (not_mem_matchAt h), ih (fun hx => h (List.mem_cons_of_mem _ hx))]

/-- lines are treated independently -/
theorem sub_lines (p z : List Char) (hp : '\n' ∉ p) : sub (p ++ '\n' :: z) = sub p ++ '\n' :: sub z := by
  have gen : ∀ n (p : List Char), p.length ≤ n → '\n' ∉ p → sub (p ++ '\n' :: z) = sub p ++ '\n' :: sub z := by
    intro n
    induction n with
    | zero =>
      intro p hl hp
      have : p = [] := List.length_eq_zero_iff.1 (Nat.le_zero.1 hl)
      subst this
      rw [sub_nil]
      exact sub_cons (matchAt_newline z)
    | succ n ih =>
      intro p hl hp
      cases hm : matchAt p with
      | none =>
        rw [sub_last p hp hm]
        apply sub_through p z hp
        cases hm' : matchAt (p ++ '\n' :: z) with
        | none => rfl
        | some r =>
          exfalso
          have h2 : ∀ p : List Char, '\n' ∉ p → matchAt p = none → matchAt (p ++ '\n' :: z) = none := by
            intro p
            induction p with
            | nil => intro _ _; exact matchAt_newline z
            | cons c p ih2 =>
              intro hp hm
              have hc : ¬ c = '\n' := fun e => hp (by simp [e])
              have ht := ih2 (fun hx => hp (List.mem_cons_of_mem _ hx)) (matchAt_tail hc hm)
              rw [List.cons_append, matchAt_cons, if_neg hc, ht]
              have htl := matchAt_tail hc hm
              rw [matchAt_cons, if_neg hc, htl] at hm
              cases p with
              | nil => simp
              | cons d p => simpa using hm
          rw [h2 p hp hm] at hm'
          cases hm'
      | some r =>
        rcases matchAt_some hm with ⟨x, rfl, hx, d, r', rfl, hd⟩
        rw [List.append_assoc, List.cons_append, List.cons_append, sub_cr x d _ hx hd, sub_cr x d _ hx hd, ← List.cons_append]
        apply ih
        · simp only [List.length_append, List.length_cons] at hl ⊢; omega
        · intro hx
          exact hp (by simp only [List.mem_append, List.mem_cons] at hx ⊢; right; right; exact hx)
  exact gen p.length p (Nat.le_refl _) hp

/-- **Collapsing early does not change the final collapse.** -/
theorem sub_append (a b : List Char) : sub (sub a ++ b) = sub (a ++ b) := by
  have gen : ∀ n (a : List Char), a.length ≤ n → sub (sub a ++ b) = sub (a ++ b) := by
    intro n
    induction n with
    | zero =>
      intro a hl
      have : a = [] := List.length_eq_zero_iff.1 (Nat.le_zero.1 hl)
      subst this
      rw [sub_nil]
    | succ n ih =>
      intro a hl
      cases hm : matchAt a with
      | some r =>
        rw [sub_match hm]
        have hlt := matchAt_length hm
        rw [ih r (by omega)]
        rcases matchAt_some hm with ⟨x, rfl, hx, d, r', rfl, hd⟩
        rw [List.append_assoc, List.cons_append, List.cons_append, List.cons_append, sub_cr x d _ hx hd]
      | none =>
        rcases split_line a with h | ⟨p, z, rfl, hp⟩
        · rw [sub_last a h hm]
        · rw [sub_through p z hp hm, List.append_assoc, List.append_assoc, List.cons_append, List.cons_append]
          rw [sub_through p _ hp (matchAt_line p z _ hm), sub_through p _ hp (matchAt_line p z _ hm)]
          congr 2
          apply ih
          simp only [List.length_append, List.length_cons] at hl
          omega
  exact gen a.length a (Nat.le_refl _)

theorem sub_idem (a : List Char) : sub (sub a) = sub a := by
  have := sub_append a []
  simpa using this

end IPP.Cr
