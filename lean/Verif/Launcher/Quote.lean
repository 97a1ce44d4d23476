import Verif.Launcher.Batch
/-!
# C89: words survive `shlex_join` — util.py:712-714

The spec is the reader: how a POSIX shell splits a simple command into words (`words`). Every unquoted character that might mean anything to the shell but to be part of a word, and `$`, backquote and backslash within double quotes, make the reader fail: so success means that the shell has nothing to expand.
-/
namespace IPP.Batch
open IPP.Shell (Str)

/-! ## Specification: a POSIX shell reading a simple command -/

/-- where the reader is: between words, in a word, in single quotes, in double quotes -/
inductive Mode where
  | gap | word | single | double
  deriving DecidableEq

/-- characters without meaning to the shell, outside of quotes -/
def plain (c : Nat) : Bool := isWord c || l!"@%+=:,./-".contains c

/-- read the words of a command; `w`: the word so far -/
def words : Mode → Str → Str → Option (List Str)
  | .gap, _, [] => some []
  | .word, w, [] => some [w]
  | .single, _, [] => none
  | .double, _, [] => none
  | .gap, _, c :: r =>
    if c = 32 then words .gap [] r else if c = 39 then words .single [] r else if c = 34 then words .double [] r
    else if plain c then words .word [c] r else none
  | .word, w, c :: r =>
    if c = 32 then (words .gap [] r).map (w :: ·) else if c = 39 then words .single w r else if c = 34 then words .double w r
    else if plain c then words .word (w ++ [c]) r else none
  | .single, w, c :: r => if c = 39 then words .word w r else words .single (w ++ [c]) r
  | .double, w, c :: r => if c = 34 then words .word w r else if c = 36 ∨ c = 96 ∨ c = 92 then none else words .double (w ++ [c]) r

/-! ## Proof -/

/-- the body of a quoted word -/
def body (s : Str) : Str := s.flatMap (fun c => if c = 39 then l!"'\"'\"'" else [c])

theorem words_body (s : Str) : ∀ (w r : Str), words .single w (body s ++ 39 :: r) = words .word (w ++ s) r := by
  induction s with
  | nil => intro w r; simp [body, words]
  | cons c s ih =>
    intro w r
    by_cases h : c = 39
    · subst h
      have : body (39 :: s) ++ 39 :: r = 39 :: 34 :: 39 :: 34 :: 39 :: (body s ++ 39 :: r) := by simp [body]
      rw [this]
      simp only [words]
      simp [ih]
    · have : body (c :: s) ++ 39 :: r = c :: (body s ++ 39 :: r) := by simp [body, h]
      rw [this]
      simp only [words]
      simp [h, ih]

theorem plain_ne {c : Nat} (h : plain c = true) : c ≠ 32 ∧ c ≠ 39 ∧ c ≠ 34 := by
  refine ⟨?_, ?_, ?_⟩ <;> (intro e; subst e; exact absurd h (by decide))

theorem words_plain (s : Str) : ∀ (w r : Str), s.all safe = true → words .word w (s ++ r) = words .word (w ++ s) r := by
  induction s with
  | nil => intro w r _; simp
  | cons c s ih =>
    intro w r h
    simp only [List.all_cons, Bool.and_eq_true] at h
    have hp : plain c = true := h.1
    obtain ⟨h1, h2, h3⟩ := plain_ne hp
    simp only [List.cons_append, words]
    simp [h1, h2, h3, hp, ih _ _ h.2]

/-- a quoted word is read as that word -/
theorem words_quote (s r : Str) : words .gap [] (quote s ++ r) = words .word s r := by
  by_cases he : s = []
  · subst he; simp [quote, words]
  · by_cases ha : s.all safe = true
    · rw [show quote s = s by simp only [quote, he, ha, if_false, if_true]]
      obtain ⟨c, t, rfl⟩ := List.exists_cons_of_ne_nil he
      simp only [List.all_cons, Bool.and_eq_true] at ha
      have hp : plain c = true := ha.1
      obtain ⟨h1, h2, h3⟩ := plain_ne hp
      simp only [List.cons_append, words]
      simp only [h1, h2, h3, hp, if_false, if_true]
      rw [words_plain _ _ _ ha.2]; rfl
    · rw [show quote s = 39 :: (body s ++ [39]) by simp only [quote, he, ha, if_false, body]; rfl]
      simp only [List.cons_append, words, List.append_assoc]
      simpa using words_body s [] r

/-- **C89.** Whatever characters they contain — blanks, newlines, quotes, dollar signs, non-ASCII characters, nothing at all —, a POSIX shell reads the words joined by `shlex_join` as exactly these words, and expands nothing. -/
theorem shlex_join_words (ws : List Str) : words .gap [] (shlexJoin ws) = some ws := by
  induction ws with
  | nil => rfl
  | cons w r ih =>
    cases r with
    | nil =>
      show words .gap [] (quote w) = _
      have := words_quote w []
      rw [List.append_nil] at this
      rw [this]; rfl
    | cons v r =>
      show words .gap [] (quote w ++ 32 :: shlexJoin (v :: r)) = _
      rw [words_quote]
      simp only [words]
      rw [if_pos trivial, ih]
      rfl

/-- hence different lists of words give different commands -/
theorem shlex_join_injective (a b : List Str) (h : shlexJoin a = shlexJoin b) : a = b := by
  have := shlex_join_words a
  rw [h, shlex_join_words b] at this
  exact (Option.some.inj this).symm

/-- a single word, too: quoting it gives one word, itself (SSH launchers quote the values of environment variables one by one — launcher.py:1051) -/
theorem quote_word (w : Str) : words .gap [] (quote w) = some [w] := shlex_join_words [w]

/-- words of the characters that need no quotes are passed unchanged, so that commands stay readable -/
theorem quote_plain (w : Str) (hne : w ≠ []) (h : w.all safe = true) : quote w = w := by
  simp only [quote, hne, h, if_false, if_true]

example : shlexJoin [l!"python3", l!"-m", l!"ipyparallel.engine", l!"--user=O'Brien $HOME"] = l!"python3 -m ipyparallel.engine '--user=O'\"'\"'Brien $HOME'" := by decide +kernel
example : words .gap [] l!"echo $HOME" = none := by decide +kernel

end IPP.Batch
