import Verif.Magics.Model
/-!
# C79: `%autopx`
-/
namespace IPP.Magics

namespace Spec

/-- what a user types: the magic in a cell, after any number of blank lines, or a cell without the magic -/
inductive Input where
  | toggle (blanks : Nat)
  | cell (codes : List Nat)

/-- where each cell is meant to run: after an even number of `%autopx` locally, line by line, after an odd number on the engines, as a whole -/
def meant (on : Bool) : List Input → List AEv
  | [] => []
  | .toggle _ :: r => meant (!on) r
  | .cell ns :: r => (if ns = [] then [] else if on then [.remotely (ns.map .code)] else ns.map .locally) ++ meant on r

/-- number of `%autopx` typed -/
def toggles (l : List Input) : Nat := l.countP fun | .toggle _ => true | _ => false

def lines : Input → List Line
  | .toggle k => List.replicate k .blank ++ [.auto []]
  | .cell ns => ns.map .code

end Spec

/-- a shell with the magics activated without suffix, `%autopx` off -/
def fresh (suffix : List Char) : Shell := { suffix, autopx := false, installed := false }

theorem blank_codes (ns : List Nat) : blankCell (ns.map .code) = decide (ns = []) := by
  cases ns <;> simp [blankCell]

theorem matches_codes (ns : List Nat) : matchesAuto (ns.map .code) = false := by
  cases ns <;> simp [matchesAuto]

theorem runLocal_codes (sh : Shell) (ns : List Nat) : runLocal sh (ns.map .code) = (sh, ns.map .locally) := by
  induction ns with
  | nil => rfl
  | cons n r ih => simp [runLocal, ih]

theorem session_meant (l : List Spec.Input) (on : Bool) :
    (session { suffix := [], autopx := on, installed := on } (l.map Spec.lines)).2 = Spec.meant on l ∧
    (session { suffix := [], autopx := on, installed := on } (l.map Spec.lines)).1 = (let o := on ^^ decide (Spec.toggles l % 2 = 1); { suffix := [], autopx := o, installed := o }) := by
  induction l generalizing on with
  | nil => simp [session, Spec.meant, Spec.toggles]
  | cons x r ih =>
    cases x with
    | toggle k =>
      have ht : typed { suffix := [], autopx := on, installed := on } (Spec.lines (.toggle k)) = ({ suffix := [], autopx := !on, installed := !on }, []) := by
        have hb : blankCell (Spec.lines (.toggle k)) = false := by simp [blankCell, Spec.lines]
        have hm : matchesAuto (Spec.lines (.toggle k)) = true := by
          unfold Spec.lines
          induction k with
          | zero => rfl
          | succ k ih => simpa [List.replicate_succ, matchesAuto] using ih (by simp [blankCell, Spec.lines])
        have hr : ∀ sh : Shell, sh.suffix = [] → runLocal sh (Spec.lines (.toggle k)) = (toggle sh, []) := by
          intro sh hs
          unfold Spec.lines
          clear hb hm
          induction k with
          | zero => simp [runLocal, hs]
          | succ k ih => simpa [List.replicate_succ, runLocal] using ih
        unfold typed
        rw [hb, hm, hr _ rfl]
        cases on <;> simp [toggle]
      simp only [List.map_cons, session, ht]
      have := ih (!on)
      refine ⟨by simpa [Spec.meant] using this.1, ?_⟩
      rw [this.2]
      have hc : Spec.toggles (.toggle k :: r) = Spec.toggles r + 1 := by simp [Spec.toggles]
      rw [hc]
      have : (!on ^^ decide (Spec.toggles r % 2 = 1)) = (on ^^ decide ((Spec.toggles r + 1) % 2 = 1)) := by
        rcases Nat.mod_two_eq_zero_or_one (Spec.toggles r) with h | h
        · have h2 : (Spec.toggles r + 1) % 2 = 1 := by omega
          rw [h, h2]; cases on <;> rfl
        · have h2 : (Spec.toggles r + 1) % 2 = 0 := by omega
          rw [h, h2]; cases on <;> rfl
      simp only [this]
    | cell ns =>
      have ht : typed { suffix := [], autopx := on, installed := on } (Spec.lines (.cell ns)) = ({ suffix := [], autopx := on, installed := on }, if ns = [] then [] else if on then [.remotely (ns.map .code)] else ns.map .locally) := by
        unfold typed Spec.lines
        simp only [blank_codes, matches_codes, runLocal_codes]
        cases ns with
        | nil => simp
        | cons a b => cases on <;> simp
      have hc : Spec.toggles (.cell ns :: r) = Spec.toggles r := by simp [Spec.toggles]
      simp only [List.map_cons, session, ht, hc]
      exact ⟨by rw [(ih on).1]; rfl, (ih on).2⟩

/-- **C79 (%autopx).** In every session, a cell is run on the engines, once and as a whole, exactly if an odd number of `%autopx` were typed before it, and otherwise locally; blank cells do nothing; and after an even number the shell is exactly as it was. -/
theorem autopx_session (l : List Spec.Input) :
    (session (fresh []) (l.map Spec.lines)).2 = Spec.meant false l ∧
    (Spec.toggles l % 2 = 0 → (session (fresh []) (l.map Spec.lines)).1 = fresh []) := by
  have := session_meant l false
  refine ⟨this.1, fun h => ?_⟩
  have e : fresh [] = { suffix := [], autopx := false, installed := false } := rfl
  rw [e, this.2, h]; rfl

theorem blank_iff (c : List Line) : blankCell c = !(c.any fun x => !decide (x = .blank)) := by
  unfold blankCell
  induction c with
  | nil => rfl
  | cons a b ih => simp only [List.all_cons, List.any_cons, Bool.not_or, Bool.not_not, ih]

theorem runLocal_agree : ∀ (cell : List Line) (sh : Shell), sh.autopx = sh.installed → (runLocal sh cell).1.autopx = (runLocal sh cell).1.installed
  | [], _, h => h
  | .blank :: r, sh, h => runLocal_agree r sh h
  | .code _ :: r, sh, h => runLocal_agree r sh h
  | .auto sfx :: r, sh, h => by
    simp only [runLocal]
    refine runLocal_agree r _ ?_
    split
    · unfold toggle; split <;> rfl
    · exact h

/-- For every sequence of cells: cells are sent to the engines exactly when `%autopx` is on. -/
theorem autopx_agrees : ∀ (cells : List (List Line)) (sh : Shell), sh.autopx = sh.installed → (session sh cells).1.autopx = (session sh cells).1.installed
  | [], _, h => h
  | c :: r, sh, h => by
    simp only [session]
    refine autopx_agrees r _ ?_
    unfold typed
    split
    · exact h
    · split
      · split
        · dsimp only; split
          · rfl
          · exact h
        · exact h
      · exact runLocal_agree c sh h

/-- two `%autopx` in one cell: the shell is as before -/
example (n : Nat) : (session (fresh []) [[.auto [], .auto []], [.code n]]).2 = [.locally n] := by
  simp [session, typed, fresh, blankCell, runLocal, toggle]

theorem session_on (sh : Shell) (hi : sh.installed = true) (cells : List (List Line)) (hm : ∀ c ∈ cells, matchesAuto c = false) :
    (session sh cells).1 = sh ∧ (session sh cells).2 = (cells.filter fun c => c.any fun x => !decide (x = .blank)).map .remotely := by
  induction cells with
  | nil => exact ⟨rfl, rfl⟩
  | cons c r ih =>
    have ht : typed sh c = (sh, if c.any (fun x => !decide (x = .blank)) then [.remotely c] else []) := by
      unfold typed
      rw [blank_iff, hi, hm c (by simp)]
      cases c.any (fun x => !decide (x = .blank)) <;> simp
    have := ih (fun c hc => hm c (by simp [hc]))
    simp only [session, ht, this, List.filter_cons]
    cases h : c.any (fun x => !decide (x = .blank)) <;> simp

theorem not_matches (c : List Line) (h : ∀ sfx, (c.dropWhile (· = .blank)).head? ≠ some (.auto sfx)) : matchesAuto c = false := by
  induction c with
  | nil => rfl
  | cons a b ih =>
    cases a with
    | blank => exact ih (by simpa using h)
    | code n => rfl
    | auto sfx => exact absurd (by simp) (h sfx)

/-- **C79 (nothing runs locally while %autopx is on).** Whatever the cells contain, as long as none of them begins (after blank lines) with an `%autopx` magic, every cell that is not blank is sent to the engines, in order, and none is run locally. -/
theorem autopx_on_sends_everything (sh : Shell) (hi : sh.installed = true) (cells : List (List Line))
    (hm : ∀ c ∈ cells, ∀ sfx, (c.dropWhile (· = .blank)).head? ≠ some (.auto sfx)) :
    (session sh cells).1 = sh ∧ (session sh cells).2 = (cells.filter fun c => c.any fun x => !decide (x = .blank)).map .remotely :=
  session_on sh hi cells fun c hc => not_matches c (hm c hc)

/-- **C79 (violated for a suffix):** with magics activated under a suffix that starts with a letter, a digit or an underscore, `%autopx<suffix>` turns the mode on but no later `%autopx<suffix>` turns it off: the pattern (magics.py:566) knows only the name without suffix, and the cell is sent to the engines. -/
theorem autopx_suffix_cannot_turn_off_violated (c : Char) (sfx : List Char) (hc : wordChar c = true) (n : Nat) :
    (session (fresh (c :: sfx)) (List.replicate (n + 1) [.auto (c :: sfx)])).1.installed = true ∧
    (session (fresh (c :: sfx)) (List.replicate (n + 1) [.auto (c :: sfx)])).2 = List.replicate n (.remotely [.auto (c :: sfx)]) := by
  have h1 : typed (fresh (c :: sfx)) [.auto (c :: sfx)] = ({ suffix := c :: sfx, autopx := true, installed := true }, []) := by
    simp [typed, fresh, blankCell, runLocal, toggle]
  rw [List.replicate_succ]
  simp only [session, h1]
  have := session_on { suffix := c :: sfx, autopx := true, installed := true } rfl (List.replicate n [.auto (c :: sfx)]) (by
    intro x hx
    rw [List.eq_of_mem_replicate hx]
    simp [matchesAuto, hc])
  rw [this.1, this.2]
  refine ⟨rfl, ?_⟩
  rw [List.filter_replicate]
  simp

/-- **C79 (violated for a cell that does more):** a cell with code before `%autopx` turns the mode on, but the same cell typed again does not turn it off. -/
theorem autopx_mixed_cell_violated (k n : Nat) :
    (session (fresh []) (List.replicate (n + 1) [.code k, .auto []])).1.installed = true := by
  have h1 : typed (fresh []) [.code k, .auto []] = ({ suffix := [], autopx := true, installed := true }, [.locally k]) := by
    simp [typed, fresh, blankCell, runLocal, toggle]
  rw [List.replicate_succ]
  simp only [session, h1]
  have := session_on { suffix := [], autopx := true, installed := true } rfl (List.replicate n [.code k, .auto []]) (by
    intro x hx
    rw [List.eq_of_mem_replicate hx]
    simp [matchesAuto])
  rw [this.1]

example : session (fresh []) [[.code 1], [.auto []], [.code 2, .code 3], [.auto []], [.code 4]] = (fresh [], [.locally 1, .remotely [.code 2, .code 3], .locally 4]) := rfl
example : Spec.meant false [.cell [1], .toggle 2, .cell [2, 3], .toggle 0, .cell [4]] = [.locally 1, .remotely [.code 2, .code 3], .locally 4] := rfl
example : wordChar '_' = true ∧ wordChar '0' = true := ⟨rfl, rfl⟩

end IPP.Magics
