import Verif.Client.StreamResult
/-!
# C75, C76: stdout goes to `sys.stdout`, stderr to `sys.stderr`; nothing is shown after leaving `stream_output`
-/
namespace IPP.Display
open IPP.Output (Text)

/-- what was printed, in order: to which file (`sys.stderr`?), and what -/
def prints : List Item → List (Bool × Text)
  | [] => []
  | .print e t :: l => (e, t) :: prints l
  | _ :: l => prints l

/-- The prints are those of the pieces: one for each, to the file of its stream, and it ends in its text; `hs` are the headers in front (possibly empty). -/
def PrintedTo (items : List Item) (ps : List Piece) : Prop :=
  ∃ hs : List Text, hs.length = ps.length ∧ prints items = List.zipWith (fun h (p : Piece) => (p.err, h ++ p.text)) hs ps

theorem prints_append (a b : List Item) : prints (a ++ b) = prints a ++ prints b := by
  induction a with
  | nil => rfl
  | cons x a ih => cases x <;> simp [prints, ih]

theorem prints_strip (s : Screen) : prints (strip s).items = prints s.items := by
  unfold strip
  dsimp only
  generalize s.items = l
  induction l with
  | nil => rfl
  | cons x l ih => cases x <;> simp_all [prints]

theorem prints_pieces (l : List Piece) (hne : ∀ p ∈ l, p.text ≠ []) : ∀ s : Screen, ∃ hs : List Text, hs.length = l.length ∧
    prints (l.foldl showPiece s).items = prints s.items ++ List.zipWith (fun h (p : Piece) => (p.err, h ++ p.text)) hs l := by
  induction l with
  | nil => intro s; exact ⟨[], rfl, by simp⟩
  | cons p l ih =>
    intro s
    obtain ⟨hs, h1, h2⟩ := ih (fun q hq => hne q (by simp [hq])) (showPiece s p)
    rw [List.foldl_cons, h2]
    have hp := hne p (by simp)
    unfold showPiece displayStream
    rw [if_neg hp]
    dsimp only
    rw [prints_append]
    exact ⟨_ :: hs, by simp [h1], by simp only [prints, List.zipWith_cons_cons]; rw [List.append_assoc]; rfl⟩

theorem said_nonempty (g : GroupBy) (ts : List Task) : ∀ p ∈ said g ts, p.text ≠ [] := by
  intro p hp; unfold said at hp; simpa using (List.mem_filter.1 hp).2

theorem display_strip (ipython : Bool) (g : GroupBy) (ts : List Task) : strip (displayOutputs ipython false g ts {}) = (said g ts).foldl showPiece {} := by
  by_cases hg : g = .engine
  · subst hg
    have := engine_text ipython ts {}
    unfold said
    rw [← foldl_filter]
    exact this
  · have := type_text ipython g hg ts {}
    rw [this, foldl_filter]
    cases g with
    | engine => exact absurd rfl hg
    | type => rfl
    | order => rfl

/-- **To which file**: `display_outputs` prints every piece of stdout to `sys.stdout` and every piece of stderr to `sys.stderr`, with headers in front, and prints nothing else. -/
theorem display_outputs_files (ipython : Bool) (g : GroupBy) (ts : List Task) : PrintedTo (displayOutputs ipython false g ts {}).items (said g ts) := by
  obtain ⟨hs, h1, h2⟩ := prints_pieces (said g ts) (said_nonempty g ts) {}
  refine ⟨hs, h1, ?_⟩
  rw [← prints_strip, display_strip, h2]
  rfl

/-- The same for a single result. -/
theorem display_single_files (ipython : Bool) (t : Task) :
    prints (displaySingle ipython false t {}).items = (if t.stdout = [] then [] else [(false, t.stdout)]) ++ (if t.stderr = [] then [] else [(true, t.stderr)]) := by
  have hd : ∀ (s : Screen) (x : Text) (e : Bool), s.last = [] → prints (displayStream s x [] e).items = prints s.items ++ (if x = [] then [] else [(e, x)]) ∧ (displayStream s x [] e).last = [] := by
    intro s x e hl
    unfold displayStream
    by_cases h : x = []
    · simp [h, hl]
    · simp [h, hl, prints_append, prints]
  have h0 := hd {} t.stdout false rfl
  have h1 := hd _ t.stderr true h0.2
  rw [h0.1] at h1
  have hr : prints (t.outputs.map Item.rich) = [] := by
    generalize t.outputs = l
    induction l with
    | nil => rfl
    | cons d l ih => simpa [prints] using ih
  unfold displaySingle
  cases ipython with
  | false => simpa [prints] using h1.1
  | true =>
    simp only [Bool.false_eq_true, if_false, Bool.not_true]
    cases t.result with
    | none => simp only [showAll, prints_append, hr, List.append_nil]; rw [h1.1]; simp [prints]
    | some r => simp only [show1, showAll, prints_append, hr, List.append_nil]; rw [h1.1]; simp [prints]

end IPP.Display

namespace IPP.Stream
open IPP.Output (Text Md Pub)
open IPP.Display

/-- Streaming to a terminal prints every piece of stdout to `sys.stdout` and every piece of stderr to `sys.stderr`, with headers in front, and prints nothing else. -/
theorem terminal_files (ipython : Bool) (eid : Nat → Nat) (s : St) : PrintedTo (terminal ipython eid s).items (pieces eid s.log) := by
  have key : ∀ (l : List (Nat × Pub)) (sc : Screen), strip (l.foldl (showPub ipython eid) sc) = (pieces eid l).foldl showPiece (strip sc) := by
    intro l
    induction l with
    | nil => intro sc; rfl
    | cons x l ih =>
      intro sc
      rw [List.foldl_cons, ih, strip_showPub, ← List.foldl_append]
      congr 1
      simp only [pieces]
      rw [← List.filterMap_append]
      rfl
  have hne : ∀ p ∈ pieces eid s.log, p.text ≠ [] := by
    intro p hp
    obtain ⟨⟨k, m⟩, _, h⟩ := List.mem_filterMap.1 hp
    cases m with
    | stream err t =>
      simp only at h
      split at h
      · cases h
      · next h' => cases h; exact h'
    | _ => simp at h
  obtain ⟨hs, h1, h2⟩ := prints_pieces (pieces eid s.log) hne (strip {})
  refine ⟨hs, h1, ?_⟩
  rw [← prints_strip, terminal, key, h2]
  rfl

/-! ## After leaving -/

/-- whenever a callback is registered, it is removed later -/
def Ok : List Instr → Prop
  | [] => True
  | .register k :: l => .remove k ∈ l ∧ Ok l
  | _ :: l => Ok l

theorem ok_program {ts : Option (List Nat)} {n : Nat} {prog : List Instr} (hp : program ts n = some prog) : Ok prog := by
  cases ts with
  | none => cases hp
  | some ts =>
    simp only [program, Option.map_some, Option.some.injEq] at hp
    subst hp
    generalize List.range (min ts.length n) = ks
    have h0 : ∀ (l : List Nat), Ok (l.map Instr.remove) := by
      intro l
      induction l with
      | nil => trivial
      | cons k l ih => exact ih
    have h1 : ∀ (a b : List Nat), (∀ k ∈ a, k ∈ b) → Ok (a.flatMap enter ++ [.body] ++ b.map .remove) := by
      intro a b
      induction a with
      | nil => intro _; exact h0 b
      | cons k a ih =>
        intro hab
        have := ih fun j hj => hab j (by simp [hj])
        refine ⟨?_, this⟩
        have hk : Instr.remove k ∈ b.map Instr.remove := List.mem_map.2 ⟨k, hab k (by simp), rfl⟩
        simp [hab k (by simp)]
    exact h1 ks ks fun _ h => h

theorem left_inv (eid : Nat → Nat) (ev : Ev) (s : St) (h1 : Ok s.pc) (h2 : ∀ j, s.reg j = true → .remove j ∈ s.pc) :
    Ok (step eid s ev).pc ∧ ∀ j, (step eid s ev).reg j = true → .remove j ∈ (step eid s ev).pc := by
  cases ev with
  | store k p => simp only [step]; split <;> exact ⟨h1, h2⟩
  | call =>
    simp only [step]
    split
    · exact ⟨h1, h2⟩
    · split <;> exact ⟨h1, h2⟩
  | main =>
    simp only [step]
    unfold mainStep
    split
    · exact ⟨h1, h2⟩
    · next k pc hpc =>
      rw [hpc] at h1 h2
      refine ⟨h1.2, fun j hj => ?_⟩
      dsimp only at hj
      split at hj
      · next h => subst h; exact h1.1
      · simpa using h2 j hj
    · next k err pc hpc =>
      rw [hpc] at h1 h2
      have h3 : ∀ j, s.reg j = true → Instr.remove j ∈ pc := fun j hj => by simpa using h2 j hj
      dsimp only
      split <;> exact ⟨h1, h3⟩
    · next k i pc hpc =>
      rw [hpc] at h1 h2
      have h3 : ∀ j, s.reg j = true → Instr.remove j ∈ pc := fun j hj => by simpa using h2 j hj
      split
      · exact ⟨h1, h3⟩
      · exact ⟨h1, fun j hj => List.mem_cons_of_mem _ (h3 j hj)⟩
    · next k pc hpc =>
      rw [hpc] at h1 h2
      have h3 : ∀ j, s.reg j = true → Instr.remove j ∈ pc := fun j hj => by simpa using h2 j hj
      dsimp only
      split <;> exact ⟨h1, h3⟩
    · next pc hpc =>
      rw [hpc] at h1 h2
      exact ⟨h1, fun j hj => by simpa using h2 j hj⟩
    · next k pc hpc =>
      rw [hpc] at h1 h2
      refine ⟨h1, fun j hj => ?_⟩
      dsimp only at hj
      split at hj
      · cases hj
      · next hne => simpa [hne] using h2 j hj

/-- **After leaving** `stream_output` nothing more is shown: neither on the terminal nor in the displays of a notebook. -/
theorem streamed_left (eid : Nat → Nat) (ts : List Nat) (n : Nat) (prog : List Instr) (hp : program (some ts) n = some prog) (p q : List Ev) (hl : (run eid prog p).pc = []) :
    (run eid prog (p ++ q)).log = (run eid prog p).log ∧ (run eid prog (p ++ q)).board = (run eid prog p).board := by
  have hinv : ∀ (evs : List Ev) (s : St), Ok s.pc → (∀ j, s.reg j = true → .remove j ∈ s.pc) →
      Ok (evs.foldl (step eid) s).pc ∧ ∀ j, (evs.foldl (step eid) s).reg j = true → .remove j ∈ (evs.foldl (step eid) s).pc := by
    intro evs
    induction evs with
    | nil => intro s h1 h2; exact ⟨h1, h2⟩
    | cons ev evs ih =>
      intro s h1 h2
      obtain ⟨h3, h4⟩ := left_inv eid ev s h1 h2
      exact ih _ h3 h4
  have h := hinv p { pc := prog } (ok_program hp) (fun j h => by cases h)
  change Ok (run eid prog p).pc ∧ ∀ j, (run eid prog p).reg j = true → .remove j ∈ (run eid prog p).pc at h
  rw [hl] at h
  have hreg : ∀ j, (run eid prog p).reg j = false := fun j => Bool.eq_false_iff.2 fun hj => by cases h.2 j hj
  have he : run eid prog (p ++ q) = q.foldl (step eid) (run eid prog p) := by unfold run; rw [List.foldl_append]
  rw [he]
  generalize run eid prog p = s at hl hreg
  clear h he
  induction q generalizing s with
  | nil => exact ⟨rfl, rfl⟩
  | cons ev q ih =>
    rw [List.foldl_cons]
    have hs : (step eid s ev).pc = [] ∧ (∀ j, (step eid s ev).reg j = false) ∧ (step eid s ev).log = s.log ∧ (step eid s ev).board = s.board := by
      cases ev with
      | store k p => simp only [step]; split <;> exact ⟨hl, hreg, rfl, rfl⟩
      | call =>
        simp only [step]
        split
        · exact ⟨hl, hreg, rfl, rfl⟩
        · rw [hreg]
          exact ⟨hl, hreg, rfl, rfl⟩
      | main =>
        have : step eid s .main = s := by simp only [step, mainStep, hl]
        rw [this]
        exact ⟨hl, hreg, rfl, rfl⟩
    obtain ⟨h1, h2, h3, h4⟩ := hs
    obtain ⟨h5, h6⟩ := ih _ h1 h2
    exact ⟨h5.trans h3, h6.trans h4⟩

/-- the user leaves, then output arrives -/
example : (run id exProg (exLive ++ [.main, .main, .main])).pc = [] ∧ shown 0 (run id exProg ((exLive ++ [.main, .main, .main]) ++ [.store 0 (.error 1), .call])) = [.display 7, .result 3] := by
  decide +kernel

end IPP.Stream
