import Verif.Async.ErrorText

/-!
# What an error shows (C107)
-/
namespace IPP.Async.ErrorText

/-! ## The line of `str` -/

theorem strLoop_eq (s : Text) (l : List Err) :
    strLoop s l = s ++ l.flatMap (fun e => '\n' :: label e.info ++ e.ename ++ ':' :: ' ' :: e.evalue) := by
  induction l generalizing s with
  | nil => simp [strLoop]
  | cons e l ih => rw [strLoop, ih]; simp

theorem renderLoop_eq (sp : Text → List Text) (s : List Text) (l : List Err) :
    renderLoop sp s l = s ++ l.flatMap (fun e =>
      (label e.info ++ [':']) :: sp (orNone e.traceback) ++ [[]]) := by
  induction l generalizing s with
  | nil => simp [renderLoop]
  | cons e l ih => rw [renderLoop, ih]; simp

theorem infix_flatMap {α β : Type} (l : List α) (f : α → List β) (a : α) (h : a ∈ l) :
    f a <:+: l.flatMap f := by
  induction l with
  | nil => simp at h
  | cons b l ih =>
    rw [List.flatMap_cons]
    rcases List.mem_cons.1 h with e | e
    · rw [e]; exact (List.prefix_append _ _).isInfix
    · exact (ih e).trans (List.suffix_append _ _).isInfix

/-- **The message and each of the first four errors are in the text**, with engine, name and
value; further errors are counted. -/
theorem str_shows (msg : Text) (elist : List Err) :
    msg <+: compositeStr msg elist ∧
    (∀ i e, i < 4 → elist[i]? = some e →
      '\n' :: label e.info ++ e.ename ++ ':' :: ' ' :: e.evalue <:+: compositeStr msg elist) ∧
    (4 < elist.length → "\n.... ".toList ++ Nat.toDigits 10 (elist.length - 4) ++
      " more exceptions ...".toList <:+ compositeStr msg elist) := by
  have hpre : ∀ e' : List Err, strLoop msg (e'.take tbLimit) <+: compositeStr msg e' := by
    intro e'
    unfold compositeStr
    dsimp only
    split
    · simp only [List.append_assoc]
      exact List.prefix_append _ _
    · exact List.prefix_refl _
  refine ⟨?_, ?_, ?_⟩
  · refine List.IsPrefix.trans ?_ (hpre elist)
    rw [strLoop_eq]
    exact List.prefix_append _ _
  · intro i e hi he
    refine List.IsInfix.trans ?_ (hpre elist).isInfix
    rw [strLoop_eq]
    refine List.IsInfix.trans ?_ (List.suffix_append _ _).isInfix
    refine infix_flatMap _ (fun e => '\n' :: label e.info ++ e.ename ++ ':' :: ' ' :: e.evalue) e ?_
    have : (elist.take tbLimit)[i]? = some e := by
      rw [show tbLimit = 4 from rfl, List.getElem?_take_of_lt hi, he]
    exact List.mem_of_getElem? this
  · intro hl
    unfold compositeStr
    simp only [tbLimit, gt_iff_lt]
    rw [if_pos hl]
    simp only [List.append_assoc]
    exact List.suffix_append _ _

/-- **At most four errors: nothing is left out and nothing is announced.** The text is the
message and one line per error (if the values have no line ends). -/
theorem str_short (msg : Text) (elist : List Err) (h : elist.length ≤ 4) :
    compositeStr msg elist =
      msg ++ elist.flatMap (fun e => '\n' :: label e.info ++ e.ename ++ ':' :: ' ' :: e.evalue) := by
  unfold compositeStr
  simp only [tbLimit, gt_iff_lt]
  rw [if_neg (Nat.not_lt.2 h), List.take_of_length_le h, strLoop_eq]

/-! ## Tracebacks -/

/-- **The rendered traceback has, in order, for each of the first four errors a block: the engine,
the whole traceback, an empty line**; then, if there are more errors, their number. -/
theorem render_shows (sp : Text → List Text) (elist : List Err) :
    compositeRender sp elist none = some (
      (elist.take 4).flatMap (fun e => (label e.info ++ [':']) :: sp (orNone e.traceback) ++ [[]]) ++
      (if 4 < elist.length then ["... ".toList ++ Nat.toDigits 10 (elist.length - 4) ++
        " more exceptions ...".toList] else [])) := by
  unfold compositeRender
  simp only [renderLoop_eq, tbLimit, List.nil_append, gt_iff_lt]
  split <;> simp

/-- The number of errors that are shown and the number that is announced make all errors. -/
theorem shown_and_announced (elist : List Err) :
    (elist.take 4).length + (if 4 < elist.length then elist.length - 4 else 0) = elist.length := by
  rw [List.length_take]
  split <;> omega

/-- Which error `excid` names: counted from the front, or from the end if negative. -/
theorem index_spec (l : List Err) (i : Int) (e : Err) :
    pyIndex l i = some e ↔
      ∃ n : Nat, l[n]? = some e ∧ ((n : Int) = i ∨ (n : Int) = i + l.length ∧ i < 0) := by
  unfold pyIndex
  constructor
  · intro h
    split at h
    · rename_i h0
      exact ⟨_, h, Or.inl (by omega)⟩
    · rename_i h0
      split at h
      · rename_i h1
        exact ⟨_, h, Or.inr ⟨by omega, by omega⟩⟩
      · cases h
  · rintro ⟨n, hn, hi⟩
    have hlt : n < l.length := by
      rcases Nat.lt_or_ge n l.length with h | h
      · exact h
      · rw [List.getElem?_eq_none h] at hn; cases hn
    rcases hi with hi | ⟨hi, h0⟩
    · rw [if_pos (by omega)]
      have : i.toNat = n := by omega
      rw [this, hn]
    · rw [if_neg (by omega), if_pos (by omega)]
      have : l.length - (-i).toNat = n := by omega
      rw [this, hn]

/-- **Every error, also one that is not shown, can be raised and rendered by its index**: with its
name, value, traceback and engine. -/
theorem by_index (sp : Text → List Text) (l : List Err) (n : Nat) (e : Err)
    (h : l[n]? = some e) :
    raiseException l n = some e ∧
    compositeRender sp l (some n) = some ((label e.info ++ [':']) :: sp (orNone e.traceback)) ∧
    raiseException l ((n : Int) - l.length) = some e := by
  have h1 : pyIndex l n = some e := (index_spec l n e).2 ⟨n, h, Or.inl rfl⟩
  have hlt : n < l.length := by
    rcases Nat.lt_or_ge n l.length with h' | h'
    · exact h'
    · rw [List.getElem?_eq_none h'] at h; cases h
  refine ⟨h1, by simp [compositeRender, h1], ?_⟩
  exact (index_spec l _ e).2 ⟨n, h, Or.inr ⟨by omega, by omega⟩⟩

/-- **An index without error raises IndexError**, in both. -/
theorem bad_index (sp : Text → List Text) (l : List Err) (i : Int)
    (h : i ≥ l.length ∨ i < -l.length) :
    raiseException l i = none ∧ compositeRender sp l (some i) = none := by
  have h1 : pyIndex l i = none := by
    cases hp : pyIndex l i with
    | none => rfl
    | some e =>
      obtain ⟨n, hn, hi⟩ := (index_spec l i e).1 hp
      have hlt : n < l.length := by
        rcases Nat.lt_or_ge n l.length with h' | h'
        · exact h'
        · rw [List.getElem?_eq_none h'] at hn; cases hn
      omega
  exact ⟨h1, by simp [compositeRender, h1]⟩

/-! ## Streaming -/

/-- **While output is streamed every error prints something that names its engine**: the first
four their traceback, the others one line with name and value. -/
theorem stream_shows (sp : Text → List Text) (l : List Err) (i : Nat) (e : Err)
    (h : l[i]? = some e) :
    (streamErrors sp 0 l)[i]? = some (if i < 4 then
      label e.info :: sp (orNone e.traceback)
    else [label e.info ++ ' ' :: e.ename ++ ':' :: ' ' :: e.evalue]) := by
  have key : ∀ (l : List Err) (n i : Nat), l[i]? = some e →
      (streamErrors sp n l)[i]? = some (if n + i < 4 then
        label e.info :: sp (orNone e.traceback)
      else [label e.info ++ ' ' :: e.ename ++ ':' :: ' ' :: e.evalue]) := by
    intro l
    induction l with
    | nil => intro n i h; simp at h
    | cons a l ih =>
      intro n i h
      cases i with
      | zero =>
        simp only [List.getElem?_cons_zero, Option.some.injEq] at h
        subst h
        rw [streamErrors, List.getElem?_cons_zero]
        by_cases hn : n + 1 ≤ tbLimit
        · rw [if_pos hn, if_pos (by simp only [tbLimit] at hn; omega)]; rfl
        · rw [if_neg hn, if_neg (by simp only [tbLimit] at hn; omega)]; rfl
      | succ i =>
        simp only [List.getElem?_cons_succ] at h
        simp only [streamErrors, List.getElem?_cons_succ]
        rw [ih (n + 1) i h]
        have : n + 1 + i = n + (i + 1) := by omega
        rw [this]
  have := key l 0 i h
  simpa using this

def sample (k : Nat) : Err :=
  ⟨"NameError".toList, "x".toList, some "tb".toList, some (Nat.toDigits 10 k, "apply".toList)⟩

example : String.ofList (compositeStr "boom".toList ((List.range 2).map sample)) =
    "boom\n[0:apply]NameError: x\n[1:apply]NameError: x" := by decide +kernel

example : String.ofList (compositeStr "boom".toList ((List.range 15).map sample)) =
    "boom\n[0:apply]NameError: x\n[1:apply]NameError: x\n[2:apply]NameError: x\n[3:apply]NameError: x\n.... 11 more exceptions ..." := by
  decide +kernel

example : raiseException ((List.range 15).map sample) (-1) = some (sample 14) ∧
    raiseException ((List.range 15).map sample) 15 = none := by decide +kernel

example : ((streamErrors (fun t => [t]) 0 ((List.range 6).map sample))[4]?).map
    (fun l => l.map String.ofList) = some ["[4:apply] NameError: x"] := by decide +kernel

end IPP.Async.ErrorText
