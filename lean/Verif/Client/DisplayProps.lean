import Verif.Client.Display
/-!
# C75: what `display_outputs` shows
-/
namespace IPP.Display
open IPP.Output (Text)

theorem text_append (a b : List Item) : text (a ++ b) = text a ++ text b := by
  induction a with
  | nil => rfl
  | cons x a ih => cases x <;> simp [text, ih]

/-! ## Headers -/

theorem toDigits_inj {a b : Nat} (h : Nat.toDigits 10 a = Nat.toDigits 10 b) : a = b := by
  rw [← Nat.ofDigitChars_ten_toDigits (n := a), ← Nat.ofDigitChars_ten_toDigits (n := b), h]

theorem pfx_inj {e e' : Bool} {i i' : Nat} (h : pfx e i = pfx e' i') : e = e' ∧ i = i' := by
  cases e <;> cases e' <;> simp [pfx] at h
  · exact ⟨rfl, toDigits_inj h⟩
  · exact ⟨rfl, toDigits_inj h⟩

theorem pfx_ne (e : Bool) (i : Nat) : pfx e i ≠ [] := by simp [pfx]

theorem pfx_same (p q : Piece) : pfx p.err p.eid = pfx q.err q.eid ↔ p.same q = true := by
  constructor
  · intro h; simp [Piece.same, pfx_inj h]
  · intro h
    simp [Piece.same] at h
    rw [h.1, h.2]

theorem blockText_eq (p : Piece) : blockText p = pfx p.err p.eid ++ ['\n'] ++ p.text := by
  unfold blockText pfx
  cases p.err <;> simp

/-! ## Pieces and blocks -/

def showPiece (s : Screen) (p : Piece) : Screen := displayStream s p.text (pfx p.err p.eid) p.err

/-- the page after a block with the given text -/
def after (t : Text) (l : List Piece) : Text := match l with | [] => [] | _ => (if t.getLast? = some '\n' then [] else ['\n']) ++ page l

theorem page_cons (p : Piece) (l : List Piece) : page (p :: l) = blockText p ++ after p.text l := by
  cases l <;> simp [page, after]

theorem blocks_head (p : Piece) (l : List Piece) : ∃ b r, blocks (p :: l) = b :: r ∧ b.err = p.err ∧ b.eid = p.eid ∧ (p.text ≠ [] → b.text ≠ []) := by
  unfold blocks
  split
  · exact ⟨_, _, rfl, rfl, rfl, id⟩
  · split
    · exact ⟨_, _, rfl, rfl, rfl, fun h => by simp [h]⟩
    · exact ⟨_, _, rfl, rfl, rfl, id⟩

theorem showPieces_page (l : List Piece) : ∀ (s : Screen) (q : Piece), (∀ p ∈ l, p.text ≠ []) → s.last = pfx q.err q.eid → s.newline = decide (q.text.getLast? = some '\n') →
    ∃ n, (l.foldl showPiece s).items = s.items ++ n ∧ blockText q ++ text n = page (blocks (q :: l)) := by
  induction l with
  | nil => intro s q _ _ _; exact ⟨[], by simp, by simp [text, blocks, page]⟩
  | cons p l ih =>
    intro s q hne hlast hnl
    have hp : p.text ≠ [] := hne p (by simp)
    obtain ⟨n, hn, hpg⟩ := ih (showPiece s p) p (fun x hx => hne x (by simp [hx]))
      (by
        unfold showPiece displayStream
        rw [if_neg hp]
        dsimp only
        split
        · next h => simp [h]
        · simp [pfx_ne])
      (by unfold showPiece displayStream; rw [if_neg hp])
    obtain ⟨b, r, hb, hbe, hbi, hbt⟩ := blocks_head p l
    rw [hb, page_cons] at hpg
    by_cases hs : pfx p.err p.eid = s.last
    · -- the same stream: no header
      have hitem : (showPiece s p).items = s.items ++ [.print p.err p.text] := by
        unfold showPiece displayStream
        rw [if_neg hp]
        simp [hs]
      have hsame : q.same b = true := by
        have := (pfx_same p q).1 (hs.trans hlast)
        simp [Piece.same] at this ⊢
        rw [hbe, hbi]; exact ⟨this.1.symm, this.2.symm⟩
      refine ⟨.print p.err p.text :: n, by rw [List.foldl_cons, hn, hitem]; simp, ?_⟩
      rw [show blocks (q :: p :: l) = { q with text := q.text ++ b.text } :: r by rw [blocks, hb]; simp [hsame], page_cons, blockText_eq, blockText_eq]
      rw [blockText_eq, blockText_eq, hbe, hbi] at hpg
      simp only [List.append_assoc, List.append_cancel_left_eq] at hpg
      simp only [text, List.append_assoc]
      rw [hpg]
      simp only [List.append_cancel_left_eq]
      cases r with
      | nil => rfl
      | cons x r =>
        simp only [after]
        rw [List.getLast?_append]
        cases hbl : b.text.getLast? with
        | none => rw [List.getLast?_eq_none_iff] at hbl; exact absurd hbl (hbt hp)
        | some c => simp
    · -- another stream
      have hitem : (showPiece s p).items = s.items ++ [.print p.err ((if s.newline = false then ['\n'] else []) ++ pfx p.err p.eid ++ ['\n'] ++ p.text)] := by
        unfold showPiece displayStream
        rw [if_neg hp]
        simp [hs, pfx_ne]
      have hsame : q.same b = false := by
        refine Bool.eq_false_iff.2 fun h => hs ?_
        rw [hlast]
        refine (pfx_same p q).2 ?_
        simp [Piece.same] at h ⊢
        rw [hbe, hbi] at h; exact ⟨h.1.symm, h.2.symm⟩
      refine ⟨_ :: n, by rw [List.foldl_cons, hn, hitem, List.append_assoc]; rfl, ?_⟩
      rw [show blocks (q :: p :: l) = q :: b :: r by rw [blocks, hb]; simp [hsame], page_cons]
      rw [show after q.text (b :: r) = (if q.text.getLast? = some '\n' then [] else ['\n']) ++ page (b :: r) from rfl, page_cons b r, ← hpg, blockText_eq p, hnl]
      by_cases hq : q.text.getLast? = some '\n' <;> simp [text, hq]

/-- the first piece gets its header -/
theorem showPieces_fresh (l : List Piece) (hl : ∀ p ∈ l, p.text ≠ []) : text (l.foldl showPiece {}).items = page (blocks l) := by
  cases l with
  | nil => rfl
  | cons p l =>
    have hp : p.text ≠ [] := hl p (by simp)
    have h1 : showPiece {} p = { last := pfx p.err p.eid, newline := decide (p.text.getLast? = some '\n'), items := [.print p.err (pfx p.err p.eid ++ ['\n'] ++ p.text)] } := by
      unfold showPiece displayStream
      rw [if_neg hp]
      simp [pfx_ne]
    obtain ⟨n, hn, hpg⟩ := showPieces_page l (showPiece {} p) p (fun x hx => hl x (by simp [hx])) (by rw [h1]) (by rw [h1])
    rw [List.foldl_cons, hn, text_append, ← hpg, h1, blockText_eq]
    simp [text]

theorem bodyOf_blocks (err : Bool) (eid : Nat) (l : List Piece) : bodyOf err eid (blocks l) = bodyOf err eid l := by
  induction l with
  | nil => rfl
  | cons p l ih =>
    unfold blocks
    split
    · next h =>
      rw [h] at ih
      simp [bodyOf] at ih ⊢
      exact ih
    · next q r h =>
      rw [h] at ih
      split
      · next hs =>
        simp [Piece.same] at hs
        simp only [bodyOf, List.flatMap_cons] at ih ⊢
        rw [← ih, ← hs.1, ← hs.2]
        by_cases hc : p.err = err ∧ p.eid = eid <;> simp [hc]
      · simp only [bodyOf, List.flatMap_cons] at ih ⊢
        rw [ih]

/-! ## Skipping empty text, and items that are no text -/

theorem showPiece_empty (s : Screen) (p : Piece) (h : p.text = []) : showPiece s p = s := by simp [showPiece, displayStream, h]

theorem foldl_filter (l : List Piece) : ∀ s : Screen, l.foldl showPiece s = (l.filter fun p => p.text ≠ []).foldl showPiece s := by
  induction l with
  | nil => intro s; rfl
  | cons p l ih =>
    intro s
    by_cases h : p.text = []
    · rw [List.foldl_cons, showPiece_empty s p h, List.filter_cons_of_neg (by simp [h])]; exact ih s
    · rw [List.foldl_cons, List.filter_cons_of_pos (by simp [h]), List.foldl_cons]; exact ih _

/-- the state but for the items that are no text -/
def strip (s : Screen) : Screen := { s with items := s.items.filter fun | .print _ _ => true | _ => false }

theorem text_strip (s : Screen) : text (strip s).items = text s.items := by
  unfold strip
  generalize s.items = l
  induction l with
  | nil => rfl
  | cons x l ih => cases x <;> simp [text] at ih ⊢ <;> exact ih

theorem strip_showPiece (s : Screen) (p : Piece) : strip (showPiece s p) = showPiece (strip s) p := by
  unfold showPiece displayStream
  split
  · rfl
  · by_cases h : pfx p.err p.eid = s.last <;> simp [strip, h]

theorem strip_show1 (s : Screen) (i : Item) (h : ∀ e t, i ≠ .print e t) : strip (show1 s i) = strip s := by
  cases i <;> simp [strip, show1] at h ⊢

theorem strip_showAll (s : Screen) (l : List Item) (h : ∀ i ∈ l, ∀ e t, i ≠ .print e t) : strip (showAll s l) = strip s := by
  simp only [strip, showAll, List.filter_append]
  have : l.filter (fun | .print _ _ => true | _ => false) = [] := by
    refine List.filter_eq_nil_iff.2 fun i hi => ?_
    have := h i hi
    cases i <;> simp at this ⊢
  rw [this]
  simp

/-! ## What each part of `display_outputs` does -/

theorem showPieces_others (l : List Piece) (s : Screen) : others (l.foldl showPiece s).items = others s.items := by
  induction l generalizing s with
  | nil => rfl
  | cons p l ih =>
    rw [List.foldl_cons, ih]
    unfold showPiece displayStream
    split
    · rfl
    · simp [others]

theorem labelled_others (cur : Option Nat) (l : List Item) : labelled cur (others l) = labelled cur l := by
  induction l generalizing cur with
  | nil => rfl
  | cons x l ih => cases x <;> simp [others, labelled] at ih ⊢ <;> exact ih _

theorem values_others (l : List Item) : values (others l) = values l := by
  induction l with
  | nil => rfl
  | cons x l ih => cases x <;> simp [others, values] at ih ⊢ <;> exact ih

theorem values_append (a b : List Item) : values (a ++ b) = values a ++ values b := by
  induction a with
  | nil => rfl
  | cons x a ih => cases x <;> simp [values, ih]

/-- the label in force after some items -/
def cur (c : Option Nat) : List Item → Option Nat
  | [] => c
  | .label e :: l => cur (some e) l
  | _ :: l => cur c l

theorem labelled_append (c : Option Nat) (a b : List Item) : labelled c (a ++ b) = labelled c a ++ labelled (cur c a) b := by
  induction a generalizing c with
  | nil => rfl
  | cons x a ih => cases x <;> simp [labelled, cur, ih]

theorem cur_append (c : Option Nat) (a b : List Item) : cur c (a ++ b) = cur (cur c a) b := by
  induction a generalizing c with
  | nil => rfl
  | cons x a ih => cases x <;> simp [cur, ih]

theorem labelled_rich (c : Option Nat) (l : List Nat) : labelled c (l.map .rich) = l.map fun d => (c, d) := by
  induction l with
  | nil => rfl
  | cons d l ih => simp [labelled, ih]

theorem values_rich (l : List Nat) : values (l.map .rich) = [] := by
  induction l with
  | nil => rfl
  | cons d l ih => simp [values, ih]

theorem others_append (a b : List Item) : others (a ++ b) = others a ++ others b := List.filter_append ..

def outP (t : Task) : Piece := ⟨false, t.eid, t.stdout⟩
def errP (t : Task) : Piece := ⟨true, t.eid, t.stderr⟩

theorem engineStep_text (ipy : Bool) (s : Screen) (t : Task) :
    strip (engineStep ipy false s t) = showPiece (showPiece (strip s) ⟨false, t.eid, t.stdout⟩) ⟨true, t.eid, t.stderr⟩ := by
  rw [← strip_showPiece, ← strip_showPiece]
  have hr : ∀ i ∈ t.outputs.map Item.rich, ∀ e t', i ≠ Item.print e t' := by intro i hi; obtain ⟨d, _, rfl⟩ := List.mem_map.1 hi; simp
  unfold engineStep showPiece
  simp only [Bool.false_eq_true, if_false]
  split
  · rfl
  · cases t.result with
    | none =>
      dsimp only
      rw [strip_showAll _ _ hr]
      split
      · rw [strip_show1 _ _ (by simp)]
      · rfl
    | some r =>
      dsimp only
      rw [strip_show1 _ _ (by simp), strip_showAll _ _ hr]
      split
      · rw [strip_show1 _ _ (by simp)]
      · rfl

theorem engine_text (ipy : Bool) (ts : List Task) (s : Screen) :
    strip (ts.foldl (engineStep ipy false) s) = (ts.flatMap fun t => [⟨false, t.eid, t.stdout⟩, ⟨true, t.eid, t.stderr⟩]).foldl showPiece (strip s) := by
  induction ts generalizing s with
  | nil => rfl
  | cons t ts ih => rw [List.foldl_cons, ih, engineStep_text]; simp [List.foldl_append]

theorem strip_values (ts : List Task) (s : Screen) : strip (ts.foldl valueStep s) = strip s := by
  induction ts generalizing s with
  | nil => rfl
  | cons t ts ih =>
    rw [List.foldl_cons, ih]
    unfold valueStep
    cases t.result with
    | none => rfl
    | some r => exact strip_show1 _ _ (by simp)

theorem strip_outputs (ts : List Task) (s : Screen) :
    strip (ts.foldl richStep s) = strip s := by
  induction ts generalizing s with
  | nil => rfl
  | cons t ts ih =>
    rw [List.foldl_cons, ih, richStep, strip_showAll _ _ (by intro i hi; obtain ⟨d, _, rfl⟩ := List.mem_map.1 hi; simp)]
    split
    · exact strip_show1 _ _ (by simp)
    · rfl

theorem orderRound_noprint (ts : List Task) (n k : Nat) : ∀ i ∈ (List.range k).flatMap (orderRound ts n), ∀ e t, i ≠ Item.print e t := by
  intro i hi
  obtain ⟨j, _, hj⟩ := List.mem_flatMap.1 hi
  obtain ⟨t, _, ht⟩ := List.mem_flatMap.1 hj
  dsimp only at ht
  split at ht
  · simp at ht; rcases ht with rfl | rfl <;> simp
  · cases ht

theorem foldl_pieces (f : Task → Piece) (g : Screen → Task → Screen) (h : ∀ s t, g s t = showPiece s (f t)) (ts : List Task) (s : Screen) : ts.foldl g s = (ts.map f).foldl showPiece s := by
  rw [List.foldl_map]
  congr 1
  funext s t
  exact h s t

theorem type_text (ipy : Bool) (g : GroupBy) (hg : g ≠ .engine) (ts : List Task) (s : Screen) :
    strip (displayOutputs ipy false g ts s) = (ts.map outP ++ ts.map errP).foldl showPiece (strip s) := by
  have hstrip : ∀ (l : List Piece) (s : Screen), strip (l.foldl showPiece s) = l.foldl showPiece (strip s) := by
    intro l
    induction l with
    | nil => intro s; rfl
    | cons p l ih => intro s; rw [List.foldl_cons, ih, strip_showPiece, List.foldl_cons]
  have h : strip (ts.foldl (fun s t => displayStream s t.stderr (pfx true t.eid) true) (ts.foldl (fun s t => displayStream s t.stdout (pfx false t.eid) false) s)) =
      (ts.map outP ++ ts.map errP).foldl showPiece (strip s) := by
    rw [foldl_pieces errP (fun s t => displayStream s t.stderr (pfx true t.eid) true) (fun _ _ => rfl), foldl_pieces outP (fun s t => displayStream s t.stdout (pfx false t.eid) false) (fun _ _ => rfl), ← List.foldl_append, hstrip]
  unfold displayOutputs
  cases g with
  | engine => exact absurd rfl hg
  | type =>
    simp only [Bool.false_eq_true, if_false, reduceCtorEq]
    split
    · exact h
    · rw [strip_values, strip_outputs, h]
  | order =>
    simp only [Bool.false_eq_true, if_false, if_true]
    split
    · exact h
    · rw [strip_values, strip_showAll _ _ (orderRound_noprint ts _ _), h]

/-! ## C75 -/

/-- **What `display_outputs` prints** (the first time): the text of all tasks in blocks, each below a header line that names the stream and the engine. -/
theorem display_outputs_page (ipython : Bool) (g : GroupBy) (ts : List Task) : text (displayOutputs ipython false g ts {}).items = page (blocks (said g ts)) := by
  rw [← text_strip]
  have hs : ∀ p ∈ said g ts, p.text ≠ [] := by intro p hp; unfold said at hp; simpa using (List.mem_filter.1 hp).2
  rw [← showPieces_fresh _ hs]
  by_cases hg : g = .engine
  · subst hg
    have := engine_text ipython ts {}
    unfold said
    rw [← foldl_filter]
    exact congrArg (fun s => text s.items) this
  · have := type_text ipython g hg ts {}
    rw [this, foldl_filter]
    cases g with
    | engine => exact absurd rfl hg
    | type => rfl
    | order => rfl

/-- In the blocks nothing is lost, repeated or attributed to another engine or stream: below the headers of an engine's stdout (stderr) is the stdout (stderr) of the tasks that it ran, in order. -/
theorem display_outputs_bodies (g : GroupBy) (ts : List Task) (eid : Nat) :
    bodyOf false eid (blocks (said g ts)) = (ts.filter fun t => t.eid = eid).flatMap (·.stdout) ∧ bodyOf true eid (blocks (said g ts)) = (ts.filter fun t => t.eid = eid).flatMap (·.stderr) := by
  rw [bodyOf_blocks, bodyOf_blocks]
  have hf : ∀ (e : Bool) (l : List Piece), bodyOf e eid (l.filter fun p => p.text ≠ []) = bodyOf e eid l := by
    intro e l
    induction l with
    | nil => rfl
    | cons p l ih =>
      simp only [bodyOf] at ih ⊢
      by_cases h : p.text = []
      · rw [List.filter_cons_of_neg (by simp [h]), ih]; simp [h]
      · rw [List.filter_cons_of_pos (by simp [h]), List.flatMap_cons, List.flatMap_cons, ih]
  have hl : ∀ (e e' : Bool) (f : Task → Text), bodyOf e eid (ts.map fun t => ⟨e', t.eid, f t⟩) = if e' = e then (ts.filter fun t => t.eid = eid).flatMap f else [] := by
    intro e e' f
    induction ts with
    | nil => simp [bodyOf]
    | cons t ts ih =>
      simp only [bodyOf, List.map_cons, List.flatMap_cons] at ih ⊢
      rw [ih]
      by_cases h1 : e' = e <;> by_cases h2 : t.eid = eid <;> simp [h1, h2]
  have ha : ∀ (e : Bool) (a b : List Piece), bodyOf e eid (a ++ b) = bodyOf e eid a ++ bodyOf e eid b := by intro e a b; simp [bodyOf]
  have he : ∀ e : Bool, bodyOf e eid (ts.flatMap fun t => [⟨false, t.eid, t.stdout⟩, ⟨true, t.eid, t.stderr⟩]) = (ts.filter fun t => t.eid = eid).flatMap fun t => if e then t.stderr else t.stdout := by
    intro e
    clear hl hf ha
    induction ts with
    | nil => simp [bodyOf]
    | cons t ts ih =>
      simp only [bodyOf, List.flatMap_cons, List.flatMap_append, List.flatMap_nil] at ih ⊢
      rw [ih]
      by_cases h2 : t.eid = eid <;> cases e <;> simp [h2]
  unfold said
  cases g <;> simp only [hf, ha, hl, he] <;> simp

/-! ### Rich output and values -/

theorem rich_foldl (ts : List Task) (s : Screen) :
    labelled none (ts.foldl richStep s).items = labelled none s.items ++ ts.flatMap (fun t => t.outputs.map fun d => (some t.eid, d)) ∧ values (ts.foldl richStep s).items = values s.items := by
  induction ts generalizing s with
  | nil => simp
  | cons t ts ih =>
    rw [List.foldl_cons]
    obtain ⟨h1, h2⟩ := ih (richStep s t)
    rw [h1, h2]
    unfold richStep showAll show1
    by_cases h : t.outputs = []
    · simp [h]
    · simp [h, labelled_append, cur, cur_append, values_append, labelled_rich, values_rich, values, labelled]

theorem value_foldl (ts : List Task) (s : Screen) :
    labelled none (ts.foldl valueStep s).items = labelled none s.items ∧ values (ts.foldl valueStep s).items = values s.items ++ ts.filterMap (·.result) := by
  induction ts generalizing s with
  | nil => simp
  | cons t ts ih =>
    rw [List.foldl_cons]
    obtain ⟨h1, h2⟩ := ih (valueStep s t)
    rw [h1, h2]
    unfold valueStep
    cases hr : t.result with
    | none => simp [hr]
    | some r => simp [hr, show1, labelled_append, labelled, values_append, values]

theorem pieces_rich (l : List Piece) (s : Screen) : labelled none (l.foldl showPiece s).items = labelled none s.items ∧ values (l.foldl showPiece s).items = values s.items := by
  rw [← labelled_others, showPieces_others, labelled_others, ← values_others, showPieces_others, values_others]
  exact ⟨rfl, rfl⟩

theorem engine_foldl (ts : List Task) (s : Screen) : labelled none (ts.foldl (engineStep true false) s).items = labelled none s.items ++ ts.flatMap (fun t => t.outputs.map fun d => (some t.eid, d)) ∧
    values (ts.foldl (engineStep true false) s).items = values s.items ++ ts.filterMap (·.result) := by
  induction ts generalizing s with
  | nil => simp
  | cons t ts ih =>
    rw [List.foldl_cons]
    obtain ⟨h1, h2⟩ := ih (engineStep true false s t)
    rw [h1, h2]
    have h3 := pieces_rich [outP t, errP t] s
    simp only [List.foldl_cons, List.foldl_nil] at h3
    change labelled none (displayStream (displayStream s t.stdout (pfx false t.eid) false) t.stderr (pfx true t.eid) true).items = _ ∧
      values (displayStream (displayStream s t.stdout (pfx false t.eid) false) t.stderr (pfx true t.eid) true).items = _ at h3
    unfold engineStep
    simp only [Bool.false_eq_true, if_false, Bool.not_true]
    generalize displayStream (displayStream s t.stdout (pfx false t.eid) false) t.stderr (pfx true t.eid) true = s1 at h3 ⊢
    cases hr : t.result with
    | none =>
      by_cases h : t.outputs = []
      · simp [hr, h, h3, showAll]
      · simp [hr, h, h3, showAll, show1, labelled_append, cur_append, cur, values_append, labelled_rich, values_rich, values, labelled]
    | some r =>
      simp [hr, h3, showAll, show1, labelled_append, cur_append, cur, values_append, labelled_rich, values_rich, values, labelled]

/-- **Rich output is shown once**, in order, below a label that names the engine, for `groupby='type'` and `'engine'`; and so is the result of each task that has one. -/
theorem display_outputs_rich (g : GroupBy) (hg : g ≠ .order) (ts : List Task) :
    labelled none (displayOutputs true false g ts {}).items = ts.flatMap (fun t => t.outputs.map fun d => (some t.eid, d)) ∧
    values (displayOutputs true false g ts {}).items = ts.filterMap (·.result) := by
  cases g with
  | order => exact absurd rfl hg
  | engine =>
    have := engine_foldl ts {}
    simpa [displayOutputs, labelled, values] using this
  | type =>
    unfold displayOutputs
    simp only [Bool.false_eq_true, if_false, reduceCtorEq, Bool.not_true]
    rw [(value_foldl ts _).1, (value_foldl ts _).2, (rich_foldl ts _).1, (rich_foldl ts _).2,
      foldl_pieces errP (fun s t => displayStream s t.stderr (pfx true t.eid) true) (fun _ _ => rfl), foldl_pieces outP (fun s t => displayStream s t.stdout (pfx false t.eid) false) (fun _ _ => rfl),
      (pieces_rich _ _).1, (pieces_rich _ _).1, (pieces_rich _ _).2, (pieces_rich _ _).2]
    simp [labelled, values]

/-- `order`: what is shown -/
theorem display_order (ts : List Task) : labelled none (displayOutputs true false .order ts {}).items =
      (List.range (maxOutputs ts)).flatMap (fun i => ts.flatMap fun t => if maxOutputs ts ≤ (outputDict ts t.eid).length then [(some t.eid, (outputDict ts t.eid).getD i 0)] else []) ∧
    values (displayOutputs true false .order ts {}).items = ts.filterMap (·.result) := by
  have hround : ∀ (n i : Nat) (ts ts' : List Task) (c : Option Nat), labelled c (ts'.flatMap fun t => let os := outputDict ts t.eid
      if n ≤ os.length then [Item.label t.eid, Item.rich (os.getD i 0)] else []) = ts'.flatMap (fun t => if n ≤ (outputDict ts t.eid).length then [(some t.eid, (outputDict ts t.eid).getD i 0)] else []) ∧
      values (ts'.flatMap fun t => let os := outputDict ts t.eid
      if n ≤ os.length then [Item.label t.eid, Item.rich (os.getD i 0)] else []) = [] := by
    intro n i ts ts'
    induction ts' with
    | nil => intro c; exact ⟨rfl, rfl⟩
    | cons t ts' ih =>
      intro c
      simp only [List.flatMap_cons, labelled_append, values_append]
      rw [(ih _).1, (ih none).2]
      split <;> simp [labelled, values]
  have hrounds : ∀ (n : Nat) (is : List Nat) (c : Option Nat), labelled c (is.flatMap (orderRound ts n)) =
      is.flatMap (fun i => ts.flatMap fun t => if n ≤ (outputDict ts t.eid).length then [(some t.eid, (outputDict ts t.eid).getD i 0)] else []) ∧ values (is.flatMap (orderRound ts n)) = [] := by
    intro n is
    induction is with
    | nil => intro c; exact ⟨rfl, rfl⟩
    | cons i is ih =>
      intro c
      simp only [List.flatMap_cons, labelled_append, values_append]
      rw [(ih _).1, (ih none).2, orderRound, (hround n i ts ts _).1, (hround n i ts ts none).2]
      exact ⟨rfl, rfl⟩
  unfold displayOutputs
  simp only [Bool.false_eq_true, if_false, if_true, Bool.not_true]
  rw [(value_foldl ts _).1, (value_foldl ts _).2]
  simp only [showAll, labelled_append, values_append]
  rw [(hrounds _ _ _).1, (hrounds _ _ none).2, foldl_pieces errP (fun s t => displayStream s t.stderr (pfx true t.eid) true) (fun _ _ => rfl),
    foldl_pieces outP (fun s t => displayStream s t.stdout (pfx false t.eid) false) (fun _ _ => rfl), (pieces_rich _ _).1, (pieces_rich _ _).1, (pieces_rich _ _).2, (pieces_rich _ _).2]
  simp [labelled, values]

theorem outputDict_of_nodup (ts : List Task) (hn : (ts.map (·.eid)).Nodup) (t : Task) (ht : t ∈ ts) : outputDict ts t.eid = t.outputs := by
  unfold outputDict
  have : ts.reverse.find? (fun t' => t'.eid = t.eid) = some t := by
    cases h : ts.reverse.find? (fun t' => t'.eid = t.eid) with
    | none => have := List.find?_eq_none.1 h t (by simpa using ht); simp at this
    | some t' =>
      have h1 : t'.eid = t.eid := by simpa using List.find?_some h
      have h2 : t' ∈ ts := by simpa using List.mem_of_find?_eq_some h
      have : t' = t := by
        clear h
        induction ts with
        | nil => cases ht
        | cons x ts ih =>
          simp only [List.map_cons, List.nodup_cons] at hn
          rcases List.mem_cons.1 ht with rfl | ht2
          · rcases List.mem_cons.1 h2 with h2 | h2
            · exact h2
            · exact absurd (List.mem_map.2 ⟨t', h2, h1⟩) hn.1
          · rcases List.mem_cons.1 h2 with rfl | h3
            · exact absurd (List.mem_map.2 ⟨t, ht2, h1.symm⟩ : t'.eid ∈ ts.map (·.eid)) hn.1
            · exact ih hn.2 ht2 h3
      rw [this]
  rw [this]; rfl

theorem maxOutputs_ge (ts : List Task) (t : Task) (ht : t ∈ ts) : t.outputs.length ≤ maxOutputs ts := by
  have : ∀ (ts : List Task) (n : Nat), n ≤ ts.foldl (fun n t => max n t.outputs.length) n ∧ ∀ t ∈ ts, t.outputs.length ≤ ts.foldl (fun n t => max n t.outputs.length) n := by
    intro ts
    induction ts with
    | nil => intro n; simp
    | cons x ts ih =>
      intro n
      obtain ⟨h1, h2⟩ := ih (max n x.outputs.length)
      rw [List.foldl_cons]
      refine ⟨by omega, fun t ht => ?_⟩
      rcases List.mem_cons.1 ht with rfl | ht
      · omega
      · exact h2 t ht
  exact (this ts 0).2 t ht

theorem maxOutputs_const (ts : List Task) (n : Nat) (hne : ts ≠ []) (h : ∀ t ∈ ts, t.outputs.length = n) : maxOutputs ts = n := by
  have : ∀ (ts : List Task) (k : Nat), k ≤ n → (∀ t ∈ ts, t.outputs.length = n) → ts.foldl (fun n t => max n t.outputs.length) k ≤ n := by
    intro ts
    induction ts with
    | nil => intro k hk _; exact hk
    | cons x ts ih => intro k hk h; exact ih (max k x.outputs.length) (by have := h x (by simp); omega) fun t ht => h t (by simp [ht])
  have h1 := this ts 0 (by omega) h
  cases ts with
  | nil => exact absurd rfl hne
  | cons x ts =>
    have h2 := maxOutputs_ge (x :: ts) x (by simp)
    have h3 := h x (by simp)
    unfold maxOutputs at h2 ⊢
    omega

/-- `groupby='order'`, tasks on different engines with the same number of outputs: all first outputs, then all second ones, and so on, each below its label. -/
theorem display_order_partial (ts : List Task) (n : Nat) (hn : (ts.map (·.eid)).Nodup) (h : ∀ t ∈ ts, t.outputs.length = n) :
    labelled none (displayOutputs true false .order ts {}).items = (List.range n).flatMap fun i => ts.map fun t => (some t.eid, t.outputs.getD i 0) := by
  rw [(display_order ts).1]
  by_cases hne : ts = []
  · subst hne; simp [maxOutputs]
  · rw [maxOutputs_const ts n hne h]
    congr 1
    funext i
    have : ∀ l : List Task, (∀ t ∈ l, t ∈ ts) → l.flatMap (fun t => if n ≤ (outputDict ts t.eid).length then [(some t.eid, (outputDict ts t.eid).getD i 0)] else []) = l.map fun t => (some t.eid, t.outputs.getD i 0) := by
      intro l
      induction l with
      | nil => intro _; rfl
      | cons t l ih =>
        intro hl
        rw [List.flatMap_cons, ih fun x hx => hl x (by simp [hx]), outputDict_of_nodup ts hn t (hl t (by simp)), if_pos (by rw [h t (hl t (by simp))]; exact Nat.le_refl _)]
        rfl
    exact this ts fun _ h => h

/-- **Violated**: with `groupby='order'` an engine that has fewer outputs than another one does not get any of them shown (asyncresult.py:1033: `len(outputs) >= N` instead of `> i`). -/
theorem display_order_drops_violated (ts : List Task) (hn : (ts.map (·.eid)).Nodup) (t : Task) (ht : t ∈ ts) (h : t.outputs.length < maxOutputs ts) :
    ∀ d, (some t.eid, d) ∉ labelled none (displayOutputs true false .order ts {}).items := by
  intro d hd
  rw [(display_order ts).1] at hd
  obtain ⟨i, _, hd⟩ := List.mem_flatMap.1 hd
  obtain ⟨t', ht', hd⟩ := List.mem_flatMap.1 hd
  split at hd
  · next hle =>
    simp only [List.mem_singleton, Prod.mk.injEq, Option.some.injEq] at hd
    rw [← hd.1, outputDict_of_nodup ts hn t ht] at hle
    omega
  · cases hd

/-- such tasks -/
def exTs : List Task := [⟨0, "a".toList, [], [1, 2], some 5⟩, ⟨1, "b\n".toList, "w".toList, [3], none⟩]
example : (exTs.map (·.eid)).Nodup ∧ exTs[1] ∈ exTs ∧ exTs[1].outputs.length < maxOutputs exTs := by decide
example : labelled none (displayOutputs true false .order exTs {}).items = [(some 0, 1), (some 0, 2)] := by decide
example : labelled none (displayOutputs true false .type exTs {}).items = [(some 0, 1), (some 0, 2), (some 1, 3)] := by decide
example : text (displayOutputs false false .type exTs {}).items = "[stdout:0] \na\n[stdout:1] \nb\n[stderr:1] \nw".toList := by decide +kernel

/-- **Violated**: when the outputs of a result are displayed again, a single engine's text comes without its header (asyncresult.py:907-909: the last prefix is remembered). -/
theorem display_again_violated (g : GroupBy) (ipython : Bool) (t : Task) (ho : t.stdout ≠ []) (he : t.stderr = []) :
    text (displayOutputs ipython false g [t] {}).items = blockText ⟨false, t.eid, t.stdout⟩ ∧
    text (displayOutputs ipython false g [t] (displayOutputs ipython false g [t] {})).items = blockText ⟨false, t.eid, t.stdout⟩ ++ t.stdout := by
  have key : ∀ s : Screen, strip (displayOutputs ipython false g [t] s) = showPiece (strip s) (outP t) := by
    intro s
    have hsk : ∀ s' : Screen, showPiece s' (errP t) = s' := fun s' => showPiece_empty s' _ he
    by_cases hg : g = .engine
    · subst hg
      rw [show displayOutputs ipython false .engine [t] s = [t].foldl (engineStep ipython false) s from rfl, engine_text]
      exact hsk _
    · rw [type_text ipython g hg [t] s]
      exact hsk _
  have h1 : showPiece {} (outP t) = { last := pfx false t.eid, newline := decide (t.stdout.getLast? = some '\n'), items := [.print false (pfx false t.eid ++ ['\n'] ++ t.stdout)] } := by
    unfold showPiece displayStream outP
    simp [ho, pfx_ne]
  have h0 : strip ({} : Screen) = {} := rfl
  constructor
  · rw [← text_strip, key, h0, h1, blockText_eq]; simp [text]
  · rw [← text_strip, key, key, h0, h1, blockText_eq]
    unfold showPiece displayStream outP
    simp [ho, text]

/-- **Violated**: if stdout goes to a file, a header need not be at the beginning of a line there, since the last character printed to stderr counts (asyncresult.py:913-914, :923). -/
theorem header_in_line_violated :
    text ((displayOutputs false false .engine [⟨0, "a".toList, "b\n".toList, [], none⟩, ⟨1, "c".toList, [], [], none⟩] {}).items.filter fun | .print err _ => !err | _ => true) =
      "[stdout:0] \na[stdout:1] \nc".toList := by decide +kernel

/-- `result_only`: no text and no rich output, but the values. -/
theorem display_result_only (g : GroupBy) (ts : List Task) :
    text (displayOutputs true true g ts {}).items = [] ∧ labelled none (displayOutputs true true g ts {}).items = [] ∧ values (displayOutputs true true g ts {}).items = ts.filterMap (·.result) := by
  have hv : ∀ (ts : List Task) (s : Screen), text (ts.foldl valueStep s).items = text s.items := by
    intro ts s; rw [← text_strip, strip_values, text_strip]
  have he : ∀ (ts : List Task) (s : Screen), text (ts.foldl (engineStep true true) s).items = text s.items ∧ labelled none (ts.foldl (engineStep true true) s).items = labelled none s.items ∧
      values (ts.foldl (engineStep true true) s).items = values s.items ++ ts.filterMap (·.result) := by
    intro ts
    induction ts with
    | nil => intro s; simp
    | cons t ts ih =>
      intro s
      rw [List.foldl_cons]
      obtain ⟨h1, h2, h3⟩ := ih (engineStep true true s t)
      rw [h1, h2, h3]
      unfold engineStep
      cases hr : t.result <;> simp [hr, show1, text_append, text, labelled_append, labelled, values_append, values]
  cases g with
  | engine => simpa [displayOutputs, text, labelled, values] using he ts {}
  | type =>
    have := value_foldl ts {}
    refine ⟨by simpa [displayOutputs, text] using hv ts {}, by simpa [displayOutputs, labelled] using this.1, by simpa [displayOutputs, values] using this.2⟩
  | order =>
    have := value_foldl ts {}
    refine ⟨by simpa [displayOutputs, text] using hv ts {}, by simpa [displayOutputs, labelled] using this.1, by simpa [displayOutputs, values] using this.2⟩

/-- A single result: its stdout and stderr without headers, its rich outputs and its value. -/
theorem display_single (t : Task) : text (displaySingle true false t {}).items = t.stdout ++ t.stderr ∧ (labelled none (displaySingle true false t {}).items).map (·.2) = t.outputs ∧
    values (displaySingle true false t {}).items = t.result.toList := by
  unfold displaySingle displayStream
  cases t.result <;> by_cases h1 : t.stdout = [] <;> by_cases h2 : t.stderr = [] <;>
    simp [h1, h2, show1, showAll, text_append, text, labelled_append, labelled, values_append, values, labelled_rich, values_rich, cur] <;> (generalize t.outputs = l; induction l <;> simp_all [text])

end IPP.Display
