import Verif.Client.OutputProps
/-!
# Collected output: the theorems (property C60)
-/
namespace IPP.Output
variable {I : Type} [DecidableEq I]

theorem shown_held {s : St I} {m : I} {r : Nat} (h : s.held m = some r) : shown s m = s.heap r := by simp [shown, h]

theorem run_snoc (pre : List (Ev I)) (m : I) (post : List (Ev I)) (e : Ev I) :
    run (pre ++ .send m :: (post ++ [e])) = step (run (pre ++ .send m :: post)) e := by rw [← run_append]; simp

theorem held_step {m : I} {post : List (Ev I)} {s : St I} {r : Nat} (h : Inv m post s r) : s.held m = some r := by
  rcases h.state with ⟨hl, _⟩ | ⟨hg, _⟩
  · exact hl.held
  · exact hg.held

theorem Story.not_send {m : I} {pre post : List (Ev I)} {e : Ev I} (h : Story m pre (post ++ [e])) : ∀ m', e = .send m' → m' ≠ m := by
  intro m' he hm
  have := h.once
  simp [sends, he, hm] at this

/-- **All output is shown.** While output of a request only arrives before the request is complete, and the user does not purge it, what the user is shown is exactly the messages of this request, each taken into account once and in the order of their arrival, whatever happens to other requests. -/
theorem output_shown_partial {m : I} {pre post : List (Ev I)} (h : Story m pre post) (hp : purged m post = false)
    (hin : ∀ a p b, post = a ++ .iopub true m p :: b → complete m a = false) :
    shown (run (pre ++ .send m :: post)) m = (pubs m post).foldl Md.add {} := by
  revert h hp hin
  induction post using snoc_induction with
  | nil =>
    intro h _ _
    have hu : Unknown (run pre) m := unknown_run pre _ h.fresh ⟨rfl, rfl, rfl⟩
    rcases inv_send (wf_run pre) hu with ⟨r, h1, h2⟩
    rw [run_append, shown_held (held_step h1), h2]
    rfl
  | snoc post e ih =>
    intro h hp hin
    have hp' : purged m post = false := by
      rw [purged_append, Bool.or_eq_false_iff] at hp; exact hp.1
    have ih' := ih h.prefix hp' (fun a p b he => hin a p (b ++ [e]) (by rw [he]; simp))
    rcases inv_run post h.prefix with ⟨r, h1, h2⟩
    have h3 := inv_step h1 h.not_send
    rw [run_snoc, shown_held (held_step h3.1), h3.2, pubs_append, List.foldl_append, ← ih', shown_held h2]
    split
    · rfl
    · rename_i hg
      have : pubs m [e] = [] := by
        cases e with
        | iopub own m' p =>
          cases own with
          | false => simp [pubs]
          | true =>
            by_cases hm : m' = m
            · subst hm
              exfalso
              have hc := hin post p [] rfl
              rcases h1.state with ⟨hl, _⟩ | ⟨_, hres, ho⟩
              · exact hg hl.table
              · rcases ho with ho | ho
                · have hs := h1.sound ho
                  have hr := h1.res
                  rw [hres] at hr
                  simp only [complete, silent_eq, Bool.and_eq_false_iff, Bool.or_eq_false_iff] at hc
                  rcases hc with hc | ⟨hc1, hc2⟩
                  · rw [← hr] at hc; cases hc
                  · rcases hs with hs | hs
                    · rw [hc1] at hs; cases hs
                    · rw [hc2] at hs; cases hs
                · rw [hp'] at ho; cases ho
            · simp [pubs, hm]
        | _ => simp [pubs]
      rw [this]
      rfl

/-- **`wait_for_output` does not return early**: a reply has come, and either an engine has announced the end of the output or a reply says that there is none. -/
theorem wait_for_output_sound {m : I} {pre post : List (Ev I)} (h : Story m pre post)
    (hr : outputReady (run (pre ++ .send m :: post)) [m] = true) : complete m post = true := by
  rcases inv_run post h with ⟨r, h1, _⟩
  simp only [outputReady, List.all_cons, List.all_nil, Bool.and_true, Bool.and_eq_true] at hr
  have h2 := h1.res
  rw [hr.1] at h2
  simp only [complete, silent_eq, Bool.and_eq_true, Bool.or_eq_true]
  exact ⟨h2.symm, h1.sound hr.2⟩

/-- **`wait_for_output` returns** once the request is complete (not purged, at most one reply). -/
theorem wait_for_output_done_partial {m : I} {pre post : List (Ev I)} (h : Story m pre post) (hp : purged m post = false)
    (h1 : (replies m post).length ≤ 1) (hc : complete m post = true) : outputReady (run (pre ++ .send m :: post)) [m] = true := by
  rcases inv_run post h with ⟨r, hi, _⟩
  simp only [complete, silent_eq, Bool.and_eq_true, Bool.or_eq_true] at hc
  simp only [outputReady, List.all_cons, List.all_nil, Bool.and_true, Bool.and_eq_true]
  refine ⟨by rw [hi.res]; exact hc.1, ?_⟩
  rcases hi.state with ⟨_, _, h2, h3⟩ | ⟨_, _, ho⟩
  · rcases hc.2 with hc | hc
    · exact h2 hc
    · cases hq : replies m post with
      | nil => rw [hq] at hc; cases hc
      | cons k l =>
        cases l with
        | cons k' l => rw [hq] at h1; simp at h1
        | nil =>
          rw [hq] at hc
          exact h3 k (by rw [hq]; rfl) (by simpa using hc)
  · rcases ho with ho | ho
    · exact ho
    · rw [hp] at ho; cases ho

theorem gone_of_ready {m : I} {post : List (Ev I)} {s : St I} {r : Nat} (h : Inv m post s r) (hr : outputReady s [m] = true) : Gone s m r := by
  simp only [outputReady, List.all_cons, List.all_nil, Bool.and_true, Bool.and_eq_true] at hr
  rcases h.state with ⟨_, h2, _⟩ | ⟨hg, _⟩
  · exact absurd hr h2
  · exact hg

theorem gone_step {m : I} {post : List (Ev I)} {s : St I} {r : Nat} (h : Inv m post s r) (hg : Gone s m r) {e : Ev I} (he : ∀ m', e = .send m' → m' ≠ m) :
    Inv m (post ++ [e]) (step s e) r ∧ Gone (step s e) m r ∧ (step s e).heap r = s.heap r := by
  have h1 := inv_step h he
  refine ⟨h1.1, ?_, ?_⟩
  · rcases h1.1.state with ⟨hl, _⟩ | ⟨hg', _⟩
    · exfalso
      cases ha : about m e with
      | false => exact (same_step s e ha h.lt h.own).others m (hg.table m) hl.table
      | true =>
        have hf := hl.fut
        have hgf := hg.fut
        cases e with
        | send m' => simp only [about, decide_eq_true_eq] at ha; exact he m' rfl ha
        | iopub own m' p =>
          have h3 : ((step s (.iopub own m' p)).futures m = true) → s.futures m = true := by
            simp only [step, iopub]
            split
            · exact id
            · split
              · exact id
              · exact id
              · simp only [resolveOutput]
                split
                · split
                  · simp only [cleanup, set]; split <;> simp_all
                  · exact id
                · exact id
              · simp only [touch]
                split <;> exact id
          rw [h3 hf] at hgf; cases hgf
        | reply ex m' k =>
          simp only [about, decide_eq_true_eq] at ha
          subst ha
          have h3 := (h.reply ex k).1
          rcases h3.state with ⟨hl', _⟩ | ⟨hg', _⟩
          · have h4 : ∀ (s1 : St I), s1.futures m' = false → (touch s1 m').1.futures m' = false := by
              intro s1 h1; simp only [touch]; split <;> exact h1
            have h5 : ∀ (s1 : St I), s1.futures m' = false → (resolveOutput s1 m').futures m' = false := by
              intro s1 h1; simp only [resolveOutput]; split
              · split
                · exact set_eq
                · exact h1
              · exact h1
            have h6 : (step s (.reply ex m' k)).futures m' = false := by
              simp only [step, IPP.Output.reply]
              split
              · exact hgf
              · rw [hgf]
                simp only [resolveResult, Bool.false_eq_true, false_and, if_false]
                split
                · apply h5; exact h4 _ hgf
                · exact h4 _ hgf
            rw [h6] at hf; cases hf
          · exact hg'.table m' hl.table
        | popResult m' => simp [about] at ha
        | purge ms =>
          simp only [about, decide_eq_true_eq] at ha
          simp only [step, IPP.Output.purge] at hf
          split at hf
          · rw [hgf] at hf; cases hf
          · rw [(cleanup_foldl_not_mem ha s).2.1] at hf; cases hf
    · exact hg'
  · rw [h1.2, if_neg (hg.table m)]

/-- **Once `wait_for_output` has returned, the output that is shown does not change any more**, whatever arrives afterwards. -/
theorem output_frozen {m : I} {pre post more : List (Ev I)} (h : Story m pre (post ++ more))
    (hr : outputReady (run (pre ++ .send m :: post)) [m] = true) :
    shown (run (pre ++ .send m :: (post ++ more))) m = shown (run (pre ++ .send m :: post)) m := by
  have gen : ∀ more : List (Ev I), Story m pre (post ++ more) → ∃ r, Inv m (post ++ more) (run (pre ++ .send m :: (post ++ more))) r ∧
      Gone (run (pre ++ .send m :: (post ++ more))) m r ∧ (run (pre ++ .send m :: post)).held m = some r ∧
      (run (pre ++ .send m :: (post ++ more))).heap r = (run (pre ++ .send m :: post)).heap r := by
    intro more
    induction more using snoc_induction with
    | nil =>
      intro h
      rw [List.append_nil] at h ⊢
      rcases inv_run post h with ⟨r, h1, h2⟩
      exact ⟨r, h1, gone_of_ready h1 hr, h2, rfl⟩
    | snoc more e ih =>
      intro h
      rw [← List.append_assoc] at h ⊢
      rcases ih h.prefix with ⟨r, h1, hg, h2, h3⟩
      have h4 := gone_step h1 hg h.not_send
      rw [run_snoc]
      exact ⟨r, h4.1, h4.2.1, h2, h4.2.2.trans h3⟩
  rcases gen more h with ⟨r, h1, hg, h2, h3⟩
  rw [shown_held hg.held, shown_held h2, h3]

/-! ### field by field -/

theorem fold_stdout (ps : List Pub) : ∀ md : Md, (ps.foldl Md.add md).stdout =
    (ps.filterMap (Pub.text false)).foldl addText md.stdout := by
  induction ps with
  | nil => intro md; rfl
  | cons p ps ih =>
    intro md
    rw [List.foldl_cons, ih]
    cases p with
    | stream e t => cases e <;> simp [Md.add, Pub.text, Pub.displayed, Pub.raised, Pub.value, List.filterMap_cons]
    | _ => simp [Md.add, Pub.text, Pub.displayed, Pub.raised, Pub.value, List.filterMap_cons]

theorem fold_stderr (ps : List Pub) : ∀ md : Md, (ps.foldl Md.add md).stderr =
    (ps.filterMap (Pub.text true)).foldl addText md.stderr := by
  induction ps with
  | nil => intro md; rfl
  | cons p ps ih =>
    intro md
    rw [List.foldl_cons, ih]
    cases p with
    | stream e t => cases e <;> simp [Md.add, Pub.text, Pub.displayed, Pub.raised, Pub.value, List.filterMap_cons]
    | _ => simp [Md.add, Pub.text, Pub.displayed, Pub.raised, Pub.value, List.filterMap_cons]

theorem fold_outputs (ps : List Pub) : ∀ md : Md, (ps.foldl Md.add md).outputs =
    md.outputs ++ ps.filterMap Pub.displayed := by
  induction ps with
  | nil => intro md; simp
  | cons p ps ih =>
    intro md
    rw [List.foldl_cons, ih]
    cases p with
    | stream e t => cases e <;> simp [Md.add, Pub.text, Pub.displayed, Pub.raised, Pub.value, List.filterMap_cons]
    | _ => simp [Md.add, Pub.text, Pub.displayed, Pub.raised, Pub.value, List.filterMap_cons]

theorem fold_error (ps : List Pub) : ∀ md : Md, (ps.foldl Md.add md).error =
    ((ps.filterMap Pub.raised).getLast?).or md.error := by
  induction ps with
  | nil => intro md; simp
  | cons p ps ih =>
    intro md
    rw [List.foldl_cons, ih]
    cases p with
    | stream e t => cases e <;> simp [Md.add, Pub.text, Pub.displayed, Pub.raised, Pub.value, List.filterMap_cons]
    | error e =>
      simp only [Md.add, Pub.raised, Pub.value, List.filterMap_cons, List.getLast?_cons]
      cases (List.filterMap Pub.raised ps).getLast? <;> rfl
    | _ => simp [Md.add, Pub.text, Pub.displayed, Pub.raised, Pub.value, List.filterMap_cons]

theorem fold_result (ps : List Pub) : ∀ md : Md, (ps.foldl Md.add md).result =
    ((ps.filterMap Pub.value).getLast?).or md.result := by
  induction ps with
  | nil => intro md; simp
  | cons p ps ih =>
    intro md
    rw [List.foldl_cons, ih]
    cases p with
    | stream e t => cases e <;> simp [Md.add, Pub.text, Pub.displayed, Pub.raised, Pub.value, List.filterMap_cons]
    | result e =>
      simp only [Md.add, Pub.raised, Pub.value, List.filterMap_cons, List.getLast?_cons]
      cases (List.filterMap Pub.value ps).getLast? <;> rfl
    | _ => simp [Md.add, Pub.text, Pub.displayed, Pub.raised, Pub.value, List.filterMap_cons]

theorem fold_input (ps : List Pub) : ∀ md : Md, (ps.foldl Md.add md).input =
    ((ps.filterMap Pub.code).getLast?).or md.input := by
  induction ps with
  | nil => intro md; simp
  | cons p ps ih =>
    intro md
    rw [List.foldl_cons, ih]
    cases p with
    | stream e t => cases e <;> simp [Md.add, Pub.code, List.filterMap_cons]
    | input e =>
      simp only [Md.add, Pub.code, List.filterMap_cons, List.getLast?_cons]
      cases (List.filterMap Pub.code ps).getLast? <;> rfl
    | _ => simp [Md.add, Pub.code, List.filterMap_cons]

/-! ### text -/

/-- without carriage returns, the stream is the text that was written -/
theorem stream_plain (ts : List Text) (h : ∀ t ∈ ts, '\r' ∉ t) : ∀ acc, ts.foldl addText acc = acc ++ ts.flatten := by
  induction ts with
  | nil => intro acc; simp
  | cons t ts ih =>
    intro acc
    rw [List.foldl_cons, ih (fun t' h' => h t' (by simp [h']))]
    simp [addText, h t (by simp)]

/-- however the text is divided into messages, the stream differs from the text at most by parts of lines before a carriage return -/
theorem stream_sub (ts : List Text) : ∀ acc, Cr.sub (ts.foldl addText acc) = Cr.sub (acc ++ ts.flatten) := by
  induction ts with
  | nil => intro acc; simp
  | cons t ts ih =>
    intro acc
    rw [List.foldl_cons, ih, List.flatten_cons]
    unfold addText
    split
    · rw [Cr.sub_append]; simp
    · simp

/-- exactly: lines are collapsed up to the last message with a carriage return, and what follows it is appended -/
theorem stream_exact (a : List Text) (t : Text) (b : List Text) (ht : '\r' ∈ t) (hb : ∀ x ∈ b, '\r' ∉ x) (acc : Text) :
    (a ++ t :: b).foldl addText acc = Cr.sub (acc ++ (a ++ [t]).flatten) ++ b.flatten := by
  rw [List.foldl_append, List.foldl_cons, stream_plain b hb]
  congr 1
  rw [addText, if_pos ht]
  have h1 := stream_sub a acc
  have h2 := Cr.sub_append (a.foldl addText acc) t
  rw [h1, Cr.sub_append] at h2
  rw [← h2]
  simp

/-- **stdout is what the request printed** (no carriage returns) -/
theorem stdout_shown_partial {m : I} {pre post : List (Ev I)} (h : Story m pre post) (hp : purged m post = false)
    (hin : ∀ a p b, post = a ++ .iopub true m p :: b → complete m a = false) (hcr : ∀ t ∈ texts false m post, '\r' ∉ t) :
    (shown (run (pre ++ .send m :: post)) m).stdout = (texts false m post).flatten := by
  rw [output_shown_partial h hp hin, fold_stdout]
  have := stream_plain (texts false m post) hcr []
  simpa [texts] using this

theorem stderr_shown_partial {m : I} {pre post : List (Ev I)} (h : Story m pre post) (hp : purged m post = false)
    (hin : ∀ a p b, post = a ++ .iopub true m p :: b → complete m a = false) (hcr : ∀ t ∈ texts true m post, '\r' ∉ t) :
    (shown (run (pre ++ .send m :: post)) m).stderr = (texts true m post).flatten := by
  rw [output_shown_partial h hp hin, fold_stderr]
  have := stream_plain (texts true m post) hcr []
  simpa [texts] using this

/-- with carriage returns: the same after collapsing -/
theorem stdout_collapsed_partial {m : I} {pre post : List (Ev I)} (h : Story m pre post) (hp : purged m post = false)
    (hin : ∀ a p b, post = a ++ .iopub true m p :: b → complete m a = false) :
    Cr.sub (shown (run (pre ++ .send m :: post)) m).stdout = Cr.sub (texts false m post).flatten := by
  rw [output_shown_partial h hp hin, fold_stdout]
  have := stream_sub (texts false m post) []
  simpa [texts] using this

/-- **rich output**: everything displayed, in order -/
theorem displays_shown_partial {m : I} {pre post : List (Ev I)} (h : Story m pre post) (hp : purged m post = false)
    (hin : ∀ a p b, post = a ++ .iopub true m p :: b → complete m a = false) :
    (shown (run (pre ++ .send m :: post)) m).outputs = (pubs m post).filterMap Pub.displayed := by
  rw [output_shown_partial h hp hin, fold_outputs]; rfl

/-- the pairs of a `data_pub` message -/
def Pub.published : Pub → List (Nat × Nat)
  | .data kv => kv
  | _ => []

/-- the value of a key in a dictionary -/
def valueOf (k : Nat) (d : List (Nat × Nat)) : Option Nat := (d.find? (fun q => q.1 = k)).map (·.2)

theorem valueOf_update (k : Nat) (kv : List (Nat × Nat)) : ∀ d, valueOf k (update d kv) = (valueOf k kv.reverse).or (valueOf k d) := by
  induction kv with
  | nil => intro d; simp [update, valueOf]
  | cons x kv ih =>
    intro d
    have e : update d (x :: kv) = update ((x.1, x.2) :: d.filter (fun q => q.1 ≠ x.1)) kv := rfl
    rw [e, ih, List.reverse_cons]
    have h1 : valueOf k ((x.1, x.2) :: d.filter (fun q => q.1 ≠ x.1)) = if x.1 = k then some x.2 else valueOf k d := by
      unfold valueOf
      rw [List.find?_cons]
      by_cases hx : x.1 = k
      · simp [hx]
      · simp only [hx, decide_false, if_false]
        rw [List.find?_filter]
        congr 2
        funext q
        by_cases hq : q.1 = k <;> simp [hq]
        exact fun h => hx h.symm
    have h2 : valueOf k (kv.reverse ++ [x]) = (valueOf k kv.reverse).or (if x.1 = k then some x.2 else none) := by
      unfold valueOf
      rw [List.find?_append]
      cases kv.reverse.find? (fun q => decide (q.1 = k)) with
      | some q => rfl
      | none => by_cases hx : x.1 = k <;> simp [hx]
    rw [h1, h2]
    cases valueOf k kv.reverse with
    | some q => rfl
    | none => by_cases hx : x.1 = k <;> simp [hx]

theorem fold_data (k : Nat) (ps : List Pub) : ∀ md : Md, valueOf k (ps.foldl Md.add md).data = (valueOf k (ps.flatMap Pub.published).reverse).or (valueOf k md.data) := by
  induction ps with
  | nil => intro md; simp [valueOf]
  | cons p ps ih =>
    intro md
    rw [List.foldl_cons, ih]
    cases p with
    | data kv =>
      have e : valueOf k (List.flatMap Pub.published (.data kv :: ps)).reverse = (valueOf k (ps.flatMap Pub.published).reverse).or (valueOf k kv.reverse) := by
        simp only [List.flatMap_cons, Pub.published, List.reverse_append, valueOf, List.find?_append]
        cases (List.flatMap Pub.published ps).reverse.find? (fun q => decide (q.1 = k)) <;> rfl
      rw [e, Option.or_assoc]
      congr 1
      exact valueOf_update k kv md.data
    | stream e t => cases e <;> rfl
    | _ => rfl

/-- **published data**: a key has the value published last -/
theorem data_shown_partial {m : I} {pre post : List (Ev I)} (h : Story m pre post) (hp : purged m post = false)
    (hin : ∀ a p b, post = a ++ .iopub true m p :: b → complete m a = false) (k : Nat) :
    valueOf k (shown (run (pre ++ .send m :: post)) m).data = valueOf k ((pubs m post).flatMap Pub.published).reverse := by
  rw [output_shown_partial h hp hin, fold_data]
  exact Option.or_none

/-- **`ar.metadata` error and execute result**: the last one that was published -/
theorem error_result_shown_partial {m : I} {pre post : List (Ev I)} (h : Story m pre post) (hp : purged m post = false)
    (hin : ∀ a p b, post = a ++ .iopub true m p :: b → complete m a = false) :
    (shown (run (pre ++ .send m :: post)) m).error = ((pubs m post).filterMap Pub.raised).getLast? ∧
    (shown (run (pre ++ .send m :: post)) m).result = ((pubs m post).filterMap Pub.value).getLast? := by
  rw [output_shown_partial h hp hin, fold_error, fold_result]
  exact ⟨Option.or_none, Option.or_none⟩

/-- **`ar.execute_input`**: the code that was published last -/
theorem input_shown_partial {m : I} {pre post : List (Ev I)} (h : Story m pre post) (hp : purged m post = false)
    (hin : ∀ a p b, post = a ++ .iopub true m p :: b → complete m a = false) :
    (shown (run (pre ++ .send m :: post)) m).input = ((pubs m post).filterMap Pub.code).getLast? := by
  rw [output_shown_partial h hp hin, fold_input]
  exact Option.or_none

theorem pubs_fresh {m : I} {pre : List (Ev I)} (h : ∀ e ∈ pre, about m e = false) : pubs m pre = [] := by
  simp only [pubs, List.filterMap_eq_nil_iff]
  intro e he
  have := h e he
  cases e with
  | iopub own m' p => cases own <;> simp_all [about]
  | _ => rfl

/-- **`ar.stdout`**: one entry for each request, in the order of the requests of the `AsyncResult`, each the text of its own request, however the messages of the requests are interleaved. -/
theorem ar_stdout_partial {ms : List I} {evs : List (Ev I)}
    (h : ∀ m ∈ ms, ∃ pre post, evs = pre ++ .send m :: post ∧ Story m pre post ∧ purged m post = false ∧
      (∀ a p b, post = a ++ .iopub true m p :: b → complete m a = false) ∧ ∀ t ∈ texts false m post, '\r' ∉ t) :
    arStdout (run evs) ms = ms.map (fun m => (texts false m evs).flatten) := by
  apply List.map_congr_left
  intro m hm
  rcases h m hm with ⟨pre, post, rfl, h1, h2, h3, h4⟩
  rw [stdout_shown_partial h1 h2 h3 h4]
  congr 1
  simp only [texts]
  congr 1
  rw [pubs_append, pubs_fresh h1.fresh]
  simp [pubs]

/-- **`ar.wait_for_output()` of several requests** returns exactly when all of them are complete. -/
theorem ar_wait_for_output_partial {ms : List I} {evs : List (Ev I)}
    (h : ∀ m ∈ ms, ∃ pre post, evs = pre ++ .send m :: post ∧ Story m pre post ∧ purged m post = false ∧ (replies m post).length ≤ 1) :
    outputReady (run evs) ms = true ↔ ∀ m ∈ ms, complete m evs = true := by
  have hc : ∀ m ∈ ms, (outputReady (run evs) [m] = true ↔ complete m evs = true) := by
    intro m hm
    rcases h m hm with ⟨pre, post, rfl, h1, h2, h3⟩
    have hr0 : replies m pre = [] := by
      simp only [replies, List.filterMap_eq_nil_iff]
      intro e he
      have := h1.fresh e he
      cases e with
      | reply ex m' k => simp_all [about]
      | _ => rfl
    have e1 : replies m (pre ++ .send m :: post) = replies m post := by
      rw [replies_append, hr0]; simp [replies]
    have e2 : idle m (pre ++ .send m :: post) = idle m post := by
      simp only [idle]
      rw [pubs_append, pubs_fresh h1.fresh]
      simp [pubs]
    have e3 : complete m (pre ++ .send m :: post) = complete m post := by simp only [complete, e1, e2]
    rw [e3]
    exact ⟨wait_for_output_sound h1, wait_for_output_done_partial h1 h2 h3⟩
  constructor
  · intro hr m hm
    rw [← hc m hm]
    simp only [outputReady, List.all_eq_true] at hr ⊢
    intro x hx
    simp only [List.mem_singleton] at hx
    subst hx
    exact hr x hm
  · intro hr
    simp only [outputReady, List.all_eq_true]
    intro m hm
    have := (hc m hm).2 (hr m hm)
    simpa [outputReady] using this

end IPP.Output
