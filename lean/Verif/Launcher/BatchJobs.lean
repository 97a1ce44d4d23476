import Verif.Launcher.BatchMain
/-!
# C88: the commands that are run, and the job they are about
-/
namespace IPP.Batch
open IPP.Shell (Str)

/-! ## the job id -/

/-- characters other than digits, at the beginning -/
abbrev skip (s : Str) : Str := s.dropWhile (fun c => !isDigit c)

theorem plusEnds_head (p : Nat → Bool) (c : Nat) (r : Str) (h : p c = true) : ∃ rs, plusEnds p (c :: r) = (c :: r).dropWhile p :: rs := by
  induction r generalizing c with
  | nil => exact ⟨[], by simp [plusEnds, h]⟩
  | cons d r ih =>
    simp only [plusEnds, h, if_true]
    by_cases hd : p d = true
    · obtain ⟨rs, hrs⟩ := ih d hd
      simp only [plusEnds, hd, if_true] at hrs
      simp only [hd, if_true, hrs]
      refine ⟨rs ++ [d :: r], ?_⟩
      simp [List.dropWhile, h, hd]
    · exact ⟨[], by simp [hd, List.dropWhile, h]⟩

theorem take_dropWhile (p : Nat → Bool) (s : Str) : s.take (s.length - (s.dropWhile p).length) = s.takeWhile p := by
  have h := List.takeWhile_append_dropWhile (p := p) (l := s)
  have hl : s.length - (s.dropWhile p).length = (s.takeWhile p).length := by
    have := congrArg List.length h
    rw [List.length_append] at this
    omega
  rw [hl]
  calc s.take (s.takeWhile p).length = (s.takeWhile p ++ s.dropWhile p).take (s.takeWhile p).length := by rw [h]
    _ = s.takeWhile p := List.take_left

/-- the first number -/
theorem search_first (s : Str) : (JobRe.search { grp := .plus isDigit, post := .eps, inner := false } s) = if skip s = [] then none else some ((skip s).takeWhile isDigit) := by
  induction s with
  | nil => rfl
  | cons c r ih =>
    by_cases h : isDigit c = true
    · obtain ⟨rs, hrs⟩ := plusEnds_head isDigit c r h
      rw [JobRe.search, show Re.ends (.plus isDigit) (c :: r) = plusEnds isDigit (c :: r) from rfl, hrs]
      have hsk : skip (c :: r) = c :: r := by simp [skip, List.dropWhile, h]
      rw [hsk]
      simp only [JobRe.first, Re.ends, if_neg (List.cons_ne_nil c r), Bool.false_eq_true, if_false]
      rw [take_dropWhile]
    · have hsk : skip (c :: r) = skip r := by simp [skip, List.dropWhile, h]
      rw [JobRe.search, show Re.ends (.plus isDigit) (c :: r) = plusEnds isDigit (c :: r) from rfl]
      simp only [plusEnds, h, Bool.false_eq_true, if_false, JobRe.first]
      rw [ih, hsk]

/-- what must follow the job id of HTCondor -/
abbrev condorRe : JobRe := { grp := .plus isDigit, post := .seq (lit l!".") .eol, inner := true }

theorem condor_post (r : Str) : condorRe.post.ends r = if r = l!"." then [[]] else if r = l!".\n" then [[10]] else [] := by
  cases r with
  | nil => rfl
  | cons c r =>
    by_cases hc : c = 46
    · subst hc
      show (if r = [] ∨ r = [10] then [r] else []) ++ [] = _
      by_cases h1 : r = []
      · subst h1; rfl
      · by_cases h2 : r = [10]
        · subst h2; rfl
        · simp [h1, h2]
    · simp [Re.ends, lit, hc]

/-- the rests after some digits -/
theorem condor_first (ds : Str) (hd : ∀ c ∈ ds, isDigit c = true) (e : Str) (he : ∀ c, e.head? = some c → isDigit c = false) (hne : ds ≠ []) :
    ∃ mid, plusEnds isDigit (ds ++ e) = e :: mid ∧ ∀ r ∈ mid, ∃ c t, r = c :: t ∧ isDigit c = true := by
  induction ds with
  | nil => exact absurd rfl hne
  | cons c ds ih =>
    have hc := hd c List.mem_cons_self
    by_cases h0 : ds = []
    · subst h0
      refine ⟨[], ?_, by simp⟩
      simp only [List.singleton_append, plusEnds, hc, if_true]
      cases e with
      | nil => rfl
      | cons x e => simp [plusEnds, he x rfl]
    · obtain ⟨mid, h1, h2⟩ := ih (fun x hx => hd x (List.mem_cons_of_mem _ hx)) h0
      refine ⟨mid ++ [ds ++ e], by simp [plusEnds, hc, h1], ?_⟩
      intro r hr
      rcases List.mem_append.1 hr with hr | hr
      · exact h2 r hr
      · rw [List.mem_singleton] at hr
        obtain ⟨x, ds', rfl⟩ := List.exists_cons_of_ne_nil h0
        exact ⟨x, ds' ++ e, by simpa using hr, hd x (List.mem_cons_of_mem _ List.mem_cons_self)⟩

theorem first_none (l : List Str) (h : ∀ r ∈ l, ∃ c t, r = c :: t ∧ isDigit c = true) : condorRe.first l = none := by
  induction l with
  | nil => rfl
  | cons r l ih =>
    obtain ⟨c, t, rfl, hc⟩ := h r List.mem_cons_self
    have : condorRe.post.ends (c :: t) = [] := by
      rw [condor_post]
      have hne : c ≠ 46 := by intro e; subst e; exact absurd hc (by decide)
      simp [hne]
    simp only [JobRe.first, this]
    exact ih (fun x hx => h x (List.mem_cons_of_mem _ hx))

/-- HTCondor: at a position, the digits must be followed by the full stop at the end -/
theorem condor_here (c : Nat) (r : Str) : condorRe.first (plusEnds isDigit (c :: r)) =
    if isDigit c = true ∧ ((c :: r).dropWhile isDigit = l!"." ∨ (c :: r).dropWhile isDigit = l!".\n") then
      some ((c :: r).dropWhile isDigit, ((c :: r).dropWhile isDigit).tail) else none := by
  by_cases hc : isDigit c = true
  · have hsplit := List.takeWhile_append_dropWhile (p := isDigit) (l := c :: r)
    have hne : (c :: r).takeWhile isDigit ≠ [] := by simp [List.takeWhile, hc]
    have hd : ∀ x ∈ (c :: r).takeWhile isDigit, isDigit x = true := List.all_eq_true.1 List.all_takeWhile
    have he : ∀ x, ((c :: r).dropWhile isDigit).head? = some x → isDigit x = false := by
      intro x hx
      have := List.head?_dropWhile_not isDigit (c :: r)
      rw [hx] at this
      simpa using this
    obtain ⟨mid, h1, h2⟩ := condor_first _ hd _ he hne
    rw [hsplit] at h1
    rw [h1]
    generalize (c :: r).dropWhile isDigit = e at *
    simp only [hc, true_and]
    by_cases e1 : e = l!"."
    · subst e1; rfl
    · by_cases e2 : e = l!".\n"
      · subst e2; rfl
      · rw [if_neg (fun h => h.elim e1 e2)]
        have : condorRe.post.ends e = [] := by rw [condor_post, if_neg e1, if_neg e2]
        simp only [JobRe.first, this]
        exact first_none mid h2
  · simp [plusEnds, hc, JobRe.first]

theorem condor_step (c : Nat) (r : Str) : condorRe.search (c :: r) =
    if isDigit c = true ∧ ((c :: r).dropWhile isDigit = l!"." ∨ (c :: r).dropWhile isDigit = l!".\n") then some ((c :: r).takeWhile isDigit) else condorRe.search r := by
  rw [JobRe.search, show Re.ends condorRe.grp (c :: r) = plusEnds isDigit (c :: r) from rfl, condor_here]
  by_cases h : isDigit c = true ∧ ((c :: r).dropWhile isDigit = l!"." ∨ (c :: r).dropWhile isDigit = l!".\n")
  · rw [if_pos h, if_pos h]
    simp only [if_true]
    rw [take_dropWhile]
  · rw [if_neg h, if_neg h]

/-- the number before the full stop at the end -/
theorem condor_search (s i : Str) : condorRe.search s = some i ↔
    i ≠ [] ∧ (∀ c ∈ i, isDigit c = true) ∧ ∃ pre e, s = pre ++ i ++ e ∧ (e = l!"." ∨ e = l!".\n") ∧ ∀ c, pre.getLast? = some c → isDigit c = false := by
  induction s with
  | nil =>
    constructor
    · intro h; cases h
    · rintro ⟨hne, -, pre, e, h, -⟩
      have := congrArg List.length h
      simp only [List.length_append, List.length_nil] at this
      exact absurd (List.length_eq_zero_iff.1 (by omega)) hne
  | cons c r ih =>
    rw [condor_step]
    by_cases h : isDigit c = true ∧ ((c :: r).dropWhile isDigit = l!"." ∨ (c :: r).dropWhile isDigit = l!".\n")
    · rw [if_pos h]
      have hsplit := List.takeWhile_append_dropWhile (p := isDigit) (l := c :: r)
      constructor
      · intro e
        cases e
        refine ⟨by simp [List.takeWhile, h.1], List.all_eq_true.1 List.all_takeWhile, [], _, ?_, h.2, by simp⟩
        rw [List.nil_append]; exact hsplit.symm
      · rintro ⟨hne, hd, pre, e, hs, he, hp⟩
        -- all of the text but the end are digits, so nothing can be before
        have hds : ∀ x ∈ (c :: r).takeWhile isDigit, isDigit x = true := List.all_eq_true.1 List.all_takeWhile
        have hend : (c :: r).dropWhile isDigit = e ∧ (c :: r).takeWhile isDigit = pre ++ i := by
          have h46 : ∀ x : Nat, isDigit x = true → x ≠ 46 ∧ x ≠ 10 := by
            intro x hx; constructor <;> (intro e; subst e; exact absurd hx (by decide))
          have heq : (c :: r).takeWhile isDigit ++ (c :: r).dropWhile isDigit = (pre ++ i) ++ e := by rw [hsplit, hs]
          have hll : ((c :: r).dropWhile isDigit).getLast? = e.getLast? := by
            have := congrArg List.getLast? heq
            rcases h.2 with h2 | h2 <;> rcases he with rfl | rfl <;> simp [h2] at this ⊢
          have : (c :: r).dropWhile isDigit = e := by
            rcases h.2 with h2 | h2 <;> rcases he with rfl | rfl <;> rw [h2] at hll ⊢ <;> simp at hll
          rw [this] at heq
          exact ⟨this, List.append_cancel_right heq⟩
        have hpre : pre = [] := by
          rcases List.eq_nil_or_concat pre with h0 | ⟨p', x, rfl⟩
          · exact h0
          · have h1 := hp x (by simp)
            have h2 := hds x (by rw [hend.2]; simp)
            rw [h1] at h2; cases h2
        rw [hend.2, hpre]; rfl
    · rw [if_neg h, ih]
      constructor
      · rintro ⟨hne, hd, pre, e, hs, he, hp⟩
        refine ⟨hne, hd, c :: pre, e, by simp [hs], he, ?_⟩
        intro x hx
        cases pre with
        | cons y pre => exact hp x (by simpa using hx)
        | nil =>
          simp at hx
          subst hx
          -- otherwise the digits would begin here
          refine Bool.eq_false_iff.2 fun hc => h ⟨hc, ?_⟩
          have e1 : (c :: r).dropWhile isDigit = e := by
            rw [hs, List.nil_append, ← List.cons_append, List.dropWhile_append_of_pos]
            · rcases he with rfl | rfl <;> rfl
            · intro x hx
              rcases List.mem_cons.1 hx with rfl | hx
              · exact hc
              · exact hd x hx
          rw [e1]; exact he
      · rintro ⟨hne, hd, pre, e, hs, he, hp⟩
        cases pre with
        | cons y pre =>
          simp only [List.cons_append, List.cons.injEq] at hs
          refine ⟨hne, hd, pre, e, hs.2, he, ?_⟩
          intro x hx
          exact hp x (by rw [List.getLast?_cons, hx]; rfl)
        | nil =>
          exfalso
          obtain ⟨x, i', rfl⟩ := List.exists_cons_of_ne_nil hne
          simp only [List.nil_append, List.cons_append, List.cons.injEq] at hs
          refine h ⟨hs.1 ▸ hd x List.mem_cons_self, ?_⟩
          have e1 : (c :: r).dropWhile isDigit = e := by
            rw [hs.1, hs.2, ← List.cons_append, List.dropWhile_append_of_pos hd]
            rcases he with rfl | rfl <;> rfl
          rw [e1]; exact he

/-- **C88 (the job id).** The job id is found if and only if the output of the submit command has one: the first number; for HTCondor the number before the full stop at the end. -/
theorem job_id_exact (s : Sys) (out i : Str) : (jobRe s).search out = some i ↔ IsJobId s out i := by
  by_cases hc : s = .condor
  · subst hc
    show condorRe.search out = some i ↔ _
    rw [condor_search]
    simp [IsJobId]
  · have : jobRe s = { grp := .plus isDigit, post := .eps, inner := false } := by cases s <;> first | rfl | exact absurd rfl hc
    rw [this, search_first]
    unfold IsJobId
    rw [if_neg hc]
    have hsplit := List.takeWhile_append_dropWhile (p := fun c => !isDigit c) (l := out)
    constructor
    · intro h
      by_cases h0 : skip out = []
      · rw [if_pos h0] at h; cases h
      · rw [if_neg h0] at h
        cases h
        have hfirst : ∃ c t, skip out = c :: t ∧ isDigit c = true := by
          obtain ⟨c, t, e⟩ := List.exists_cons_of_ne_nil h0
          have := List.head?_dropWhile_not (fun c => !isDigit c) out
          rw [show List.dropWhile (fun c => !isDigit c) out = c :: t from e] at this
          exact ⟨c, t, e, by simpa using this⟩
        obtain ⟨c, t, e, hcd⟩ := hfirst
        refine ⟨by rw [e]; simp [List.takeWhile, hcd], List.all_eq_true.1 List.all_takeWhile, out.takeWhile (fun c => !isDigit c), (skip out).dropWhile isDigit, ?_, ?_, ?_⟩
        · rw [List.append_assoc, List.takeWhile_append_dropWhile]; exact hsplit.symm
        · intro x hx
          have := List.all_eq_true.1 (List.all_takeWhile (p := fun c => !isDigit c) (l := out)) x hx
          simpa using this
        · intro x hx
          have := List.head?_dropWhile_not isDigit (skip out)
          rw [hx] at this
          simpa using this
    · rintro ⟨hne, hd, pre, post, rfl, hp, hq⟩
      have hs : skip (pre ++ i ++ post) = i ++ post := by
        rw [skip, List.append_assoc, List.dropWhile_append_of_pos (fun x hx => by simp [hp x hx])]
        obtain ⟨c, i', rfl⟩ := List.exists_cons_of_ne_nil hne
        simp [List.dropWhile, hd c List.mem_cons_self]
      rw [hs]
      obtain ⟨c, i', rfl⟩ := List.exists_cons_of_ne_nil hne
      rw [if_neg (by simp), List.takeWhile_append_of_pos hd]
      cases post with
      | nil => simp
      | cons x post => simp [List.takeWhile, hq x rfl]

/-! ## the commands -/

/-- what a start does with the output of the submit command -/
theorem started_ok {out : Str} {l : L} {i : Str} : (started out l).2 = .ok i ↔ IsJobId l.sys out i := by
  rw [← job_id_exact]
  unfold started parseJobId
  cases (jobRe l.sys).search out with
  | none => simp
  | some j => simp

theorem started_state {out : Str} {l : L} {i : Str} (h : (started out l).2 = .ok i) : (started out l).1 = { l with jobId := i, state := .running } := by
  revert h
  unfold started parseJobId
  cases (jobRe l.sys).search out with
  | none => intro h; cases h
  | some j => intro h; cases h; rfl

theorem started_error {out : Str} {l : L} {e : Err} (h : (started out l).2 = .error e) : e = .noJobId ∧ (started out l).1 = l := by
  revert h
  unfold started parseJobId
  cases (jobRe l.sys).search out with
  | none => intro h; cases h; exact ⟨rfl, rfl⟩
  | some j => intro h; cases h

/-- the path of the script -/
def scriptPath (l : L) : Str := pathJoin l.cfg.workDir (fileName l.sys l.role)

/-- **C88 (a start).** A start (of `k` engines, or of a controller) writes the script and runs the submit command with it as last argument, and nothing else, once. PBS, Slurm, SGE, HTCondor: -/
theorem start_commands {dumps : Dict → Str} {l : L} (hr : Reach dumps l) (hs : l.sys ≠ .lsf) (k : Nat) (out : Option Str) (text : Str)
    (hw : (writeScript dumps (if l.role = .controller then 1 else k) l).2 = some text) :
    (start dumps k out l).2.1 = [.write (scriptPath l) text, .run (l.cfg.submit ++ [scriptPath l]) (some (getEnv l))] := by
  have g := good_reach hr
  rw [writeScript_eq] at hw
  unfold start
  rw [writeScript_eq]
  generalize chooseTemplate (ready dumps (if l.role = .controller then 1 else k) l) = c at hw
  cases c with
  | none => cases hw
  | some t =>
    dsimp only at hw ⊢
    rw [hw]
    dsimp only
    generalize hm : ({ ready dumps (if l.role = .controller then 1 else k) l with template := t } : L) = m
    have hs' : m.sys ≠ .lsf := by rw [← hm]; exact hs
    have hb : m.batchFile = scriptPath l := by rw [← hm]; exact g.file
    have hc : m.cfg = l.cfg := by rw [← hm]; rfl
    have he : getEnv m = getEnv l := by rw [← hm]; rfl
    unfold submit
    rw [if_neg hs']
    cases out <;> simp only [hb, args, hc, he]

/-- LSF reads the script from its standard input; only the first word of the submit command is used -/
theorem start_commands_lsf {dumps : Dict → Str} {l : L} (hr : Reach dumps l) (hs : l.sys = .lsf) (k : Nat) (out : Option Str) (text : Str) (cmd : Str) (hcmd : l.cfg.submit = [cmd])
    (hw : (writeScript dumps (if l.role = .controller then 1 else k) l).2 = some text) :
    (start dumps k out l).2.1 = [.write (scriptPath l) text, .shell (cmd ++ l!"<\"" ++ scriptPath l ++ l!"\"")] := by
  have g := good_reach hr
  rw [writeScript_eq] at hw
  unfold start
  rw [writeScript_eq]
  generalize chooseTemplate (ready dumps (if l.role = .controller then 1 else k) l) = c at hw
  cases c with
  | none => cases hw
  | some t =>
    dsimp only at hw ⊢
    rw [hw]
    dsimp only
    generalize hm : ({ ready dumps (if l.role = .controller then 1 else k) l with template := t } : L) = m
    have hs' : m.sys = .lsf := by rw [← hm]; exact hs
    have hb : m.batchFile = scriptPath l := by rw [← hm]; exact g.file
    have hc : m.cfg = l.cfg := by rw [← hm]; rfl
    unfold submit
    rw [if_pos hs']
    simp only [hb, args, hc, hcmd]
    rfl

/-- **C88 (the result of a start).** A start returns the job id in the output of the submit command, and fails if there is none; it leaves the launcher running, with that job. -/
theorem start_result {dumps : Dict → Str} {l : L} (k : Nat) (out : Str) (text : Str)
    (hw : (writeScript dumps (if l.role = .controller then 1 else k) l).2 = some text) (i : Str) :
    ((start dumps k (some out) l).2.2 = .ok i ↔ IsJobId l.sys out i) ∧
    ((start dumps k (some out) l).2.2 = .ok i → (start dumps k (some out) l).1.jobId = i ∧ (start dumps k (some out) l).1.state = .running ∧
      (start dumps k (some out) l).1.cfg = l.cfg ∧ (start dumps k (some out) l).1.sys = l.sys) ∧
    (¬ (∃ i, IsJobId l.sys out i) → (start dumps k (some out) l).2.2 = .error .noJobId) := by
  rw [writeScript_eq] at hw
  unfold start
  rw [writeScript_eq]
  generalize chooseTemplate (ready dumps (if l.role = .controller then 1 else k) l) = c at hw
  cases c with
  | none => cases hw
  | some t =>
    dsimp only at hw ⊢
    rw [hw]
    dsimp only
    generalize hm : ({ ready dumps (if l.role = .controller then 1 else k) l with template := t } : L) = m
    have hsys : m.sys = l.sys := by rw [← hm]; rfl
    have hcfg : m.cfg = l.cfg := by rw [← hm]; rfl
    have h1 : (submit (some out) text m).2.2 = (started out m).2 := by
      unfold submit; by_cases h : m.sys = .lsf
      · rw [if_pos h]; rfl
      · rw [if_neg h]
    have h2 : (submit (some out) text m).1 = (started out m).1 := by
      unfold submit; by_cases h : m.sys = .lsf
      · rw [if_pos h]; rfl
      · rw [if_neg h]
    rw [h1, h2, ← hsys]
    refine ⟨started_ok, ?_, ?_⟩
    · intro h
      rw [started_state h]
      exact ⟨rfl, rfl, hcfg, rfl⟩
    · intro h
      cases hs : (started out m).2 with
      | ok i => exact absurd ⟨i, started_ok.1 hs⟩ h
      | error e => rw [(started_error hs).1]

/-- the operations that do not submit another job -/
def Op.noStart : Op → Prop
  | .start _ _ => False
  | _ => True

theorem job_kept (dumps : Dict → Str) (l : L) (ops : List Op) (h : ∀ o ∈ ops, o.noStart) :
    (ops.foldl (step dumps) l).jobId = l.jobId ∧ (ops.foldl (step dumps) l).cfg = l.cfg := by
  induction ops generalizing l with
  | nil => exact ⟨rfl, rfl⟩
  | cons o ops ih =>
    rw [List.foldl_cons]
    obtain ⟨h1, h2⟩ := ih (step dumps l o) (fun x hx => h x (List.mem_cons_of_mem _ hx))
    have ho := h o List.mem_cons_self
    have : (step dumps l o).jobId = l.jobId ∧ (step dumps l o).cfg = l.cfg := by
      cases o with
      | start n out => exact ho.elim
      | stop ok => cases ok <;> exact ⟨rfl, rfl⟩
      | reload =>
        refine ⟨rfl, ?_⟩
        show (setN l.n _).cfg = _
        rfl
      | _ => exact ⟨rfl, rfl⟩
    exact ⟨h1.trans this.1, h2.trans this.2⟩

/-- **C88 (stop and signal act on the job that was submitted).** Whatever happens after a successful start other than another start — also if the launcher is written to a file and read in another process —, `stop()` runs the delete command with the job id that the submit command printed and `signal(sig)` the signal command with that signal and job id, and nothing else. -/
theorem stop_right_job {dumps : Dict → Str} {l : L} (k : Nat) (out : Str) (text : Str) (hw : (writeScript dumps (if l.role = .controller then 1 else k) l).2 = some text)
    (i : Str) (hi : IsJobId l.sys out i) (ops : List Op) (h : ∀ o ∈ ops, o.noStart) (ok : Bool) (sig : Str) :
    let l2 := ops.foldl (step dumps) (start dumps k (some out) l).1
    (∃ notes, (stop ok l2).2.1 = .run (l.cfg.delete ++ [i]) none :: notes ∧ (notes = [] ∨ notes = [.stopped i])) ∧ signal sig l2 = [.run (l.cfg.signal ++ [sig, i]) none] := by
  intro l2
  obtain ⟨h1, h2, -⟩ := start_result k out text hw i
  obtain ⟨hj, -, hc, -⟩ := h2 (h1.2 hi)
  obtain ⟨k1, k2⟩ := job_kept dumps (start dumps k (some out) l).1 ops h
  have e1 : l2.jobId = i := k1.trans hj
  have e2 : l2.cfg = l.cfg := k2.trans hc
  refine ⟨?_, by unfold signal; rw [e1, e2]⟩
  unfold stop
  rw [e1, e2]
  cases ok with
  | false => exact ⟨[], rfl, .inl rfl⟩
  | true =>
    by_cases ha : l2.state = .after
    · exact ⟨[], by simp [ha], .inl rfl⟩
    · exact ⟨[.stopped i], by simp [ha], .inr rfl⟩

/-- `stop()` of a running launcher announces the stop if and only if the delete command succeeds, and a second `stop()` does not announce it again -/
theorem stop_announces_once (l : L) (hl : l.state = .running) :
    (stop true l).2.1 = [.run (l.cfg.delete ++ [l.jobId]) none, .stopped l.jobId] ∧ (stop false l).2.1 = [.run (l.cfg.delete ++ [l.jobId]) none] ∧ (stop false l).1 = l ∧
    ∀ ok, (stop ok (stop true l).1).2.1 = [.run (l.cfg.delete ++ [l.jobId]) none] := by
  refine ⟨by simp [stop, hl], rfl, rfl, ?_⟩
  intro ok
  cases ok <;> rfl

/-! ## the environment of the job -/

/-- the line of a script by which the job gets the environment of the submit command (HTCondor would need `getenv`) -/
def passesEnv : Sys → Str → Prop
  | .pbs, line => line = l!"#PBS -V"
  | .slurm, line => line = l!"#SBATCH --export=ALL"
  | .sge, line => line = l!"#$ -V"
  | .lsf, line => line.dropWhile isSpace = l!"#BSUB -env all"
  | .condor, line => line.take 6 = l!"getenv"

/-- the variables that tell controller and engines which profile and cluster they belong to (apps/baseapp.py:137-146) -/
theorem env_vars (l : L) : (∀ k v, (k, v) ∈ l.cfg.environment → (l.cfg.environment.map (·.1)).Nodup → get (getEnv l) k = some v) ∧
    ((∀ p ∈ l.cfg.environment, p.1 ≠ l!"IPP_CLUSTER_ID") → get (getEnv l) l!"IPP_CLUSTER_ID" = some l.clusterId) ∧
    ((∀ p ∈ l.cfg.environment, p.1 ≠ l!"IPP_PROFILE_DIR") → get (getEnv l) l!"IPP_PROFILE_DIR" = some l.profileDir) := by
  refine ⟨fun k v h hd => get_update_mem _ _ _ _ hd h, fun h => ?_, fun h => ?_⟩
  · unfold getEnv
    rw [get_update_not _ _ _ h]
    exact get_update_mem _ _ _ _ (by simp) (by simp)
  · unfold getEnv
    rw [get_update_not _ _ _ h]
    exact get_update_mem _ _ _ _ (by simp) (by simp)

/-- **C88 (environment).** PBS, Slurm and SGE: the submit command is run with the variables of the launcher, which tell the job its profile and its cluster, and those of `environment`; and the script has the line that passes them on to the job. -/
theorem job_env_partial {dumps : Dict → Str} {l : L} (hr : Reach dumps l) (hs : l.sys = .pbs ∨ l.sys = .slurm ∨ l.sys = .sge) (k : Nat) (out : Option Str) (ht : l.template = []) (hf : l.cfg.templateFile = none)
    (hns : ∀ p ∈ l.namesp, p.1 ∉ names) :
    (∃ text env, (start dumps k out l).2.1 = [.write (scriptPath l) text, .run (l.cfg.submit ++ [scriptPath l]) (some env)] ∧
      (∀ x v, (x, v) ∈ l.cfg.environment → (l.cfg.environment.map (·.1)).Nodup → get env x = some v) ∧
      ((∀ p ∈ l.cfg.environment, p.1 ≠ l!"IPP_CLUSTER_ID") → get env l!"IPP_CLUSTER_ID" = some l.clusterId) ∧
      ((∀ p ∈ l.cfg.environment, p.1 ≠ l!"IPP_PROFILE_DIR") → get env l!"IPP_PROFILE_DIR" = some l.profileDir) ∧
      ∃ lines line, text = joinNl lines ∧ line ∈ lines ∧ passesEnv l.sys line) := by
  have hw := script_exact hr (if l.role = .controller then 1 else k) ht hf hns
  have hl : l.sys ≠ .lsf := by rcases hs with h | h | h <;> rw [h] <;> decide
  refine ⟨_, _, start_commands hr hl k out _ hw, (env_vars l).1, (env_vars l).2.1, (env_vars l).2.2, ?_⟩
  have hx : ∀ (s : Sys) (r : Role) (q o a k' w : Bool) (v : Piece → Str) (hv : ∀ t, v (.t t) = t), s = .pbs ∨ s = .slurm ∨ s = .sge →
      ∃ line, line ∈ (specLines s r q o a k' w).map (·.flatMap v) ∧ passesEnv s line := by
    intro s r q o a k' w v hv h
    rcases h with rfl | rfl | rfl
    · refine ⟨l!"#PBS -V", ?_, rfl⟩
      refine List.mem_map.2 ⟨[.t l!"#PBS -V"], ?_, by simp [hv]⟩
      simp [specLines]
    · refine ⟨l!"#SBATCH --export=ALL", ?_, rfl⟩
      refine List.mem_map.2 ⟨[.t l!"#SBATCH --export=ALL"], ?_, by simp [hv]⟩
      cases r <;> simp [specLines]
    · refine ⟨l!"#$ -V", ?_, rfl⟩
      refine List.mem_map.2 ⟨[.t l!"#$ -V"], ?_, by simp [hv]⟩
      simp [specLines]
  obtain ⟨line, h1, h2⟩ := hx l.sys l.role (l.queue ≠ []) (l.outputFile ≠ []) (l.cfg.account ≠ []) (l.cfg.qos ≠ []) (l.cfg.timelimit ≠ []) (Piece.value l (if l.role = .controller then 1 else k)) (fun _ => rfl) hs
  exact ⟨_, line, rfl, h1, h2⟩

end IPP.Batch
