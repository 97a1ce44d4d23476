import Verif.Launcher.BatchProps
/-!
# C88: what the batch-system launchers submit, and which job they stop — theorems
-/
namespace IPP.Batch
open IPP.Shell (Str)

/-! ## the template with the inserted lines is the specified one -/

/-- the field of the template for a piece -/
def Piece.seg : Piece → Seg
  | .t s => .txt s
  | .n => .fld l!"n"
  | .queue => .fld l!"queue"
  | .output => .fld l!"output_file"
  | .account => .fld l!"account"
  | .qos => .fld l!"qos"
  | .timelimit => .fld l!"timelimit"
  | .clusterId => .fld l!"cluster_id"
  | .cmd => .fld l!"program_and_args"
  | .cmdArgs => .fld l!"program_args"

/-- the segments of lines -/
def segLines : List (List Piece) → List Seg
  | [] => []
  | [l] => l.map Piece.seg
  | l :: r => l.map Piece.seg ++ .txt [10] :: segLines r

/-- put a text in front -/
def consText (t : Str) (r : List Seg) : List Seg := t.foldr consChar r

/-- adjacent texts are one text, and none is empty: as the parser gives it -/
def merge : List Seg → List Seg
  | [] => []
  | .txt s :: r => consText s (merge r)
  | .fld f :: r => .fld f :: merge r

theorem render_consChar (ns : Dict) (c : Nat) (r : List Seg) : render ns (consChar c r) = (render ns r).map (c :: ·) := by
  match r with
  | [] => rfl
  | .txt s :: r =>
    simp only [consChar, render]
    cases render ns r <;> rfl
  | .fld f :: r =>
    simp only [consChar, render]
    rfl

theorem render_consText (ns : Dict) (t : Str) (r : List Seg) : render ns (consText t r) = (render ns r).map (t ++ ·) := by
  induction t with
  | nil =>
    show render ns r = _
    cases render ns r <;> rfl
  | cons c t ih =>
    show render ns (consChar c (consText t r)) = _
    rw [render_consChar, ih]
    cases render ns r <;> rfl

theorem render_merge (ns : Dict) (r : List Seg) : render ns (merge r) = render ns r := by
  induction r with
  | nil => rfl
  | cons s r ih =>
    cases s with
    | txt s => simp only [merge, render_consText, render, ih]
    | fld f => simp only [merge, render, ih]

theorem render_append (ns : Dict) (a b : List Seg) : render ns (a ++ b) = (render ns a).bind fun x => (render ns b).map (x ++ ·) := by
  induction a with
  | nil =>
    show render ns b = _
    simp only [render]
    cases render ns b <;> rfl
  | cons s a ih =>
    cases s with
    | txt s =>
      simp only [List.cons_append, render, ih]
      cases render ns a with
      | none => rfl
      | some x => cases render ns b <;> simp
    | fld f =>
      simp only [List.cons_append, render, ih]
      cases get ns f with
      | none => rfl
      | some v =>
        cases render ns a with
        | none => rfl
        | some x => cases render ns b <;> simp [bind, Option.bind, pure]

set_option maxRecDepth 100000 in
/-- all the templates that can arise, parsed: for every batch system and role and every choice of what is set (a finite set, all of it) -/
theorem insertAll_spec : ∀ (s : Sys) (r : Role) (q o a k w : Bool), (insertAll s r q o a k w).bind (parse none) = some (merge (segLines (specLines s r q o a k w))) := by
  intro s r
  cases s <;> cases r <;> decide +kernel

/-- the names that the default templates may use -/
def names : List Str := [l!"n", l!"queue", l!"output_file", l!"account", l!"qos", l!"timelimit", l!"cluster_id", l!"program_and_args", l!"program_args"]

/-- pieces whose value is known -/
def Known (ns : Dict) (v : Piece → Str) (p : Piece) : Prop := render ns [p.seg] = some (v p)

theorem render_pieces (ns : Dict) (v : Piece → Str) (ps : List Piece) (h : ∀ p ∈ ps, Known ns v p) : render ns (ps.map Piece.seg) = some (ps.flatMap v) := by
  induction ps with
  | nil => rfl
  | cons p ps ih =>
    rw [List.map_cons, ← List.singleton_append, render_append, show render ns [p.seg] = _ from h p List.mem_cons_self, ih (fun q hq => h q (List.mem_cons_of_mem _ hq))]
    rfl

theorem render_lines (ns : Dict) (v : Piece → Str) (ls : List (List Piece)) (h : ∀ l ∈ ls, ∀ p ∈ l, Known ns v p) :
    render ns (segLines ls) = some (joinNl (ls.map (·.flatMap v))) := by
  induction ls with
  | nil => rfl
  | cons l ls ih =>
    cases ls with
    | nil => exact render_pieces ns v l (h l List.mem_cons_self)
    | cons m ls =>
      show render ns (l.map Piece.seg ++ .txt [10] :: segLines (m :: ls)) = _
      rw [render_append, render_pieces ns v l (h l List.mem_cons_self)]
      simp only [render, ih (fun x hx => h x (List.mem_cons_of_mem _ hx))]
      rfl

/-- which values a script needs -/
def Piece.needs (a k w : Bool) (s : Sys) : Piece → Bool
  | .account => a && s == .slurm
  | .qos => k && s == .slurm
  | .timelimit => w && s == .slurm
  | _ => true

theorem spec_needs (s : Sys) (r : Role) (q o a k w : Bool) : ∀ l ∈ specLines s r q o a k w, ∀ p ∈ l, p.needs a k w s = true := by
  have : (specLines s r q o a k w).all (fun l => l.all fun p => p.needs a k w s) = true := by
    cases s <;> cases r <;> cases q <;> cases o <;> cases a <;> cases k <;> cases w <;> rfl
  intro l hl p hp
  exact List.all_eq_true.1 (List.all_eq_true.1 this l hl) p hp

theorem known_fld (ns : Dict) (f v : Str) (h : get ns f = some v) : render ns [.fld f] = some v := by
  simp [render, h]

/-- a parsed template with the specified lines is filled in with the values of the launcher -/
theorem format_spec {l : L} (g : Good l) (q o a k w : Bool) (ha : a = true → l.cfg.account ≠ []) (hk : k = true → l.cfg.qos ≠ []) (hw : w = true → l.cfg.timelimit ≠ [])
    (hns : ∀ p ∈ l.namesp, p.1 ∉ names) (t : Str) (ht : parse none t = some (merge (segLines (specLines l.sys l.role q o a k w)))) :
    format t (update l.context l.namesp) = some (joinNl ((specLines l.sys l.role q o a k w).map (·.flatMap (Piece.value l l.n)))) := by
  simp only [format, ht, Option.bind_some, render_merge]
  apply render_lines
  intro ln hln p hp
  have hneed := spec_needs _ _ _ _ _ _ _ ln hln p hp
  have hget : ∀ f v, f ∈ names → get l.context f = some v → get (update l.context l.namesp) f = some v := by
    intro f v hm hv
    rw [get_update_not _ _ _ (fun q hq e => hns q hq (e ▸ hm))]
    exact hv
  cases p with
  | t s => simp [Known, Piece.seg, render, Piece.value]
  | n => exact known_fld _ _ _ (hget _ _ (by decide) g.n)
  | queue => exact known_fld _ _ _ (hget _ _ (by decide) g.queue)
  | output => exact known_fld _ _ _ (hget _ _ (by decide) g.output)
  | account =>
    simp only [Piece.needs, Bool.and_eq_true, beq_iff_eq] at hneed
    exact known_fld _ _ _ (hget _ _ (by decide) (g.account hneed.2 (ha hneed.1)))
  | qos =>
    simp only [Piece.needs, Bool.and_eq_true, beq_iff_eq] at hneed
    exact known_fld _ _ _ (hget _ _ (by decide) (g.qos hneed.2 (hk hneed.1)))
  | timelimit =>
    simp only [Piece.needs, Bool.and_eq_true, beq_iff_eq] at hneed
    exact known_fld _ _ _ (hget _ _ (by decide) (g.timelimit hneed.2 (hw hneed.1)))
  | clusterId => exact known_fld _ _ _ (hget _ _ (by decide) g.cluster)
  | cmd => exact known_fld _ _ _ (hget _ _ (by decide) g.cmd)
  | cmdArgs => exact known_fld _ _ _ (hget _ _ (by decide) g.cmdArgs)

/-- the template that is chosen if the user gives none -/
theorem choose_default {l : L} (ht : l.template = []) (hf : l.cfg.templateFile = none) : ∃ t, chooseTemplate l = some t ∧
    parse none t = some (merge (segLines (specLines l.sys l.role (l.queue ≠ []) (l.outputFile ≠ []) (l.cfg.account ≠ []) (l.cfg.qos ≠ []) (l.cfg.timelimit ≠ [])))) := by
  have hc : chooseTemplate l = insertAll l.sys l.role (l.queue ≠ []) (l.outputFile ≠ []) (l.cfg.account ≠ []) (l.cfg.qos ≠ []) (l.cfg.timelimit ≠ []) := by
    simp [chooseTemplate, ht, hf]
  have hs := insertAll_spec l.sys l.role (l.queue ≠ []) (l.outputFile ≠ []) (l.cfg.account ≠ []) (l.cfg.qos ≠ []) (l.cfg.timelimit ≠ [])
  rw [hc]
  generalize insertAll l.sys l.role (l.queue ≠ []) (l.outputFile ≠ []) (l.cfg.account ≠ []) (l.cfg.qos ≠ []) (l.cfg.timelimit ≠ []) = io at hs
  cases io with
  | none => cases hs
  | some t => exact ⟨t, rfl, hs⟩

/-- **C88 (the script).** Whatever happened to the launcher before (its properties were set, it was written to a file and read back, it was stopped), if it has not been started before, the user gave no template and does not redefine the names by `namespace`, then the script written for `k` processes is exactly the specified one: it has `k`, the queue, the output file and (Slurm) the account, QoS and time limit that are set, and lines for nothing else. -/
theorem script_exact {dumps : Dict → Str} {l : L} (hr : Reach dumps l) (k : Nat) (ht : l.template = []) (hf : l.cfg.templateFile = none)
    (hns : ∀ p ∈ l.namesp, p.1 ∉ names) : (writeScript dumps k l).2 = some (specScript l k) := by
  have g := good_ready (good_reach hr) dumps k
  obtain ⟨t, hc, hp⟩ := choose_default (l := ready dumps k l) ht hf
  rw [writeScript_eq, hc]
  exact format_spec g _ _ _ _ _ (fun h => of_decide_eq_true h) (fun h => of_decide_eq_true h) (fun h => of_decide_eq_true h) hns t hp

/-- after a start, the launcher differs only in what the start is about -/
theorem start_state (dumps : Dict → Str) (k : Nat) (out : Option Str) (l : L) (t : Str) (hc : chooseTemplate (ready dumps (if l.role = .controller then 1 else k) l) = some t) :
    ∃ j s, (start dumps k out l).1 = { ready dumps (if l.role = .controller then 1 else k) l with template := t, jobId := j, state := s } := by
  unfold start
  rw [writeScript_eq, hc]
  dsimp only
  generalize format t (update (ready dumps (if l.role = .controller then 1 else k) l).context l.namesp) = fo
  cases fo with
  | none => exact ⟨_, _, rfl⟩
  | some text =>
    show ∃ j s, (submit out text _).1 = _
    have hst : ∀ o (m : L), ∃ j s, (started o m).1 = { m with jobId := j, state := s } := by
      intro o m
      unfold started parseJobId
      cases (jobRe m.sys).search o with
      | none => exact ⟨_, _, rfl⟩
      | some i => exact ⟨_, _, rfl⟩
    unfold submit
    by_cases hs : ({ ready dumps (if l.role = .controller then 1 else k) l with template := t } : L).sys = .lsf
    · rw [if_pos hs]
      obtain ⟨j, s, h⟩ := hst (out.getD []) { ready dumps (if l.role = .controller then 1 else k) l with template := t }
      exact ⟨j, s, h⟩
    · rw [if_neg hs]
      cases out with
      | none => exact ⟨_, _, rfl⟩
      | some o =>
        obtain ⟨j, s, h⟩ := hst o { ready dumps (if l.role = .controller then 1 else k) l with template := t }
        exact ⟨j, s, h⟩

/-- **C88 (starting again).** Starting a launcher again, whether or not the first start succeeded, writes the script for the number that is given now; nothing is inserted twice. -/
theorem restart_exact {dumps : Dict → Str} {l : L} (hr : Reach dumps l) (k1 k2 : Nat) (out : Option Str) (ht : l.template = []) (hf : l.cfg.templateFile = none)
    (hns : ∀ p ∈ l.namesp, p.1 ∉ names) : (writeScript dumps k2 (start dumps k1 out l).1).2 = some (specScript l k2) := by
  obtain ⟨t, hc, hp⟩ := choose_default (l := ready dumps (if l.role = .controller then 1 else k1) l) ht hf
  have g1 : Good (start dumps k1 out l).1 := good_start (good_reach hr) dumps k1 out
  obtain ⟨j, s, e⟩ := start_state dumps k1 out l t hc
  rw [e] at g1 ⊢
  have g := good_ready g1 dumps k2
  rw [writeScript_eq]
  by_cases ht0 : t = []
  · subst ht0
    obtain ⟨t2, hc2, hp2⟩ := choose_default (l := ready dumps k2 { ready dumps (if l.role = .controller then 1 else k1) l with template := [], jobId := j, state := s }) rfl hf
    rw [hc2]
    exact format_spec g _ _ _ _ _ (fun h => of_decide_eq_true h) (fun h => of_decide_eq_true h) (fun h => of_decide_eq_true h) hns t2 hp2
  · have h0 : (chooseTemplate (ready dumps k2 { ready dumps (if l.role = .controller then 1 else k1) l with template := t, jobId := j, state := s })) = some t := by
      have : (ready dumps k2 { ready dumps (if l.role = .controller then 1 else k1) l with template := t, jobId := j, state := s }).template = t := rfl
      simp [chooseTemplate, this, ht0]
    rw [h0]
    exact format_spec g _ _ _ _ _ (fun h => of_decide_eq_true h) (fun h => of_decide_eq_true h) (fun h => of_decide_eq_true h) hns t hp

/-! ## templates of the user -/

/-- **C88 (the user's template).** A template that the user sets is used as it is, nothing is inserted; names in it stand for the value in `namespace`, and otherwise `{n}` for the number given, `{queue}`, `{cluster_id}`, `{profile_dir}`, `{output_file}` and `{program_and_args}` for what is set at that time. -/
theorem user_template {dumps : Dict → Str} {l : L} (hr : Reach dumps l) (k : Nat) (t : Str) (h : (if l.template = [] then l.cfg.templateFile.getD [] else l.template) = t) (hne : t ≠ [])
    (hd : (l.namesp.map (·.1)).Nodup) :
    ∃ ns, writeScript dumps k l = ({ ready dumps k l with template := t }, format t ns) ∧ (∀ x v, (x, v) ∈ l.namesp → get ns x = some v) ∧
      ∀ x v, (∀ p ∈ l.namesp, p.1 ≠ x) →
        (x, v) ∈ [(l!"n", digits k), (l!"queue", l.queue), (l!"cluster_id", l.clusterId), (l!"profile_dir", l.profileDir), (l!"output_file", l.outputFile), (l!"program_and_args", shlexJoin (l.cfg.program ++ l.cfg.programArgs))] →
        get ns x = some v := by
  have g := good_ready (good_reach hr) dumps k
  have hc : chooseTemplate (ready dumps k l) = some t := by
    have h' : (if (ready dumps k l).template = [] then (ready dumps k l).cfg.templateFile.getD [] else (ready dumps k l).template) = t := h
    simp only [chooseTemplate, h']
    rw [if_pos hne]
  refine ⟨update (ready dumps k l).context l.namesp, ?_, fun x v hx => get_update_mem _ _ _ _ hd hx, ?_⟩
  · rw [writeScript_eq, hc]
  · intro x v hx hm
    rw [get_update_not _ _ _ hx]
    simp only [List.mem_cons, Prod.mk.injEq, List.not_mem_nil, or_false] at hm
    rcases hm with ⟨rfl, rfl⟩ | ⟨rfl, rfl⟩ | ⟨rfl, rfl⟩ | ⟨rfl, rfl⟩ | ⟨rfl, rfl⟩ | ⟨rfl, rfl⟩
    · exact g.n
    · exact g.queue
    · exact g.cluster
    · exact g.profile
    · exact g.output
    · exact g.cmd

theorem parse_text (a : Str) (h : ∀ c ∈ a, c ≠ 123 ∧ c ≠ 125) (r : Str) : parse none (a ++ r) = (parse none r).map (consText a) := by
  induction a with
  | nil =>
    show parse none r = _
    cases parse none r <;> rfl
  | cons c a ih =>
    have hc := h c List.mem_cons_self
    have e : parse none (c :: (a ++ r)) = (parse none (a ++ r)).map (consChar c) := by
      rw [parse]
      · intro _ hh; exact absurd hh hc.1
      · intro _ hh; exact absurd hh hc.2
      · exact hc.1
      · exact hc.2
    rw [List.cons_append, e, ih (fun d hd => h d (List.mem_cons_of_mem _ hd))]
    cases parse none r <;> rfl

theorem parse_name (x : Str) (h : ∀ c ∈ x, c ≠ 123 ∧ c ≠ 125) (f r : Str) : parse (some f) (x ++ 125 :: r) = (parse none r).map (.fld (f.reverse ++ x) :: ·) := by
  induction x generalizing f with
  | nil => simp [parse]
  | cons c x ih =>
    have hc := h c List.mem_cons_self
    have e : parse (some f) (c :: (x ++ 125 :: r)) = parse (some (c :: f)) (x ++ 125 :: r) := by
      rw [parse]
      · exact hc.2
      · exact hc.1
    rw [List.cons_append, e, ih (fun d hd => h d (List.mem_cons_of_mem _ hd))]
    simp

/-- what filling in means: text without braces stays, `{name}` becomes the value of the name -/
theorem format_field (ns : Dict) (a x v b : Str) (ha : ∀ c ∈ a, c ≠ 123 ∧ c ≠ 125) (hx : ∀ c ∈ x, c ≠ 123 ∧ c ≠ 125) (hx0 : x ≠ []) (hv : get ns x = some v) :
    format (a ++ 123 :: (x ++ 125 :: b)) ns = (format b ns).map (a ++ v ++ ·) := by
  have h1 : parse none (123 :: (x ++ 125 :: b)) = (parse none b).map (.fld x :: ·) := by
    obtain ⟨c, x', rfl⟩ := List.exists_cons_of_ne_nil hx0
    have hc := hx c List.mem_cons_self
    have : parse none (123 :: (c :: x' ++ 125 :: b)) = parse (some []) (c :: x' ++ 125 :: b) := by
      rw [parse]
      intro _ hh
      exact hc.1 (by injection hh)
    rw [this, parse_name _ hx]
    simp
  unfold format
  rw [parse_text a ha, h1]
  cases hp : parse none b with
  | none => rfl
  | some sb =>
    simp only [Option.map_some, Option.bind_some, render_consText, render, hv]
    cases render ns sb <;> simp [bind, Option.bind, pure]

end IPP.Batch
