import Verif.Client.Engines

/-!
# Waiting for engines (property C72)

For every history of calls, notifications and steps of the input thread.
-/
namespace IPP.WaitEngines

/-! ## what the outcome says -/

theorem ids_of_call (h : List Ev) (w n : Nat) (t : Bool) : (run (h ++ [.call w n t])).ids = (run h).ids := by
  rw [run_snoc]; simp only [step]; split <;> rfl

theorem made (h : List Ev) (w : Nat) (x : Wait) (hx : (run h).ws w = some x) : ∃ pre post, h = pre ++ .call w x.n x.timed :: post := by
  induction h using snoc_ind generalizing x with
  | h0 => simp [run, init] at hx
  | h1 l a ih =>
    have more : ∀ y, (run l).ws w = some y → y.n = x.n → y.timed = x.timed → ∃ pre post, l ++ [a] = pre ++ .call w x.n x.timed :: post := by
      intro y hy e1 e2
      obtain ⟨pre, post, hh⟩ := ih y hy
      exact ⟨pre, post ++ [a], by rw [hh, e1, e2]; simp⟩
    have C := change (run l) a w
    rw [run_snoc] at hx
    rw [hx] at C
    generalize hz : some x = z at C
    cases C with
    | same => exact more x hz.symm rfl rfl
    | called n t h1 h2 => cases hz; exact ⟨l, [], by rw [h2]⟩
    | entered y h1 _ _ => cases hz; exact more y h1 rfl rfl
    | success y h1 _ _ => cases hz; exact more y h1 rfl rfl
    | timeout y h1 _ _ _ _ => cases hz; exact more y h1 rfl rfl
    | stopped y h1 _ _ => cases hz; exact more y h1 rfl rfl
    | gone y _ _ h1 _ _ _ _ => cases hz; exact more y h1 rfl rfl
    | cancelled y h1 _ _ => cases hz; exact more y h1 rfl rfl

/-- how a call came to be over -/
theorem why (h : List Ev) (w : Nat) (x : Wait) (o : Outcome) (hx : (run h).ws w = some x) (ho : x.pc = .over o) :
    ∃ pre mid post, h = pre ++ .call w x.n x.timed :: mid ++ post ∧ match o with
      | .ok => x.n ≤ (run (pre ++ .call w x.n x.timed :: mid)).ids.length
      | .timeout => x.timed = true ∧ .timer w ∈ post ∧ (run (pre ++ .call w x.n x.timed :: mid)).ids.length < x.n
      | .engineError => .stopped w ∈ post ∨ ∃ e k, (run (pre ++ .call w x.n x.timed :: mid)).io = some (.unregister e, k)
      | .cancelled => .cancel w ∈ post := by
  induction h using snoc_ind generalizing x with
  | h0 => simp [run, init] at hx
  | h1 l a ih =>
    have C := change (run l) a w
    rw [run_snoc] at hx
    rw [hx] at C
    have now : ∀ y, (run l).ws w = some y → y.n = x.n → y.timed = x.timed → ∃ pre mid, l = pre ++ .call w x.n x.timed :: mid := by
      intro y hy e1 e2
      obtain ⟨pre, post, hh⟩ := made l w y hy
      exact ⟨pre, post, by rw [hh, e1, e2]⟩
    generalize hz : some x = z at C
    cases C with
    | same =>
      obtain ⟨pre, mid, post, h1, h2⟩ := ih x hz.symm ho
      refine ⟨pre, mid, post ++ [a], by rw [h1]; simp, ?_⟩
      cases o with
      | ok => exact h2
      | timeout => exact ⟨h2.1, by simp [h2.2.1], h2.2.2⟩
      | engineError => exact h2.imp (fun x => by simp [x]) id
      | cancelled => simp only at h2 ⊢; simp [h2]
    | called n t h1 h2 =>
      cases hz
      simp only at ho ⊢
      split at ho
      · rename_i hn
        cases ho
        subst h2
        refine ⟨l, [], [], by simp, ?_⟩
        simp only
        rw [ids_of_call]; exact hn
      · cases ho
    | entered y h1 h2 h3 => cases hz; cases ho
    | success y h1 h2 h3 =>
      cases hz; cases ho
      obtain ⟨pre, mid, hl⟩ := now y h1 rfl rfl
      exact ⟨pre, mid, [a], by rw [hl], by rw [← hl]; exact h3⟩
    | timeout y h1 h2 h3 h4 h5 =>
      cases hz; cases ho
      obtain ⟨pre, mid, hl⟩ := now y h1 rfl rfl
      exact ⟨pre, mid, [a], by rw [hl], h3, by simp [h4], by rw [← hl]; exact h5⟩
    | stopped y h1 h2 h3 =>
      cases hz; cases ho
      obtain ⟨pre, mid, hl⟩ := now y h1 rfl rfl
      exact ⟨pre, mid, [a], by rw [hl], .inl (by simp [h3])⟩
    | gone y i k h1 h2 h3 h4 h5 =>
      cases hz; cases ho
      obtain ⟨pre, mid, hl⟩ := now y h1 rfl rfl
      exact ⟨pre, mid, [a], by rw [hl], .inr ⟨i, k, by rw [← hl]; exact h3⟩⟩
    | cancelled y h1 h2 h3 =>
      cases hz; cases ho
      obtain ⟨pre, mid, hl⟩ := now y h1 rfl rfl
      exact ⟨pre, mid, [a], by rw [hl], by simp [h3]⟩

/-- C72: a call that returns normally was told the truth: at some moment between the call and its return the client knew at least `n` engines. -/
theorem success_means_enough (h : List Ev) (w : Nat) (ho : Over h w .ok) :
    ∃ n t pre mid post, h = pre ++ .call w n t :: mid ++ post ∧ n ≤ (run (pre ++ .call w n t :: mid)).ids.length := by
  obtain ⟨x, hx, hp⟩ := ho
  obtain ⟨pre, mid, post, h1, h2⟩ := why h w x .ok hx hp
  exact ⟨_, _, pre, mid, post, h1, h2⟩

/-- C72: TimeoutError is raised only by a call with a timeout, when it is reached and there are too few engines at that moment. -/
theorem timeout_means_too_few (h : List Ev) (w : Nat) (ho : Over h w .timeout) :
    ∃ n pre mid post, h = pre ++ .call w n true :: mid ++ post ∧ .timer w ∈ post ∧ (run (pre ++ .call w n true :: mid)).ids.length < n := by
  obtain ⟨x, hx, hp⟩ := ho
  obtain ⟨pre, mid, post, h1, h2, h3, h4⟩ := why h w x .timeout hx hp
  rw [h2] at h1 h4
  exact ⟨_, pre, mid, post, h1, h3, h4⟩

/-- C72: EngineError is raised only if the client was told after the call that an engine unregistered, or that engines stopped. -/
theorem error_means_gone (h : List Ev) (w : Nat) (ho : Over h w .engineError) : ∃ n t pre mid post, h = pre ++ .call w n t :: mid ++ post ∧
    (.stopped w ∈ post ∨ ∃ e k, (run (pre ++ .call w n t :: mid)).io = some (.unregister e, k)) := by
  obtain ⟨x, hx, hp⟩ := ho
  obtain ⟨pre, mid, post, h1, h2⟩ := why h w x .engineError hx hp
  exact ⟨_, _, pre, mid, post, h1, h2⟩

/-- C72: with sufficient engines the call returns at once. -/
theorem enough_at_once (h : List Ev) (w n : Nat) (t : Bool) (hn : n ≤ (run h).ids.length) (hw : (run h).ws w = none) : Over (h ++ [.call w n t]) w .ok := by
  refine ⟨{ n := n, timed := t, pc := .over .ok }, ?_, rfl⟩
  rw [run_snoc]
  simp [step, hw, hn]

/-- C72: when the timeout of a waiting call is reached (the input thread is not in a loop then) it is over: normally if there are `n` engines, whatever it was told before. -/
theorem timer_ends (h : List Ev) (w : Nat) (x : Wait) (hx : (run h).ws w = some x) (hp : x.pc = .waiting) (ht : x.timed = true) (hio : (run h).io = none) :
    Over (h ++ [.timer w]) w (if x.n ≤ (run h).ids.length then .ok else .timeout) := by
  refine ⟨{ x with pc := .over (if x.n ≤ (run h).ids.length then .ok else .timeout) }, ?_, rfl⟩
  rw [run_snoc]
  simp [step, hio, hx, hp, ht, resolve]

/-! ## it returns as soon as there are enough engines -/

/-- the input thread handles no notification between the check of a call and the registration of its callback -/
def Prompt (h : List Ev) : Prop := ∀ pre mid post w n t, h = pre ++ .call w n t :: (mid ++ .enter w :: post) → .take ∉ mid

/-- nothing ends a call from outside while the input thread is calling the callbacks -/
def Calm (h : List Ev) : Prop := ∀ pre post e, h = pre ++ e :: post → (∃ w, e = .cancel w ∨ e = .stopped w) → (run pre).io = none

/-- different calls are for different numbers of engines (for example, there is only one) -/
def Different (h : List Ev) : Prop := ∀ w v n t t', .call w n t ∈ h → .call v n t' ∈ h → w = v

theorem Prompt.left {l : List Ev} {a : Ev} (h : Prompt (l ++ [a])) : Prompt l := fun pre mid post w n t e => h pre mid (post ++ [a]) w n t (by rw [e]; simp)
theorem Calm.left {l : List Ev} {a : Ev} (h : Calm (l ++ [a])) : Calm l := fun pre post e he => h pre (post ++ [a]) e (by rw [he]; simp)
theorem Different.left {l : List Ev} {a : Ev} (h : Different (l ++ [a])) : Different l := fun w v n t t' h1 h2 => h w v n t t' (by simp [h1]) (by simp [h2])

structure Inv (h : List Ev) (s : S) : Prop where
  nodup : s.cbs.Nodup
  mem : ∀ w, w ∈ s.cbs ↔ ∃ x, s.ws w = some x ∧ x.pc = .waiting
  checked : ∀ w x, s.ws w = some x → x.pc = .checked → ∃ pre mid, h = pre ++ .call w x.n x.timed :: mid ∧ (.take ∉ mid → s.ids.length < x.n)
  idle : s.io = none → ∀ w x, s.ws w = some x → x.pc = .waiting → s.ids.length < x.n
  unreg : ∀ e k, s.io = some (.unregister e, k) → ∀ w x, s.ws w = some x → x.pc = .waiting → s.ids.length < x.n
  reg : ∀ e k, s.io = some (.register e, k) → ∀ w x, s.ws w = some x → x.pc = .waiting → s.ids.length ≤ x.n ∧ (s.ids.length = x.n → w ∈ s.cbs.drop k)

theorem upd_le (ids : List Nat) (e : Nat) : (upd ids (.register e)).length ≤ ids.length + 1 := by
  simp only [upd]; split <;> simp

theorem filter_length_le' (ids : List Nat) (e : Nat) : (upd ids (.unregister e)).length ≤ ids.length := by
  simp only [upd]; exact List.length_filter_le _ _

/-- resolving a waiting call when the input thread is idle keeps the invariant -/
theorem inv_resolve {l : List Ev} {a : Ev} {s : S} (I : Inv l s) (w : Nat) (x : Wait) (o : Outcome) (hx : s.ws w = some x) (hio : s.io = none) (ha : a ≠ .take) : Inv (l ++ [a]) (resolve s w o) := by
  have hws := resolve_ws s w o x hx
  have hcb : (resolve s w o).cbs = s.cbs.erase w := by simp [resolve, hx]
  obtain ⟨r1, -, r3⟩ := resolve_rest s w o
  have old : ∀ v y, (resolve s w o).ws v = some y → (y.pc = .waiting ∨ y.pc = .checked) → v ≠ w ∧ s.ws v = some y := by
    intro v y hv hy
    rw [hws v] at hv
    split at hv
    · cases hv; simp at hy
    · rename_i hne; exact ⟨hne, hv⟩
  constructor
  · rw [hcb]; exact I.nodup.erase w
  · intro v
    rw [hcb, I.nodup.mem_erase_iff, I.mem]
    constructor
    · rintro ⟨hne, y, h1, h2⟩
      exact ⟨y, by rw [hws v, if_neg hne]; exact h1, h2⟩
    · rintro ⟨y, h1, h2⟩
      obtain ⟨h3, h4⟩ := old v y h1 (.inl h2)
      exact ⟨h3, y, h4, h2⟩
  · intro v y h1 h2
    obtain ⟨h3, h4⟩ := old v y h1 (.inr h2)
    obtain ⟨pre, mid, h5, h6⟩ := I.checked v y h4 h2
    exact ⟨pre, mid ++ [a], by rw [h5]; simp, by rw [r1]; intro hn; exact h6 (by simp at hn; exact hn.1)⟩
  · intro _ v y h1 h2
    rw [r1]
    exact I.idle hio v y (old v y h1 (.inl h2)).2 h2
  · intro e k h1; rw [r3, hio] at h1; cases h1
  · intro e k h1; rw [r3, hio] at h1; cases h1

theorem inv_same {l : List Ev} {a : Ev} {s : S} (I : Inv l s) (ha : a ≠ .take) : Inv (l ++ [a]) s := by
  refine ⟨I.nodup, I.mem, ?_, I.idle, I.unreg, I.reg⟩
  intro v y h1 h2
  obtain ⟨pre, mid, h5, h6⟩ := I.checked v y h1 h2
  exact ⟨pre, mid ++ [a], by rw [h5]; simp, by intro hn; exact h6 (by simp at hn; exact hn.1)⟩

theorem inv_run (h : List Ev) (hP : Prompt h) (hC : Calm h) (hD : Different h) : Inv h (run h) := by
  induction h using snoc_ind with
  | h0 => constructor <;> simp [run, init]
  | h1 l a ih =>
    have I := ih hP.left hC.left hD.left
    rw [run_snoc]
    cases a with
    | note k =>
      have I' := inv_same (a := .note k) I (by simp)
      exact ⟨I'.nodup, I'.mem, I'.checked, I'.idle, I'.unreg, I'.reg⟩
    | call v n t =>
      simp only [step]
      split
      · exact inv_same I (by simp)
      · rename_i hn
        have I' := inv_same (a := .call v n t) I (by simp)
        have old : ∀ w x, (if w = v then some { n := n, timed := t, pc := if n ≤ (run l).ids.length then Pc.over .ok else .checked } else (run l).ws w) = some x → x.pc = .waiting → (run l).ws w = some x := by
          intro w x hw hp
          split at hw
          · cases hw; simp only at hp; split at hp <;> cases hp
          · exact hw
        constructor
        · exact I'.nodup
        · intro w
          show w ∈ (run l).cbs ↔ _
          rw [I.mem]
          constructor
          · rintro ⟨x, h1, h2⟩
            refine ⟨x, ?_, h2⟩
            have : w ≠ v := by intro e; rw [e, hn] at h1; cases h1
            simp [this, h1]
          · rintro ⟨x, h1, h2⟩
            exact ⟨x, old w x h1 h2, h2⟩
        · intro w x h1 h2
          simp only at h1
          split at h1
          · rename_i hw
            cases h1
            simp only at h2
            split at h2
            · cases h2
            · rename_i hlt
              exact ⟨l, [], by rw [hw], fun _ => by simp only; omega⟩
          · exact I'.checked w x h1 h2
        · intro h0 w x h1 h2; exact I.idle h0 w x (old w x h1 h2) h2
        · intro e k h0 w x h1 h2; exact I.unreg e k h0 w x (old w x h1 h2) h2
        · intro e k h0 w x h1 h2; exact I.reg e k h0 w x (old w x h1 h2) h2
    | enter v =>
      simp only [step]
      split
      · exact inv_same I (by simp)
      · rename_i y hy
        split
        · rename_i hpc
          have I' := inv_same (a := .enter v) I (by simp)
          have hlt : (run l).ids.length < y.n := by
            obtain ⟨pre, mid, h1, h2⟩ := I.checked v y hy hpc
            apply h2
            exact hP pre mid [] v y.n y.timed (by rw [h1]; simp)
          have hnm : v ∉ (run l).cbs := by
            rw [I.mem]
            rintro ⟨x, h1, h2⟩
            rw [hy] at h1; cases h1; rw [hpc] at h2; cases h2
          have old : ∀ w x, (if w = v then some { y with pc := .waiting } else (run l).ws w) = some x → x.pc = .waiting → (w = v ∧ x.n = y.n) ∨ (run l).ws w = some x := by
            intro w x hw hp
            split at hw
            · rename_i e; cases hw; exact .inl ⟨e, rfl⟩
            · exact .inr hw
          constructor
          · show ((run l).cbs ++ [v]).Nodup
            rw [List.nodup_append]
            refine ⟨I.nodup, by simp, ?_⟩
            intro a ha b hb
            simp at hb
            rw [hb]
            intro e; rw [e] at ha; exact hnm ha
          · intro w
            show w ∈ (run l).cbs ++ [v] ↔ _
            rw [List.mem_append, I.mem]
            constructor
            · rintro (⟨x, h1, h2⟩ | h1)
              · refine ⟨x, ?_, h2⟩
                have : w ≠ v := by intro e; rw [e, hy] at h1; cases h1; rw [hpc] at h2; cases h2
                simp [this, h1]
              · simp at h1
                exact ⟨{ y with pc := .waiting }, by simp [h1], rfl⟩
            · rintro ⟨x, h1, h2⟩
              rcases old w x h1 h2 with ⟨e, -⟩ | h3
              · right; simp [e]
              · left; exact ⟨x, h3, h2⟩
          · intro w x h1 h2
            simp only at h1
            split at h1
            · cases h1; cases h2
            · exact I'.checked w x h1 h2
          · intro h0 w x h1 h2
            rcases old w x h1 h2 with ⟨-, e⟩ | h3
            · rw [e]; exact hlt
            · exact I.idle h0 w x h3 h2
          · intro e k h0 w x h1 h2
            rcases old w x h1 h2 with ⟨-, e⟩ | h3
            · rw [e]; exact hlt
            · exact I.unreg e k h0 w x h3 h2
          · intro e k h0 w x h1 h2
            rcases old w x h1 h2 with ⟨-, e⟩ | h3
            · refine ⟨by rw [e]; exact Nat.le_of_lt hlt, ?_⟩
              intro he
              simp only at he
              omega
            · obtain ⟨h4, h5⟩ := I.reg e k h0 w x h3 h2
              refine ⟨h4, fun he => ?_⟩
              have := h5 he
              show w ∈ ((run l).cbs ++ [v]).drop k
              rw [List.drop_append]
              exact List.mem_append_left _ this
        · exact inv_same I (by simp)
    | take =>
      have idle_case : ∀ k r, (run l).io = none → (run l).inbox = k :: r →
          Inv (l ++ [.take]) { run l with inbox := r, ids := upd (run l).ids k, io := some (k, 0) } := by
        intro k r hio hin
        constructor
        · exact I.nodup
        · exact I.mem
        · intro w x h1 h2
          obtain ⟨pre, mid, h5, h6⟩ := I.checked w x h1 h2
          exact ⟨pre, mid ++ [.take], by rw [h5]; simp, fun hn => absurd (by simp) hn⟩
        · intro h0; cases h0
        · intro e j h0 w x h1 h2
          cases h0
          have := I.idle hio w x h1 h2
          have := filter_length_le' (run l).ids e
          simp only; omega
        · intro e j h0 w x h1 h2
          cases h0
          have h3 := I.idle hio w x h1 h2
          have := upd_le (run l).ids e
          refine ⟨by simp only; omega, fun _ => ?_⟩
          simp only [List.drop_zero]
          exact (I.mem w).2 ⟨x, h1, h2⟩
      have same_case : Inv (l ++ [.take]) (run l) := by
        refine ⟨I.nodup, I.mem, ?_, I.idle, I.unreg, I.reg⟩
        intro w x h1 h2
        obtain ⟨pre, mid, h5, h6⟩ := I.checked w x h1 h2
        exact ⟨pre, mid ++ [.take], by rw [h5]; simp, fun hn => absurd (by simp) hn⟩
      simp only [step]
      split
      · rename_i k r hio hin
        exact idle_case k r hio hin
      · exact same_case
    | cb =>
      have I' := inv_same (a := .cb) I (by simp)
      simp only [step, loop]
      split
      · exact I'
      · rename_i k i hio
        split
        · rename_i hnone
          have hlen : (run l).cbs.length ≤ i := by simpa using hnone
          refine ⟨I'.nodup, I'.mem, I'.checked, ?_, by simp, by simp⟩
          intro _ w x h1 h2
          cases k with
          | unregister e => exact I.unreg e i hio w x h1 h2
          | register e =>
            obtain ⟨h3, h4⟩ := I.reg e i hio w x h1 h2
            rcases Nat.lt_or_ge (run l).ids.length x.n with h5 | h5
            · exact h5
            · have := h4 (by omega)
              rw [List.drop_eq_nil_of_le hlen] at this
              cases this
        · rename_i w hw
          obtain ⟨hi, hwi⟩ := List.getElem?_eq_some_iff.1 hw
          have hmem : w ∈ (run l).cbs := List.mem_of_getElem? hw
          obtain ⟨x, hx, hpc⟩ := (I.mem w).1 hmem
          simp only [notify, hx, hpc, if_true]
          have hdrop : (run l).cbs.drop i = w :: (run l).cbs.drop (i + 1) := by rw [List.drop_eq_getElem_cons hi, hwi]
          -- resolving `w`
          have res : ∀ o, (∀ e, k = .register e → x.n ≤ (run l).ids.length) → Inv (l ++ [.cb]) { resolve (run l) w o with io := some (k, i + 1) } := by
            intro o hk
            have hws := resolve_ws (run l) w o x hx
            have hcb : (resolve (run l) w o).cbs = (run l).cbs.erase w := by simp [resolve, hx]
            obtain ⟨r1, -, r3⟩ := resolve_rest (run l) w o
            have old : ∀ v y, (resolve (run l) w o).ws v = some y → (y.pc = .waiting ∨ y.pc = .checked) → v ≠ w ∧ (run l).ws v = some y := by
              intro v y hv hy
              rw [hws v] at hv
              split at hv
              · cases hv; simp at hy
              · rename_i hne; exact ⟨hne, hv⟩
            constructor
            · show (resolve (run l) w o).cbs.Nodup
              rw [hcb]; exact I.nodup.erase w
            · intro v
              show v ∈ (resolve (run l) w o).cbs ↔ ∃ y, (resolve (run l) w o).ws v = some y ∧ _
              rw [hcb, I.nodup.mem_erase_iff, I.mem]
              constructor
              · rintro ⟨hne, y, h1, h2⟩
                exact ⟨y, by rw [hws v, if_neg hne]; exact h1, h2⟩
              · rintro ⟨y, h1, h2⟩
                obtain ⟨h3, h4⟩ := old v y h1 (.inl h2)
                exact ⟨h3, y, h4, h2⟩
            · intro v y h1 h2
              obtain ⟨h3, h4⟩ := old v y h1 (.inr h2)
              obtain ⟨pre, mid, h5, h6⟩ := I'.checked v y h4 h2
              exact ⟨pre, mid, h5, by intro hn; show (resolve (run l) w o).ids.length < _; rw [r1]; exact h6 hn⟩
            · intro h0; cases h0
            · intro e j h0 v y h1 h2
              cases h0
              show (resolve (run l) w o).ids.length < _
              rw [r1]
              exact I.unreg e i hio v y (old v y h1 (.inl h2)).2 h2
            · intro e j h0 v y h1 h2
              cases h0
              show (resolve (run l) w o).ids.length ≤ _ ∧ ((resolve (run l) w o).ids.length = _ → _)
              rw [r1]
              obtain ⟨hne, hv⟩ := old v y h1 (.inl h2)
              have hle := (I.reg e i hio v y hv h2).1
              refine ⟨hle, fun he => ?_⟩
              exfalso
              have h7 := (I.reg e i hio w x hx hpc).1
              have h8 := hk e rfl
              have h9 : y.n = x.n := by omega
              obtain ⟨p1, q1, e1⟩ := made l v y hv
              obtain ⟨p2, q2, e2⟩ := made l w x hx
              exact hne (hD v w y.n y.timed x.timed (by rw [e1]; simp) (by rw [e2, h9]; simp))
          cases k with
          | unregister e => exact res _ (by simp)
          | register e =>
            simp only
            split
            · rename_i hn; exact res _ (fun _ _ => hn)
            · rename_i hn
              refine ⟨I'.nodup, I'.mem, I'.checked, by simp, by simp, ?_⟩
              intro e' j h0 v y h1 h2
              cases h0
              obtain ⟨h3, h4⟩ := I.reg e i hio v y h1 h2
              refine ⟨h3, fun he => ?_⟩
              have h5 := h4 he
              rw [hdrop] at h5
              rcases List.mem_cons.1 h5 with h6 | h6
              · subst h6
                rw [hx] at h1; cases h1
                simp only at he
                omega
              · exact h6
    | timer w =>
      simp only [step]
      split
      · rename_i x hio hx
        split
        · exact inv_resolve I w x _ hx hio (by simp)
        · exact inv_same I (by simp)
      · exact inv_same I (by simp)
    | stopped w =>
      have hio := hC l [] (.stopped w) (by simp) ⟨w, .inr rfl⟩
      simp only [step]
      split
      · exact inv_same I (by simp)
      · rename_i x hx
        split
        · exact inv_resolve I w x _ hx hio (by simp)
        · exact inv_same I (by simp)
    | cancel w =>
      have hio := hC l [] (.cancel w) (by simp) ⟨w, .inl rfl⟩
      simp only [step]
      split
      · exact inv_same I (by simp)
      · rename_i x hx
        split
        · exact inv_resolve I w x _ hx hio (by simp)
        · exact inv_same I (by simp)

/-- C72: a call is never left waiting when there are enough engines: whenever the input thread is not in the middle of a notification, every waiting call is for more engines than the
client knows. Under three conditions, none of which the code ensures (see the violations below). -/
theorem not_left_waiting_partial (h : List Ev) (hP : Prompt h) (hC : Calm h) (hD : Different h) (hio : (run h).io = none) (w n : Nat) (hw : Waiting h w n) :
    (run h).ids.length < n := by
  obtain ⟨x, h1, h2, h3⟩ := hw
  rw [← h3]
  exact (inv_run h hP hC hD).idle hio w x h1 h2

theorem erase_length_le (l : List Nat) (w : Nat) : (l.erase w).length ≤ l.length := (List.erase_sublist).length_le

theorem notify_cbs_le (s : S) (w : Nat) (k : Note) : (notify s w k).cbs.length ≤ s.cbs.length := by
  unfold notify resolve
  repeat' split
  all_goals first | exact Nat.le_refl _ | exact erase_length_le _ _

/-- C72: the input thread's loop over the callbacks comes to an end. -/
theorem loop_ends (h : List Ev) : ∃ n, (run (h ++ List.replicate n .cb)).io = none := by
  have gen : ∀ (m : Nat) (s : S), (match s.io with
      | none => 0
      | some (_, i) => s.cbs.length + 1 - i) ≤ m → ∃ n, ((List.replicate n Ev.cb).foldl step s).io = none := by
    intro m
    induction m with
    | zero =>
      intro s hm
      cases hio : s.io with
      | none => exact ⟨0, hio⟩
      | some p =>
        obtain ⟨k, i⟩ := p
        rw [hio] at hm
        simp only at hm
        refine ⟨1, ?_⟩
        have : s.cbs[i]? = none := by simp; omega
        simp [step, loop, hio, this]
    | succ m ih =>
      intro s hm
      cases hio : s.io with
      | none => exact ⟨0, hio⟩
      | some p =>
        obtain ⟨k, i⟩ := p
        rw [hio] at hm
        simp only at hm
        cases hc : s.cbs[i]? with
        | none => exact ⟨1, by simp [step, loop, hio, hc]⟩
        | some w =>
          have hstep : step s .cb = { notify s w k with io := some (k, i + 1) } := by simp [step, loop, hio, hc]
          have hle := notify_cbs_le s w k
          obtain ⟨n, hn⟩ := ih (step s .cb) (by rw [hstep]; simp only; omega)
          exact ⟨n + 1, by simpa [List.replicate_succ] using hn⟩
  obtain ⟨n, hn⟩ := gen _ (run h) (Nat.le_refl _)
  exact ⟨n, by simpa [run] using hn⟩

/-! ## what goes wrong otherwise -/

/-- Without `Prompt`: a lost wake-up. The last engine registers between the check and the registration of the callback: the call waits, with all its engines there, as long as nothing else
happens (no further notification, no timeout). -/
theorem lost_wakeup_violated (h : List Ev) (hq : ∀ e ∈ h, e = .take ∨ e = .cb) :
    Waiting ([.call 0 1 false, .note (.register 5), .take, .cb, .enter 0] ++ h) 0 1 ∧
    (run ([.call 0 1 false, .note (.register 5), .take, .cb, .enter 0] ++ h)).ids = [5] := by
  have key : ∀ h : List Ev, (∀ e ∈ h, e = .take ∨ e = .cb) →
      run ([.call 0 1 false, .note (.register 5), .take, .cb, .enter 0] ++ h) = run [.call 0 1 false, .note (.register 5), .take, .cb, .enter 0] := by
    intro h
    induction h using snoc_ind with
    | h0 => simp
    | h1 l a ih =>
      intro hq
      rw [← List.append_assoc, run_snoc, ih (fun e he => hq e (by simp [he]))]
      rcases hq a (by simp) with rfl | rfl
      · rfl
      · rfl
  rw [Waiting, key h hq]
  exact ⟨⟨{ n := 1, timed := false, pc := .waiting }, rfl, rfl, rfl⟩, rfl⟩

/-- Without `Different`: of two calls for the same number of engines only the first returns: it removes its callback from the list while the input thread goes through it, so that
the next one is skipped. The other waits although all its engines are there. -/
theorem second_waiter_skipped_violated (h : List Ev) (hq : ∀ e ∈ h, e = .take ∨ e = .cb) :
    Over ([.call 0 1 false, .enter 0, .call 1 1 false, .enter 1, .note (.register 5), .take, .cb, .cb] ++ h) 0 .ok ∧
    Waiting ([.call 0 1 false, .enter 0, .call 1 1 false, .enter 1, .note (.register 5), .take, .cb, .cb] ++ h) 1 1 ∧
    (run ([.call 0 1 false, .enter 0, .call 1 1 false, .enter 1, .note (.register 5), .take, .cb, .cb] ++ h)).ids = [5] := by
  have key : ∀ h : List Ev, (∀ e ∈ h, e = .take ∨ e = .cb) →
      run ([.call 0 1 false, .enter 0, .call 1 1 false, .enter 1, .note (.register 5), .take, .cb, .cb] ++ h) =
      run [.call 0 1 false, .enter 0, .call 1 1 false, .enter 1, .note (.register 5), .take, .cb, .cb] := by
    intro h
    induction h using snoc_ind with
    | h0 => simp
    | h1 l a ih =>
      intro hq
      rw [← List.append_assoc, run_snoc, ih (fun e he => hq e (by simp [he]))]
      rcases hq a (by simp) with rfl | rfl
      · rfl
      · rfl
  rw [Waiting, Over, key h hq]
  exact ⟨⟨{ n := 1, timed := false, pc := .over .ok }, rfl, rfl⟩, ⟨{ n := 1, timed := false, pc := .waiting }, rfl, rfl, rfl⟩, rfl⟩

/-- When an engine unregisters, every second waiting call is not told (for the same reason). -/
theorem unregister_skips_violated : Over [.call 0 2 false, .enter 0, .call 1 3 false, .enter 1, .note (.unregister 5), .take, .cb, .cb] 0 .engineError ∧
    Waiting [.call 0 2 false, .enter 0, .call 1 3 false, .enter 1, .note (.unregister 5), .take, .cb, .cb] 1 3 :=
  ⟨⟨{ n := 2, timed := false, pc := .over .engineError }, rfl, rfl⟩, ⟨{ n := 3, timed := false, pc := .waiting }, rfl, rfl, rfl⟩⟩

/-! ## a concrete case -/

def exH : List Ev := [.note (.register 0), .take, .cb, .call 0 2 true, .enter 0, .call 1 3 false, .enter 1, .note (.register 4), .note (.unregister 0), .take, .cb, .cb, .cb, .take, .cb, .cb]

example : Over exH 0 .ok ∧ Over exH 1 .engineError :=
  ⟨⟨{ n := 2, timed := true, pc := .over .ok }, rfl, rfl⟩, ⟨{ n := 3, timed := false, pc := .over .engineError }, rfl, rfl⟩⟩

/-- hypotheses of `not_left_waiting_partial` -/
def exW : List Ev := [.call 0 2 true, .enter 0, .note (.register 4), .take, .cb, .cb]

example : Prompt exW ∧ Calm exW ∧ Different exW ∧ (run exW).io = none ∧ Waiting exW 0 2 ∧ (run exW).ids = [4] := by
  refine ⟨?_, ?_, ?_, rfl, ⟨{ n := 2, timed := true, pc := .waiting }, rfl, rfl, rfl⟩, rfl⟩
  · intro pre mid post w n t h
    have hmid : mid = [] := by
      unfold exW at h
      rcases pre with _ | ⟨p, pre⟩
      · simp at h
        obtain ⟨⟨rfl, rfl, rfl⟩, h⟩ := h
        rcases mid with _ | ⟨m, mid⟩
        · rfl
        · exfalso
          have h2 := congrArg (fun l => l.count (Ev.enter 0)) h
          simp at h2
          have h3 := h
          simp at h3
          obtain ⟨rfl, h3⟩ := h3
          have h4 := congrArg (fun l => l.count (Ev.enter 0)) h3
          simp at h4
      · simp at h
        have h2 : Ev.call w n t ∈ [Ev.enter 0, .note (.register 4), .take, .cb, .cb] := by rw [h.2]; simp
        simp at h2
    simp [hmid]
  · intro pre post e h hx
    obtain ⟨w, hw⟩ := hx
    have : e ∈ exW := by rw [h]; simp
    rcases hw with rfl | rfl <;> simp [exW] at this
  · intro w v n t t' h1 h2
    simp [exW] at h1 h2
    omega

end IPP.WaitEngines
