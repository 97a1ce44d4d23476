/-!
# C44: flags of views — view.py:133-190 (`View.set_flags`, `temp_flags`), 1282-1330 (`LoadBalancedView.set_flags`)

The body of a `with` block is an arbitrary program that sets flags, opens further `with` blocks, raises and catches. Values of flags are opaque; how traits check and cast them is a parameter
(`Traits`): `Bool`, `Integer`, `CFloat` refuse or cast, `Any` accepts; casting what was stored before changes nothing.
-/
namespace IPP.View

/-- client/view.py:67-112, 1211-1236 -/
inductive Name where
  | targets | block | track | label | follow | after | timeout | retries
  /-- any other keyword -/
  | other (n : Nat)
  deriving DecidableEq, Repr

/-- values of traits, client/view.py:67-112 -/
abbrev Val := Nat

/-- client/view.py:67-112, 1211-1264 -/
structure Traits where
  /-- what `setattr` stores; `none`: TraitError -/
  cast : Name → Val → Option Val
  idem : ∀ n v w, cast n v = some w → cast n w = some w
  /-- `_validate_dependency` -/
  dep : Val → Bool
  /-- an int or float that is not negative, or None -/
  time : Val → Bool

/-- The class of the view: `_flag_names` — view.py:109, 1233-1235 -/
structure Cls where
  names : List Name
  balanced : Bool
  deriving DecidableEq, Repr

/-- client/view.py:67-112 -/
def direct : Cls := { names := [.targets, .block, .track, .label], balanced := false }
/-- client/view.py:1211-1236 -/
def loadBalanced : Cls := { names := [.targets, .block, .track, .follow, .after, .timeout, .retries, .label], balanced := true }

/-- the traits of a view, client/view.py:67-112 -/
abbrev Flags := Name → Val

/-- client/view.py:138-162 -/
def setF (s : Flags) (n : Name) (v : Val) : Flags := fun x => if x = n then v else s x

/-- `setattr(self, name, value)`; the flag: an exception — client/view.py:138-162 -/
def setattr (T : Traits) (s : Flags) (n : Name) (v : Val) : Flags × Bool := match T.cast n v with
  | some w => (setF s n w, false)
  | none => (s, true)

/-- `View.set_flags` — view.py:133-153 -/
def baseSet (T : Traits) (C : Cls) : List (Name × Val) → Flags → Flags × Bool
  | [], s => (s, false)
  | (n, v) :: kw, s =>
    if n ∉ C.names then (s, true) -- KeyError
    else match setattr T s n v with
      | (s, true) => (s, true)
      | (s, false) => baseSet T C kw s

/-- a keyword of the call — client/view.py:1278-1334 -/
def kwGet (kw : List (Name × Val)) (n : Name) : Option Val := (kw.find? (fun x => decide (x.1 = n))).map Prod.snd

/-- the checks of `follow` and `after` — view.py:1316-1322 -/
def setDep (T : Traits) (kw : List (Name × Val)) (n : Name) (s : Flags) : Flags × Bool := match kwGet kw n with
  | none => (s, false)
  | some v => if T.dep v then setattr T s n v else (s, true)

/-- the check of `timeout` — view.py:1323-1330 -/
def setTime (T : Traits) (kw : List (Name × Val)) (s : Flags) : Flags × Bool := match kwGet kw .timeout with
  | none => (s, false)
  | some v => if T.time v then setattr T s .timeout v else (s, true)

/-- Python's exceptions in client/view.py:138-162, 1278-1334 -/
def andThen (r : Flags × Bool) (f : Flags → Flags × Bool) : Flags × Bool := if r.2 then r else f r.1

/-- `set_flags` — client/view.py:138-162, 1278-1334 -/
def setFlags (T : Traits) (C : Cls) (kw : List (Name × Val)) (s : Flags) : Flags × Bool :=
  if C.balanced then andThen (andThen (andThen (baseSet T C kw s) (setDep T kw .follow)) (setDep T kw .after)) (setTime T kw)
  else baseSet T C kw s

/-- what may happen in a `with` block — client/view.py:164-194 -/
inductive Prog where
  | skip
  | raise
  | assign (n : Name) (v : Val)
  | set (kw : List (Name × Val))
  | seq (p q : Prog)
  /-- `try: p; except Exception: q` -/
  | tryExcept (p q : Prog)
  | withTemp (kw : List (Name × Val)) (p : Prog)
  deriving DecidableEq, Repr

/-- Runs a program; the flag: it ended with an exception. `withTemp` is `temp_flags` — view.py:155-190. -/
def exec (T : Traits) (C : Cls) : Prog → Flags → Flags × Bool
  | .skip, s => (s, false)
  | .raise, s => (s, true)
  | .assign n v, s => setattr T s n v
  | .set kw, s => setFlags T C kw s
  | .seq p q, s => andThen (exec T C p s) (exec T C q)
  | .tryExcept p q, s => let r := exec T C p s; if r.2 then exec T C q r.1 else r
  | .withTemp kw p, s =>
    let saved := C.names.map (fun n => (n, s n))
    let r := setFlags T C kw s
    if r.2 then r
    else
      let b := exec T C p r.1
      let e := setFlags T C saved b.1
      (e.1, b.2 || e.2)

/-- flags hold values that their traits accept -/
def Valid (T : Traits) (s : Flags) : Prop := ∀ n, T.cast n (s n) = some (s n)

theorem setattr_valid {T : Traits} {s : Flags} (h : Valid T s) (n : Name) (v : Val) : Valid T (setattr T s n v).1 := by
  unfold setattr
  cases hc : T.cast n v with
  | none => exact h
  | some w =>
    intro x
    simp only [setF]
    split
    · rename_i hx; rw [hx]; exact T.idem n v w hc
    · exact h x

theorem baseSet_valid {T : Traits} {C : Cls} (kw : List (Name × Val)) : ∀ {s : Flags}, Valid T s → Valid T (baseSet T C kw s).1 := by
  induction kw with
  | nil => intro s h; exact h
  | cons x kw ih =>
    intro s h
    obtain ⟨n, v⟩ := x
    unfold baseSet
    split
    · exact h
    · have := setattr_valid h n v
      split
      · rename_i heq; rw [heq] at this; exact this
      · rename_i heq; rw [heq] at this; exact ih this

theorem andThen_valid {T : Traits} {r : Flags × Bool} {f : Flags → Flags × Bool} (h : Valid T r.1) (hf : ∀ s, Valid T s → Valid T (f s).1) : Valid T (andThen r f).1 := by
  unfold andThen
  split
  · exact h
  · exact hf _ h

theorem setDep_valid {T : Traits} (kw : List (Name × Val)) (n : Name) (s : Flags) (h : Valid T s) : Valid T (setDep T kw n s).1 := by
  unfold setDep
  split
  · exact h
  · split
    · exact setattr_valid h _ _
    · exact h

theorem setTime_valid {T : Traits} (kw : List (Name × Val)) (s : Flags) (h : Valid T s) : Valid T (setTime T kw s).1 := by
  unfold setTime
  split
  · exact h
  · split
    · exact setattr_valid h _ _
    · exact h

theorem setFlags_valid {T : Traits} {C : Cls} (kw : List (Name × Val)) {s : Flags} (h : Valid T s) : Valid T (setFlags T C kw s).1 := by
  unfold setFlags
  split
  · exact andThen_valid (andThen_valid (andThen_valid (baseSet_valid kw h) (fun s => setDep_valid kw _ s)) (fun s => setDep_valid kw _ s)) (fun s => setTime_valid kw s)
  · exact baseSet_valid kw h

theorem exec_valid (T : Traits) (C : Cls) (p : Prog) : ∀ s, Valid T s → Valid T (exec T C p s).1 := by
  induction p with
  | skip => intro s h; exact h
  | raise => intro s h; exact h
  | assign n v => intro s h; exact setattr_valid h n v
  | set kw => intro s h; exact setFlags_valid kw h
  | seq p q ihp ihq => intro s h; exact andThen_valid (ihp s h) ihq
  | tryExcept p q ihp ihq =>
    intro s h
    simp only [exec]
    split
    · exact ihq _ (ihp s h)
    · exact ihp s h
  | withTemp kw p ih =>
    intro s h
    simp only [exec]
    split
    · exact setFlags_valid kw h
    · exact setFlags_valid _ (ih _ (setFlags_valid kw h))

/-- setting flags to valid values of `s0` makes them those of `s0`, whatever they were -/
theorem baseSet_saved {T : Traits} {C : Cls} {s0 : Flags} (h0 : Valid T s0) (ns : List Name) : ∀ s : Flags, (∀ n ∈ ns, n ∈ C.names) →
    (baseSet T C (ns.map (fun n => (n, s0 n))) s).2 = false ∧ (∀ n ∈ ns, (baseSet T C (ns.map (fun n => (n, s0 n))) s).1 n = s0 n) ∧
    (∀ n, n ∉ ns → (baseSet T C (ns.map (fun n => (n, s0 n))) s).1 n = s n) := by
  induction ns with
  | nil => intro s _; exact ⟨rfl, by simp, fun _ _ => rfl⟩
  | cons n ns ih =>
    intro s hn
    have hmem := hn n (by simp)
    have hset : setattr T s n (s0 n) = (setF s n (s0 n), false) := by simp [setattr, h0 n]
    simp only [List.map_cons, baseSet, hmem, not_true, if_false, hset]
    obtain ⟨h1, h2, h3⟩ := ih (setF s n (s0 n)) (fun x hx => hn x (by simp [hx]))
    refine ⟨h1, ?_, ?_⟩
    · intro x hx
      by_cases hxn : x ∈ ns
      · exact h2 x hxn
      · have : x = n := by simpa [hxn] using hx
        subst this
        rw [h3 x hxn]
        simp [setF]
    · intro x hx
      simp only [List.mem_cons, not_or] at hx
      rw [h3 x hx.2]
      simp [setF, hx.1]

theorem kwGet_saved {s0 : Flags} {ns : List Name} {n : Name} {v : Val} (h : kwGet (ns.map (fun n => (n, s0 n))) n = some v) : v = s0 n := by
  unfold kwGet at h
  simp only [Option.map_eq_some_iff] at h
  obtain ⟨x, hx, rfl⟩ := h
  have h1 := List.find?_some hx
  have h2 := List.mem_of_find?_eq_some hx
  obtain ⟨m, -, rfl⟩ := List.mem_map.1 h2
  simp only [decide_eq_true_eq] at h1
  rw [← h1]

/-- a step that keeps the flags of `s0` -/
theorem same_setattr {T : Traits} {s0 s : Flags} (h0 : Valid T s0) {ns : List Name} (h : ∀ n ∈ ns, s n = s0 n) (n : Name) : ∀ m ∈ ns, (setattr T s n (s0 n)).1 m = s0 m := by
  intro m hm
  simp only [setattr, h0 n, setF]
  split
  · rename_i hx; rw [hx]
  · exact h m hm

theorem setFlags_saved {T : Traits} {C : Cls} {s0 : Flags} (h0 : Valid T s0) (s : Flags) : ∀ n ∈ C.names, (setFlags T C (C.names.map (fun n => (n, s0 n))) s).1 n = s0 n := by
  obtain ⟨h1, h2, -⟩ := baseSet_saved (C := C) h0 C.names s (fun _ h => h)
  have dep : ∀ k s, (∀ n ∈ C.names, s n = s0 n) → ∀ n ∈ C.names, (setDep T (C.names.map (fun n => (n, s0 n))) k s).1 n = s0 n := by
    intro k s h
    unfold setDep
    split
    · exact h
    · rename_i v hv
      split
      · rw [kwGet_saved hv]; exact same_setattr h0 h k
      · exact h
  have time : ∀ s, (∀ n ∈ C.names, s n = s0 n) → ∀ n ∈ C.names, (setTime T (C.names.map (fun n => (n, s0 n))) s).1 n = s0 n := by
    intro s h
    unfold setTime
    split
    · exact h
    · rename_i v hv
      split
      · rw [kwGet_saved hv]; exact same_setattr h0 h _
      · exact h
  have seq : ∀ (r : Flags × Bool) (f : Flags → Flags × Bool), (∀ n ∈ C.names, r.1 n = s0 n) → (∀ s, (∀ n ∈ C.names, s n = s0 n) → ∀ n ∈ C.names, (f s).1 n = s0 n) →
      ∀ n ∈ C.names, (andThen r f).1 n = s0 n := by
    intro r f hr hf
    unfold andThen
    split
    · exact hr
    · exact hf _ hr
  unfold setFlags
  split
  · exact seq _ _ (seq _ _ (seq _ _ h2 (dep _)) (dep _)) time
  · exact h2

/-- C44: if the `with` statement was entered, then after the block every flag is what it was before, whatever the block did, and whether it ended with an exception or not. -/
theorem flags_restored_partial (T : Traits) (C : Cls) (s : Flags) (h : Valid T s) (kw : List (Name × Val)) (p : Prog) (hin : (setFlags T C kw s).2 = false) :
    ∀ n ∈ C.names, (exec T C (.withTemp kw p) s).1 n = s n := by
  simp only [exec, hin, Bool.false_eq_true, if_false]
  exact setFlags_saved h _

/-- C44: a failing block makes the `with` statement fail: exceptions are not swallowed. -/
theorem exception_kept (T : Traits) (C : Cls) (s : Flags) (kw : List (Name × Val)) (p : Prog) (hin : (setFlags T C kw s).2 = false)
    (hp : (exec T C p (setFlags T C kw s).1).2 = true) : (exec T C (.withTemp kw p) s).2 = true := by
  simp [exec, hin, hp]

/-- C44: without a failure inside and with flags that were set by `set_flags` (valid dependencies and timeout), the statement succeeds. -/
theorem no_exception_added (T : Traits) (C : Cls) (s : Flags) (h : Valid T s) (hd : ∀ n, n = .follow ∨ n = .after → T.dep (s n) = true) (ht : T.time (s .timeout) = true)
    (kw : List (Name × Val)) (p : Prog) (hin : (setFlags T C kw s).2 = false) (hp : (exec T C p (setFlags T C kw s).1).2 = false) : (exec T C (.withTemp kw p) s).2 = false := by
  simp only [exec, hin, Bool.false_eq_true, if_false, hp, Bool.false_or]
  obtain ⟨h1, -, -⟩ := baseSet_saved (C := C) h C.names (exec T C p (setFlags T C kw s).1).1 (fun _ h => h)
  generalize (exec T C p (setFlags T C kw s).1).1 = x at h1 ⊢
  clear hin hp
  have seq : ∀ (r : Flags × Bool) (f : Flags → Flags × Bool), r.2 = false → (∀ s, (f s).2 = false) → (andThen r f).2 = false := by
    intro r f hr hf
    unfold andThen
    rw [hr]
    exact hf _
  unfold setFlags
  split
  · have d : ∀ n, n = .follow ∨ n = .after → ∀ s', (setDep T (C.names.map (fun n => (n, s n))) n s').2 = false := by
      intro n hn s'
      unfold setDep
      split
      · rfl
      · rename_i v hv
        rw [kwGet_saved hv, hd n hn]
        simp [setattr, h n]
    have t : ∀ s', (setTime T (C.names.map (fun n => (n, s n))) s').2 = false := by
      intro s'
      unfold setTime
      split
      · rfl
      · rename_i v hv
        rw [kwGet_saved hv, ht]
        simp [setattr, h .timeout]
    exact seq _ _ (seq _ _ (seq _ _ h1 (d .follow (.inl rfl))) (d .after (.inr rfl))) t
  · exact h1

/-- traits where everything is stored as it is, except that `block` must be 0 or 1 -/
def exT : Traits where
  cast n v := if n = .block ∧ v > 1 then none else some v
  idem n v w h := by
    split at h
    · cases h
    · rename_i hc; cases h; simp only [hc, if_false]
  dep v := v < 10
  time v := v < 10

example : Valid exT (fun _ => 0) ∧ (setFlags exT loadBalanced [(.block, 1), (.after, 3)] (fun _ => 0)).2 = false ∧
    (exec exT loadBalanced (.withTemp [(.block, 1), (.after, 3)] (.seq (.assign .block 0) (.seq (.set [(.retries, 7)]) .raise))) (fun _ => 0)).2 = true :=
  ⟨fun n => by simp [exT], by decide, by decide⟩

/-! ## what `set_flags` does -/

theorem setattr_eq (T : Traits) (s : Flags) (n : Name) (v : Val) : (setattr T s n v).2 = false → ∃ w, T.cast n v = some w ∧ (setattr T s n v).1 = setF s n w := by
  unfold setattr
  cases T.cast n v with
  | none => simp
  | some w => intro _; exact ⟨w, rfl, rfl⟩

/-- The flags are exactly the given ones, the others are those of `s`. -/
def Stored (T : Traits) (kw : List (Name × Val)) (s s' : Flags) : Prop :=
  (∀ n v, (n, v) ∈ kw → T.cast n v = some (s' n)) ∧ ∀ n, (∀ v, (n, v) ∉ kw) → s' n = s n

theorem baseSet_ok_iff (T : Traits) (C : Cls) (kw : List (Name × Val)) : ∀ s, (baseSet T C kw s).2 = false ↔ ∀ n v, (n, v) ∈ kw → n ∈ C.names ∧ T.cast n v ≠ none := by
  induction kw with
  | nil => intro s; simp [baseSet]
  | cons x kw ih =>
    obtain ⟨n, v⟩ := x
    intro s
    unfold baseSet
    by_cases hn : n ∈ C.names
    · simp only [hn, not_true, if_false]
      cases hc : T.cast n v with
      | none =>
        have hs : setattr T s n v = (s, true) := by simp [setattr, hc]
        rw [hs]
        simp only [Bool.true_eq_false, false_iff]
        intro h
        exact (h n v (by simp)).2 hc
      | some w =>
        have hs : setattr T s n v = (setF s n w, false) := by simp [setattr, hc]
        rw [hs]
        simp only
        rw [ih]
        constructor
        · intro h n' v' hm
          rcases List.mem_cons.1 hm with hm | hm
          · cases hm; exact ⟨hn, by simp [hc]⟩
          · exact h n' v' hm
        · intro h n' v' hm
          exact h n' v' (by simp [hm])
    · simp only [hn, not_false_eq_true, if_true, Bool.true_eq_false, false_iff]
      intro h
      exact hn (h n v (by simp)).1

theorem baseSet_stored (T : Traits) (C : Cls) (kw : List (Name × Val)) : ∀ s, (kw.map Prod.fst).Nodup → (baseSet T C kw s).2 = false → Stored T kw s (baseSet T C kw s).1 := by
  induction kw with
  | nil => intro s _ _; exact ⟨by simp, fun _ _ => rfl⟩
  | cons x kw ih =>
    obtain ⟨n, v⟩ := x
    intro s hnd h
    have hok := (baseSet_ok_iff T C _ s).1 h
    obtain ⟨hn, hc⟩ := hok n v (by simp)
    cases hc' : T.cast n v with
    | none => exact absurd hc' hc
    | some w =>
      have hs : setattr T s n v = (setF s n w, false) := by simp [setattr, hc']
      have e : baseSet T C ((n, v) :: kw) s = baseSet T C kw (setF s n w) := by
        conv => lhs; unfold baseSet
        simp only [hn, not_true, if_false, hs]
      rw [e] at h ⊢
      simp only [List.map_cons, List.nodup_cons] at hnd
      obtain ⟨h1, h2⟩ := ih _ hnd.2 h
      refine ⟨fun n' v' hm => ?_, fun n' hm => ?_⟩
      · rcases List.mem_cons.1 hm with hm | hm
        · cases hm
          rw [h2 n (fun v'' hv => hnd.1 (List.mem_map.2 ⟨_, hv, rfl⟩)), hc']
          simp [setF]
        · exact h1 n' v' hm
      · rw [h2 n' (fun v' hv => hm v' (by simp [hv]))]
        have : n' ≠ n := fun hh => hm v (by simp [hh])
        simp [setF, this]

theorem kwGet_some_iff {kw : List (Name × Val)} (hnd : (kw.map Prod.fst).Nodup) (n : Name) (v : Val) : kwGet kw n = some v ↔ (n, v) ∈ kw := by
  induction kw with
  | nil => simp [kwGet]
  | cons x kw ih =>
    obtain ⟨k, w⟩ := x
    simp only [List.map_cons, List.nodup_cons] at hnd
    unfold kwGet at ih ⊢
    by_cases hk : k = n
    · subst hk
      simp only [List.find?_cons, decide_true, Option.map_some, Option.some.injEq, List.mem_cons, Prod.mk.injEq, true_and]
      constructor
      · intro h; exact .inl h.symm
      · intro h
        rcases h with h | h
        · exact h.symm
        · exact absurd (List.mem_map.2 ⟨_, h, rfl⟩) hnd.1
    · simp only [List.find?_cons, hk, decide_false, List.mem_cons, Prod.mk.injEq]
      rw [ih hnd.2]
      constructor
      · intro h; exact .inr h
      · intro h
        rcases h with ⟨h, _⟩ | h
        · exact absurd h.symm hk
        · exact h

/-- setting a flag again to the same value -/
theorem Stored.again {T : Traits} {kw : List (Name × Val)} {s s' : Flags} (h : Stored T kw s s') {n : Name} {v : Val} (hm : (n, v) ∈ kw) : setattr T s' n v = (s', false) := by
  have := h.1 n v hm
  unfold setattr
  rw [this]
  simp only [Prod.mk.injEq, and_true]
  funext x
  simp only [setF]
  split
  · rename_i hx; rw [hx]
  · rfl

theorem setDep_again {T : Traits} {kw : List (Name × Val)} {s s' : Flags} (hnd : (kw.map Prod.fst).Nodup) (h : Stored T kw s s') (n : Name) :
    (setDep T kw n s').1 = s' ∧ ((setDep T kw n s').2 = false ↔ ∀ v, (n, v) ∈ kw → T.dep v = true) := by
  unfold setDep
  cases hk : kwGet kw n with
  | none => exact ⟨rfl, by simpa using fun v hv => by rw [(kwGet_some_iff hnd n v).2 hv] at hk; cases hk⟩
  | some v =>
    have hm := (kwGet_some_iff hnd n v).1 hk
    have huniq : ∀ v', (n, v') ∈ kw → v' = v := fun v' hv' => by
      have := (kwGet_some_iff hnd n v').2 hv'
      rw [hk] at this; cases this; rfl
    by_cases hd : T.dep v = true
    · simp only [hd, if_true, h.again hm, true_and, true_iff]
      intro v' hv'; rw [huniq v' hv', hd]
    · simp only [hd, Bool.false_eq_true, if_false, Bool.true_eq_false, true_and, false_iff]
      intro hh; exact hd (hh v hm)

theorem setTime_again {T : Traits} {kw : List (Name × Val)} {s s' : Flags} (hnd : (kw.map Prod.fst).Nodup) (h : Stored T kw s s') :
    (setTime T kw s').1 = s' ∧ ((setTime T kw s').2 = false ↔ ∀ v, (Name.timeout, v) ∈ kw → T.time v = true) := by
  unfold setTime
  cases hk : kwGet kw .timeout with
  | none => exact ⟨rfl, by simpa using fun v hv => by rw [(kwGet_some_iff hnd _ v).2 hv] at hk; cases hk⟩
  | some v =>
    have hm := (kwGet_some_iff hnd _ v).1 hk
    have huniq : ∀ v', (Name.timeout, v') ∈ kw → v' = v := fun v' hv' => by
      have := (kwGet_some_iff hnd _ v').2 hv'
      rw [hk] at this; cases this; rfl
    by_cases hd : T.time v = true
    · simp only [hd, if_true, h.again hm, true_and, true_iff]
      intro v' hv'; rw [huniq v' hv', hd]
    · simp only [hd, Bool.false_eq_true, if_false, Bool.true_eq_false, true_and, false_iff]
      intro hh; exact hd (hh v hm)

theorem setFlags_both (T : Traits) (C : Cls) (kw : List (Name × Val)) (hnd : (kw.map Prod.fst).Nodup) (s : Flags) :
    ((setFlags T C kw s).2 = false ↔ (∀ n v, (n, v) ∈ kw → n ∈ C.names ∧ T.cast n v ≠ none) ∧
      (C.balanced = true → (∀ v, (Name.follow, v) ∈ kw → T.dep v = true) ∧ (∀ v, (Name.after, v) ∈ kw → T.dep v = true) ∧ (∀ v, (Name.timeout, v) ∈ kw → T.time v = true))) ∧
    ((setFlags T C kw s).2 = false → Stored T kw s (setFlags T C kw s).1) := by
  unfold setFlags
  cases hb : C.balanced with
  | false =>
    simp only [Bool.false_eq_true, if_false, false_imp_iff, and_true]
    exact ⟨baseSet_ok_iff T C kw s, baseSet_stored T C kw s hnd⟩
  | true =>
    simp only [if_true, true_imp_iff]
    rw [← baseSet_ok_iff T C kw s]
    cases h : (baseSet T C kw s).2 with
    | true => simp [andThen, h]
    | false =>
      have hs := baseSet_stored T C kw s hnd h
      obtain ⟨f1, f2⟩ := setDep_again hnd hs .follow
      obtain ⟨a1, a2⟩ := setDep_again hnd hs .after
      obtain ⟨t1, t2⟩ := setTime_again hnd hs
      simp only [true_and, ← f2, ← a2, ← t2]
      generalize hs' : (baseSet T C kw s).1 = s' at *
      have e0 : ∀ f, andThen (baseSet T C kw s) f = f s' := fun f => by simp [andThen, h, hs']
      rw [e0]
      cases hf : (setDep T kw .follow s').2 with
      | true => simp [andThen, hf]
      | false =>
        have e1 : ∀ f, andThen (setDep T kw .follow s') f = f s' := fun f => by simp [andThen, hf, f1]
        rw [e1]
        cases ha : (setDep T kw .after s').2 with
        | true => simp [andThen, ha]
        | false =>
          have e2 : ∀ f, andThen (setDep T kw .after s') f = f s' := fun f => by simp [andThen, ha, a1]
          rw [e2, t1]
          simp [hs]

/-- C44: `set_flags` succeeds exactly if every keyword is a flag of the view and every value is acceptable for its trait and, for a load-balanced view, the
dependencies and the timeout are valid. -/
theorem set_flags_ok_iff (T : Traits) (C : Cls) (kw : List (Name × Val)) (hnd : (kw.map Prod.fst).Nodup) (s : Flags) :
    (setFlags T C kw s).2 = false ↔ (∀ n v, (n, v) ∈ kw → n ∈ C.names ∧ T.cast n v ≠ none) ∧
      (C.balanced = true → (∀ v, (Name.follow, v) ∈ kw → T.dep v = true) ∧ (∀ v, (Name.after, v) ∈ kw → T.dep v = true) ∧ (∀ v, (Name.timeout, v) ∈ kw → T.time v = true)) :=
  (setFlags_both T C kw hnd s).1

/-- C44: and then exactly the given flags have changed, to the (cast) values. -/
theorem set_flags_exact (T : Traits) (C : Cls) (kw : List (Name × Val)) (hnd : (kw.map Prod.fst).Nodup) (s : Flags) (h : (setFlags T C kw s).2 = false) :
    (∀ n v, (n, v) ∈ kw → T.cast n v = some ((setFlags T C kw s).1 n)) ∧ ∀ n, (∀ v, (n, v) ∉ kw) → (setFlags T C kw s).1 n = s n :=
  (setFlags_both T C kw hnd s).2 h

/-- C44: the flags by name: a direct view restores its four, a load-balanced view its eight, and neither accepts any other. -/
theorem flags_by_name (T : Traits) (s : Flags) (h : Valid T s) (kw : List (Name × Val)) (p : Prog) :
    ((setFlags T direct kw s).2 = false → ∀ n ∈ [Name.targets, .block, .track, .label], (exec T direct (.withTemp kw p) s).1 n = s n) ∧
    ((setFlags T loadBalanced kw s).2 = false →
      ∀ n ∈ [Name.targets, .block, .track, .label, .follow, .after, .timeout, .retries], (exec T loadBalanced (.withTemp kw p) s).1 n = s n) := by
  refine ⟨fun hin n hn => flags_restored_partial T direct s h kw p hin n ?_, fun hin n hn => flags_restored_partial T loadBalanced s h kw p hin n ?_⟩
  · simpa [direct] using hn
  · revert hn; simp [loadBalanced]; intro hn; rcases hn with h | h | h | h | h | h | h | h <;> simp [h]

/-- C44: `set_flags` on a load-balanced view accepts its eight flags, alone or together, whatever valid values they get. -/
theorem all_flags_settable (T : Traits) (s : Flags) (v : Name → Val) (hc : ∀ n, T.cast n (v n) ≠ none) (hd : ∀ n, T.dep (v n) = true) (ht : T.time (v .timeout) = true) (ns : List Name) (hnd : ns.Nodup)
    (hn : ∀ n ∈ ns, n ∈ [Name.targets, .block, .track, .label, .follow, .after, .timeout, .retries]) : (setFlags T loadBalanced (ns.map fun n => (n, v n)) s).2 = false := by
  rw [set_flags_ok_iff T loadBalanced _ (by simpa [Function.comp_def] using hnd) s]
  have hv : ∀ n w, (n, w) ∈ ns.map (fun n => (n, v n)) → n ∈ ns ∧ w = v n := by
    intro n w h
    obtain ⟨k, hk, e⟩ := List.mem_map.1 h
    cases e; exact ⟨hk, rfl⟩
  refine ⟨fun n w h => ?_, fun _ => ⟨fun w h => ?_, fun w h => ?_, fun w h => ?_⟩⟩
  · obtain ⟨h1, rfl⟩ := hv n w h
    refine ⟨?_, hc n⟩
    have := hn n h1
    revert this; simp [loadBalanced]; intro hn; rcases hn with h | h | h | h | h | h | h | h <;> simp [h]
  · rw [(hv _ w h).2]; exact hd _
  · rw [(hv _ w h).2]; exact hd _
  · rw [(hv _ w h).2]; exact ht

example : (setFlags exT loadBalanced [(.block, 1), (.retries, 3), (.label, 4)] (fun _ => 0)).2 = false ∧ (setFlags exT direct [(.retries, 3)] (fun _ => 0)).2 = true ∧
    (setFlags exT loadBalanced [(.block, 5)] (fun _ => 0)).2 = true ∧ (setFlags exT loadBalanced [(.timeout, 50)] (fun _ => 0)).2 = true := by decide

/-- C44, violated: flags are set one after the other before the `try`: if a later keyword is refused, those before it stay changed (for all views, flags and values). -/
theorem entry_failure_leaks_violated (T : Traits) (C : Cls) (s : Flags) (n : Name) (v w : Val) (k : Nat) (hn : n ∈ C.names) (hk : Name.other k ∉ C.names) (hv : T.cast n v = some w) (hne : w ≠ s n)
    (u : Val) (p : Prog) : (exec T C (.withTemp [(n, v), (.other k, u)] p) s).1 n ≠ s n ∧ (exec T C (.withTemp [(n, v), (.other k, u)] p) s).2 = true := by
  have hb : baseSet T C [(n, v), (.other k, u)] s = (setF s n w, true) := by
    simp [baseSet, hn, setattr, hv, hk]
  have e : setFlags T C [(n, v), (.other k, u)] s = (setF s n w, true) := by
    unfold setFlags
    split
    · simp [hb, andThen]
    · exact hb
  simp only [exec, e, if_true, setF]
  exact ⟨hne, trivial⟩

/-- C44, violated: a refused dependency is stored all the same. -/
theorem refused_dependency_stored_violated : (exec exT loadBalanced (.withTemp [(.after, 99)] .skip) (fun _ => 0)).1 .after = 99 ∧
    (exec exT loadBalanced (.withTemp [(.after, 99)] .skip) (fun _ => 0)).2 = true := by decide

/-! ## the history of a view: `save_ids` — view.py:34-46 -/

/-- `l[-n:]` — client/view.py:35-46 -/
def lastN {α : Type} (l : List α) (n : Nat) : List α := if n = 0 then l else l.drop (l.length - n)

/-- `save_ids` around a call that sent the messages `new`: the client's history, the view's — client/view.py:35-46 -/
def saveIds {α : Type} (client view new : List α) : List α × List α :=
  let client' := client ++ new
  let nmsgs := client'.length - client.length
  (client', view ++ lastN client' nmsgs)

/-- C51: a call that sends messages adds exactly these to the view's history, in order. -/
theorem save_ids_exact_partial {α : Type} (client view new : List α) (h : new ≠ []) : saveIds client view new = (client ++ new, view ++ new) := by
  have hl : new.length ≠ 0 := by simpa using h
  simp [saveIds, lastN, hl]

example : saveIds [1, 2] [1] [3, 4] = ([1, 2, 3, 4], [1, 3, 4]) := by decide

/-- C51, violated: a call that sends nothing (it fails before sending) adds the client's whole history to the view's: requests of other views, and its own for the second time. -/
theorem save_ids_nothing_violated {α : Type} (client view : List α) : saveIds client view [] = (client, view ++ client) := by
  simp [saveIds, lastN]

end IPP.View
